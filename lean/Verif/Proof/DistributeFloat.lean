import Verif.Model.StructuresFloat
import Verif.Proof.Distribute
import Verif.Proof.Double
/-
The random distribution in floats.
-/
namespace Phenum
open Spec

variable {fl : ℚ → ℚ}

theorem isDouble_nat {k : ℕ} (h : k ≤ 2 ^ 53) : IsDouble (k : ℚ) := by
  have := isDouble_int (z := (k : ℤ)) (by rw [Nat.abs_cast]; exact_mod_cast h)
  simpa using this

theorem fl_nat (hfl : RoundsToNearest fl) {k : ℕ} (h : k ≤ 2 ^ 53) : fl (k : ℚ) = k := fl_of_isDouble hfl (isDouble_nat h)

theorem fl_between (hfl : RoundsToNearest fl) {x : ℚ} (hx : 0 ≤ x) : x * (1 - 1 / 2 ^ 53) ≤ fl x ∧ fl x ≤ x * (1 + 1 / 2 ^ 53) := by
  have h := nearest_rounds hfl x
  rw [abs_of_nonneg hx, abs_le] at h
  constructor <;> linarith [h.1, h.2]

/-- the relative error of a share -/
theorem shareF_between (hfl : RoundsToNearest fl) {m g l : ℕ} (hm : m ≤ 2 ^ 53) (hg : g ≤ 2 ^ 53) (hl : l ≤ 2 ^ 53) :
    share m g l * (1 - 1 / 2 ^ 53) ^ 2 ≤ shareF fl m g l ∧ shareF fl m g l ≤ share m g l * (1 + 1 / 2 ^ 53) ^ 2 := by
  unfold shareF share
  rw [fl_nat hfl hl, fl_nat hfl hg, fl_nat hfl hm]
  have h0 : (0 : ℚ) ≤ (l : ℚ) / g := by positivity
  have hm0 : (0 : ℚ) ≤ m := by positivity
  obtain ⟨a1, a2⟩ := fl_between hfl h0
  have hf0 : 0 ≤ fl ((l : ℚ) / g) := le_trans (mul_nonneg h0 (by norm_num)) a1
  obtain ⟨b1, b2⟩ := fl_between hfl (mul_nonneg hf0 hm0)
  constructor
  · calc _ = (l : ℚ) / g * (1 - 1 / 2 ^ 53) * m * (1 - 1 / 2 ^ 53) := by ring
      _ ≤ fl ((l : ℚ) / g) * m * (1 - 1 / 2 ^ 53) := by
        apply mul_le_mul_of_nonneg_right _ (by norm_num)
        exact mul_le_mul_of_nonneg_right a1 hm0
      _ ≤ _ := b1
  · calc _ ≤ fl ((l : ℚ) / g) * m * (1 + 1 / 2 ^ 53) := b2
      _ ≤ (l : ℚ) / g * (1 + 1 / 2 ^ 53) * m * (1 + 1 / 2 ^ 53) := by
        apply mul_le_mul_of_nonneg_right _ (by norm_num)
        exact mul_le_mul_of_nonneg_right a2 hm0
      _ = _ := by ring

theorem shareF_nonneg (hfl : RoundsToNearest fl) {m g l : ℕ} (hm : m ≤ 2 ^ 53) (hg : g ≤ 2 ^ 53) (hl : l ≤ 2 ^ 53) : 0 ≤ shareF fl m g l :=
  le_trans (mul_nonneg (share_nonneg m g l) (by positivity)) (shareF_between hfl hm hg hl).1

theorem share_le {m g l : ℕ} (hl : l ≤ g) : share m g l ≤ m := by
  unfold share
  rcases Nat.eq_zero_or_pos g with h | h
  · subst h; simp
  · have : (l : ℚ) / g ≤ 1 := by rw [div_le_one (by exact_mod_cast h)]; exact_mod_cast hl
    calc _ ≤ 1 * (m : ℚ) := mul_le_mul_of_nonneg_right this (by positivity)
      _ = m := one_mul _

/-- the absolute error of a share -/
theorem shareF_err (hfl : RoundsToNearest fl) {m n g l : ℕ} (hm : m ≤ n) (hn : n ≤ 2 ^ 53) (hg : g ≤ 2 ^ 53) (hl : l ≤ g) :
    |shareF fl m g l - share m g l| ≤ n / 2 ^ 51 := by
  obtain ⟨a1, a2⟩ := shareF_between hfl (m := m) (g := g) (l := l) (by omega) hg (by omega)
  have h0 := share_nonneg m g l
  have h1 := share_le (m := m) hl
  have h2 : (m : ℚ) ≤ n := by exact_mod_cast hm
  rw [abs_le]
  constructor <;> nlinarith

/-- larger limits have larger shares -/
theorem shareF_lt (hfl : RoundsToNearest fl) {n g l l' : ℕ} (hn0 : 0 < n) (hn : n ≤ 2 ^ 50) (hg : g ≤ 2 ^ 50) (hl : l < l') (hl' : l' ≤ g) :
    shareF fl n g l < shareF fl n g l' := by
  obtain ⟨-, a2⟩ := shareF_between hfl (m := n) (g := g) (l := l) (by omega) (by omega) (by omega)
  obtain ⟨b1, -⟩ := shareF_between hfl (m := n) (g := g) (l := l') (by omega) (by omega) (by omega)
  refine lt_of_le_of_lt a2 (lt_of_lt_of_le ?_ b1)
  have hg0 : (0 : ℚ) < g := by have : 0 < g := by omega
                               exact_mod_cast this
  have hn' : (0 : ℚ) < n := by exact_mod_cast hn0
  have h1 : (l : ℚ) + 1 ≤ l' := by exact_mod_cast hl
  have h2 : (l : ℚ) ≤ 1125899906842624 := by have : l ≤ 1125899906842624 := by omega
                                             exact_mod_cast this
  have h3 : (l : ℚ) * (1 + 1 / 2 ^ 53) ^ 2 < l' * (1 - 1 / 2 ^ 53) ^ 2 := by
    have h4 : ((l : ℚ) + 1) * (1 - 1 / 2 ^ 53) ^ 2 ≤ l' * (1 - 1 / 2 ^ 53) ^ 2 := mul_le_mul_of_nonneg_right h1 (by positivity)
    refine lt_of_lt_of_le ?_ h4
    norm_num
    linarith
  have e : ∀ x : ℚ, x / g * n = x * (n / g) := by intro x; ring
  unfold share
  rw [e, e, mul_right_comm, mul_right_comm (l' : ℚ)]
  exact mul_lt_mul_of_pos_right h3 (by positivity)

theorem shareF_ge_iff (hfl : RoundsToNearest fl) {n g l l' : ℕ} (hn : n ≤ 2 ^ 50) (hg : g ≤ 2 ^ 50) (hl : l ≤ g) (hl' : l' ≤ g) :
    shareF fl n g l ≥ shareF fl n g l' ↔ share n g l ≥ share n g l' := by
  rcases Nat.eq_zero_or_pos n with rfl | hn0
  · have e : ∀ x, shareF fl 0 g x = fl (fl (fl x / fl g) * 0) := by
      intro x
      unfold shareF
      rw [Nat.cast_zero, show fl 0 = 0 by have := fl_nat hfl (k := 0) (by norm_num); simpa using this]
    simp only [e, mul_zero]
    unfold share
    simp
  · have hs : ∀ a b : ℕ, a < b → b ≤ g → share n g a < share n g b := by
      intro a b hab hb
      unfold share
      have h1 : (a : ℚ) < b := by exact_mod_cast hab
      have h2 : (0 : ℚ) < g := by have : 0 < g := by omega
                                  exact_mod_cast this
      have h3 : (0 : ℚ) < n := by exact_mod_cast hn0
      exact mul_lt_mul_of_pos_right (div_lt_div_of_pos_right h1 h2) h3
    rcases Nat.lt_trichotomy l l' with h | h | h
    · have a := shareF_lt hfl hn0 hn hg h hl'
      have b := hs l l' h hl'
      constructor <;> intro c <;> linarith
    · subst h; simp
    · have a := shareF_lt hfl hn0 hn hg h hl
      have b := hs l' l h hl
      constructor <;> intro _ <;> linarith

/-- the number drawn -/
theorem drawCountF_eq (hfl : RoundsToNearest fl) {v r : ℚ} (h0 : 0 ≤ v) (h1 : v < 2 ^ 53) : drawCountF fl v r = drawCount v r := by
  unfold drawCountF drawCount
  have hf0 : 0 ≤ ⌊v⌋ := Int.floor_nonneg.mpr h0
  have hf1 : ⌊v⌋ < 2 ^ 53 := by
    rw [Int.floor_lt]
    exact_mod_cast h1
  have e : (⌊v⌋ : ℚ) + (if r < Int.fract v then 1 else 0) = ((⌊v⌋ + (if r < Int.fract v then 1 else 0) : ℤ) : ℚ) := by
    split <;> simp
  rw [e, fl_of_isDouble hfl (isDouble_int (by rw [abs_le]; split <;> constructor <;> omega)), Int.floor_intCast]

/-- a share that is slightly wrong gives the same number unless the random number is too close to the fractional part, to 0 or to 1 -/
theorem drawCount_near {v v' r ε : ℚ} (h : |v' - v| ≤ ε) (h1 : ε ≤ r) (h2 : r < 1 - ε) (h3 : ε < |r - Int.fract v|) :
    drawCount v' r = drawCount v r := by
  rw [abs_le] at h
  have a1 := Int.floor_le v
  have a2 := Int.lt_floor_add_one v
  have b1 := Int.floor_le v'
  have b2 := Int.lt_floor_add_one v'
  have hlo : ⌊v⌋ - 1 ≤ ⌊v'⌋ := by
    rw [Int.le_floor]; push_cast; linarith [h.1]
  have hhi : ⌊v'⌋ ≤ ⌊v⌋ + 1 := by
    have : (⌊v'⌋ : ℚ) < (⌊v⌋ + 2 : ℤ) := by push_cast; linarith [h.2]
    have : ⌊v'⌋ < ⌊v⌋ + 2 := by exact_mod_cast this
    omega
  unfold drawCount
  unfold Int.fract at *
  have hcase : ⌊v'⌋ = ⌊v⌋ - 1 ∨ ⌊v'⌋ = ⌊v⌋ ∨ ⌊v'⌋ = ⌊v⌋ + 1 := by omega
  rcases hcase with e | e | e
  · rw [e] at b2 ⊢
    push_cast at b2 ⊢
    rw [if_pos (by linarith [h.1]), if_neg (by linarith [h.1])]
    congr 1
    omega
  · rw [e]
    rcases lt_or_ge (r - (v - ⌊v⌋)) 0 with hs | hs
    · rw [abs_of_neg hs] at h3
      rw [if_pos (by linarith [h.1]), if_pos (by linarith)]
    · rw [abs_of_nonneg hs] at h3
      rw [if_neg (by linarith [h.2]), if_neg (by linarith)]
  · rw [e] at b1 ⊢
    push_cast at b1 ⊢
    rw [if_neg (by linarith [h.2]), if_pos (by linarith [h.2])]
    congr 1
    omega

/-- one pass -/
theorem passLoopF_eq {m n g : ℕ} : ∀ (rel : List (DKey × ℕ)) (draws : ℕ → ℚ) (st : ℕ × List (DKey × ℕ)),
    (∀ p ∈ rel, ∀ i, drawCountF fl (shareF fl m g p.2) (draws i) = drawCount (share m g p.2) (draws i)) →
    passLoopF fl m n g rel draws st = passLoop m n g rel draws st
  | [], _, _, _ => rfl
  | (k, l) :: rest, draws, st, h => by
    rw [passLoopF, passLoop, h (k, l) (by simp) 0]
    cases vinsert k (drawCount (share m g l) (draws 0)) n st with
    | none => rfl
    | some st' =>
      simp only
      rw [passLoopF_eq rest (fun i => draws (i + 1)) st' (fun p hp i => h p (by simp [hp]) (i + 1))]

/-- all passes -/
theorem recountLoopF_eq {n g : ℕ} {rel : List (DKey × ℕ)} : ∀ (k : ℕ) (draws : ℕ → ℚ) (st : ℕ × List (DKey × ℕ)),
    (∀ p ∈ rel, ∀ m ≤ n, ∀ i, drawCountF fl (shareF fl m g p.2) (draws i) = drawCount (share m g p.2) (draws i)) →
    recountLoopF fl n g rel k draws st = recountLoop n g rel k draws st
  | 0, _, _, _ => rfl
  | k + 1, draws, st, h => by
    rw [recountLoopF, recountLoop]
    split
    · simp only
      rw [passLoopF_eq rel draws st (fun p hp i => h p hp _ (Nat.sub_le _ _) i)]
      exact recountLoopF_eq k _ _ (fun p hp m hm i => h p hp m hm _)
    · rfl

theorem insertionSort_congr {α : Type} (r s : α → α → Prop) [DecidableRel r] [DecidableRel s] : ∀ L : List α, (∀ a ∈ L, ∀ b ∈ L, r a b ↔ s a b) →
    L.insertionSort r = L.insertionSort s
  | [], _ => rfl
  | a :: L, h => by
    rw [List.insertionSort_cons, List.insertionSort_cons, insertionSort_congr r s L (fun x hx y hy => h x (by simp [hx]) y (by simp [hy]))]
    have key : ∀ M : List α, (∀ b ∈ M, r a b ↔ s a b) → List.orderedInsert r a M = List.orderedInsert s a M := by
      intro M
      induction M with
      | nil => intro _; rfl
      | cons b M ih =>
        intro hM
        rw [List.orderedInsert, List.orderedInsert, ih (fun b hb => hM b (by simp [hb]))]
        by_cases hb : r a b
        · rw [if_pos hb, if_pos ((hM b (by simp)).mp hb)]
        · rw [if_neg hb, if_neg (fun e => hb ((hM b (by simp)).mpr e))]
    apply key
    intro b hb
    exact h a (by simp) b (by simp [(List.perm_insertionSort s L).mem_iff.mp hb])

theorem sortSharesF_eq (hfl : RoundsToNearest fl) {n g : ℕ} (hn : n ≤ 2 ^ 50) (hg : g ≤ 2 ^ 50) {rel : List (DKey × ℕ)} (hl : ∀ p ∈ rel, p.2 ≤ g) :
    sortSharesF fl n g rel = sortShares n g rel := by
  unfold sortSharesF sortShares
  exact insertionSort_congr _ _ rel (fun a ha b hb => shareF_ge_iff hfl hn hg (hl a ha) (hl b hb))

/-- the fractional parts of shares are multiples of 1/g -/
theorem fract_share {m g l : ℕ} (hg : 0 < g) : ∃ j : ℤ, Int.fract (share m g l) = j / g := by
  refine ⟨l * m - ⌊share m g l⌋ * g, ?_⟩
  have h : (g : ℚ) ≠ 0 := by positivity
  unfold Int.fract
  push_cast
  rw [sub_div, mul_div_cancel_right₀ _ h]
  unfold share
  ring_nf

/-! ### passes with other numbers drawn -/

/-- the passes with the number drawn given by a function -/
def passLoopG (cnt : ℕ → ℚ → ℕ) (n : ℕ) : List (DKey × ℕ) → (ℕ → ℚ) → ℕ × List (DKey × ℕ) → (ℕ × List (DKey × ℕ)) × ℕ
  | [], _, st => (st, 0)
  | (k, limit) :: rest, draws, st =>
    match vinsert k (cnt limit (draws 0)) n st with
    | none => (st, 1)
    | some st' =>
      let r := passLoopG cnt n rest (fun i => draws (i + 1)) st'
      (r.1, r.2 + 1)

theorem passLoopF_G {m n g : ℕ} : ∀ (rel : List (DKey × ℕ)) (draws : ℕ → ℚ) (st : ℕ × List (DKey × ℕ)),
    passLoopF fl m n g rel draws st = passLoopG (fun l r => drawCountF fl (shareF fl m g l) r) n rel draws st
  | [], _, _ => rfl
  | (k, l) :: rest, draws, st => by
    rw [passLoopF, passLoopG]
    cases vinsert k (drawCountF fl (shareF fl m g l) (draws 0)) n st with
    | none => rfl
    | some st' => simp only; rw [passLoopF_G rest]

theorem passLoopG_lower {n : ℕ} {cnt : ℕ → ℚ → ℕ} (low : ℕ → ℕ) : ∀ (rel : List (DKey × ℕ)) (draws : ℕ → ℚ) (st : ℕ × List (DKey × ℕ)),
    (∀ p ∈ rel, ∀ i, low p.2 ≤ cnt p.2 (draws i)) →
    n ≤ (passLoopG cnt n rel draws st).1.1 ∨ st.1 + (rel.map (fun p => low p.2)).sum ≤ (passLoopG cnt n rel draws st).1.1
  | [], _, _, _ => by right; simp [passLoopG]
  | (k, l) :: rest, draws, st, hd => by
    rw [passLoopG]
    have hc := hd (k, l) (by simp) 0
    split
    · next he => exact Or.inl (vinsert_none he)
    · next st' he =>
      rcases passLoopG_lower (n := n) low rest (fun i => draws (i + 1)) st' (fun p hp i => hd p (by simp [hp]) (i + 1)) with h | h
      · exact Or.inl h
      · right
        have := vinsert_fst he
        simp only [List.map_cons, List.sum_cons] at hc ⊢
        omega

theorem passLoopG_mono {n : ℕ} {cnt : ℕ → ℚ → ℕ} (rel : List (DKey × ℕ)) (draws : ℕ → ℚ) (st : ℕ × List (DKey × ℕ)) :
    st.1 ≤ (passLoopG cnt n rel draws st).1.1 ∨ n ≤ (passLoopG cnt n rel draws st).1.1 := by
  rcases passLoopG_lower (n := n) (cnt := cnt) (fun _ => 0) rel draws st (fun _ _ _ => Nat.zero_le _) with h | h
  · exact Or.inr h
  · left; simp at h; exact h

theorem recountLoopF_lower {n g : ℕ} {rel : List (DKey × ℕ)} : ∀ (k : ℕ) (draws : ℕ → ℚ) (st : ℕ × List (DKey × ℕ)),
    st.1 ≤ (recountLoopF fl n g rel k draws st).1 ∨ n ≤ (recountLoopF fl n g rel k draws st).1
  | 0, _, _ => by left; simp [recountLoopF]
  | k + 1, draws, st => by
    rw [recountLoopF]
    split
    · next hlt =>
      simp only
      rw [passLoopF_G]
      rcases passLoopG_mono (n := n) (cnt := fun l r => drawCountF fl (shareF fl (n - st.1) g l) r) rel draws st with h | h <;>
        rcases recountLoopF_lower (n := n) (g := g) (rel := rel) k
          (fun i => draws (i + (passLoopG (fun l r => drawCountF fl (shareF fl (n - st.1) g l) r) n rel draws st).2))
          (passLoopG (fun l r => drawCountF fl (shareF fl (n - st.1) g l) r) n rel draws st).1 with h' | h' <;> omega
    · left; simp

theorem recountLoopF_done {n g : ℕ} {rel : List (DKey × ℕ)} {k : ℕ} {draws : ℕ → ℚ} {st : ℕ × List (DKey × ℕ)} (h : n ≤ st.1) :
    recountLoopF fl n g rel k draws st = st := by
  cases k with
  | zero => rfl
  | succ k => rw [recountLoopF, if_neg (by omega)]

/-- a pass in which every key `k` receives at most `up k` -/
theorem passLoopG_inv {n B j : ℕ} {cnt : ℕ → ℚ → ℕ} {up : DKey → ℕ} {rel : List (DKey × ℕ)} (hB : ∀ p ∈ rel, up p.1 ≤ B) :
    ∀ (rest : List (DKey × ℕ)) (draws : ℕ → ℚ) (s : ℕ × List (DKey × ℕ)), (∀ p ∈ rest, ∀ i, cnt p.2 (draws i) ≤ up p.1) →
      (∀ p ∈ rest, p ∈ rel) → (rest.map (·.1)).Nodup →
      DInv n B (fun key v => key ∈ rel.map (·.1) ∧ v ≤ (if key ∈ rest.map (·.1) then j else j + 1) * up key) s →
      DInv n B (fun key v => key ∈ rel.map (·.1) ∧ v ≤ (j + 1) * up key) (passLoopG cnt n rest draws s).1 := by
  intro rest
  induction rest with
  | nil => intro draws s _ _ _ h; simpa [passLoopG] using h
  | cons p rest ih =>
    obtain ⟨k0, l⟩ := p
    intro draws s hd hs hn h
    rw [List.map_cons, List.nodup_cons] at hn
    rw [passLoopG]
    have hkr := hs (k0, l) (by simp)
    have hcl : cnt l (draws 0) ≤ up k0 := hd (k0, l) (by simp) 0
    split
    · refine ⟨h.total, h.nodup, fun p hp => ⟨(h.good p hp).1, (h.good p hp).2.1, le_trans (h.good p hp).2.2 (Nat.mul_le_mul_right _ ?_)⟩, h.bound⟩
      split <;> omega
    · next s' he =>
      refine ih _ s' (fun p hp i => hd p (by simp [hp]) (i + 1)) (fun p hp => hs p (by simp [hp])) hn.2 ?_
      have hfst := vinsert_fst he
      unfold vinsert at he
      split at he
      · next hlt =>
        have hbound : s'.1 ≤ n - 1 + B := by
          have : up k0 ≤ B := hB _ hkr
          omega
        have hmono : ∀ p ∈ s.2, p.2 ≤ (if p.1 ∈ rest.map (·.1) then j else j + 1) * up p.1 := by
          intro p hp
          have h3 := (h.good p hp).2.2
          by_cases hne : p.1 = k0
          · rw [if_pos (by rw [List.map_cons, hne]; exact List.mem_cons_self)] at h3
            refine le_trans h3 (Nat.mul_le_mul_right _ ?_)
            split <;> omega
          · simp only [List.map_cons, List.mem_cons, hne, false_or] at h3
            exact h3
        split at he
        · next hpos =>
          obtain rfl := Option.some.inj he
          refine ⟨?_, ?_, ?_, hbound⟩
          · simp only [dictBump_sum, h.total]
          · simp only [dictBump_keys]
            split
            · exact h.nodup
            · next hk => exact List.nodup_append.mpr ⟨h.nodup, by simp, by
                intro a ha b hb; rw [List.mem_singleton] at hb; subst hb; rintro rfl; exact hk ha⟩
          · intro p hp
            rcases dictBump_mem hp with h2 | ⟨w, h2, rfl⟩ | rfl
            · exact ⟨(h.good p h2).1, (h.good p h2).2.1, hmono p h2⟩
            · have h3 := (h.good _ h2)
              refine ⟨by simp only at h3 ⊢; omega, h3.2.1, ?_⟩
              have h4 := h3.2.2
              rw [if_pos (by rw [List.map_cons]; exact List.mem_cons_self)] at h4
              simp only at h4 ⊢
              rw [if_neg hn.1, Nat.add_mul, Nat.one_mul]
              omega
            · refine ⟨hpos, List.mem_map.mpr ⟨_, hkr, rfl⟩, ?_⟩
              simp only
              rw [if_neg hn.1, Nat.add_mul, Nat.one_mul]
              omega
        · obtain rfl := Option.some.inj he
          exact ⟨h.total, h.nodup, fun p hp => ⟨(h.good p hp).1, (h.good p hp).2.1, hmono p hp⟩, h.bound⟩
      · simp at he

theorem recountLoopF_inv {n g B : ℕ} {rel : List (DKey × ℕ)} {up : DKey → ℕ} (hB : ∀ p ∈ rel, up p.1 ≤ B) (hnd : (rel.map (·.1)).Nodup) :
    ∀ (k j : ℕ) (draws : ℕ → ℚ) (st : ℕ × List (DKey × ℕ)), (∀ p ∈ rel, ∀ m ≤ n, ∀ i, drawCountF fl (shareF fl m g p.2) (draws i) ≤ up p.1) →
    DInv n B (fun key v => key ∈ rel.map (·.1) ∧ v ≤ j * up key) st →
    DInv n B (fun key v => key ∈ rel.map (·.1) ∧ v ≤ (j + k) * up key) (recountLoopF fl n g rel k draws st)
  | 0, _, _, _, _, hI => hI
  | k + 1, j, draws, st, hd, hI => by
    rw [recountLoopF]
    split
    · simp only
      have h1 : DInv n B (fun key v => key ∈ rel.map (·.1) ∧ v ≤ (j + 1) * up key) (passLoopF fl (n - st.1) n g rel draws st).1 := by
        rw [passLoopF_G]
        refine passLoopG_inv hB rel draws st (fun p hp i => hd p hp _ (Nat.sub_le _ _) i) (fun _ h => h) hnd ?_
        refine ⟨hI.total, hI.nodup, fun p hp => ⟨(hI.good p hp).1, (hI.good p hp).2.1, ?_⟩, hI.bound⟩
        rw [if_pos (hI.good p hp).2.1]
        exact (hI.good p hp).2.2
      have := recountLoopF_inv hB hnd k (j + 1) (fun i => draws (i + (passLoopF fl (n - st.1) n g rel draws st).2)) _ (fun p hp m hm i => hd p hp m hm _) h1
      rw [show j + (k + 1) = j + 1 + k by omega]
      exact this
    · exact ⟨hI.total, hI.nodup, fun p hp => ⟨(hI.good p hp).1, (hI.good p hp).2.1, le_trans (hI.good p hp).2.2 (Nat.mul_le_mul_right _ (by omega))⟩, hI.bound⟩

end Phenum
