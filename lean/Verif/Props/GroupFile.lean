import Verif.Model.EnumSysFile
import Verif.Props.ReadGroup
import Verif.Props.EnumSuper
import Verif.Props.EnumSingle
/-
C99: a request with the group read from a file.
-/
namespace Phenum
open Spec

/-- The permutations written in a group file (each in pieces). -/
def Spec.filePerms (G : List (List ℕ × List (List ℕ))) : List (List ℕ) := G.map (fun p => p.1 ++ p.2.flatten)

theorem file_ops {v w : ℕ} {head : List Str} (h6 : head.length = 6) (hh : ∀ l ∈ head, '\n' ∉ l) {G : List (List ℕ × List (List ℕ))} {n : ℕ}
    (hG : ∀ σ ∈ filePerms G, σ.Perm (List.range n)) :
    ∃ g, readGroup (groupFile v w head G) = .ok g ∧ fileOps g = (filePerms G).map (fun σ => (σ, [0])) := by
  refine ⟨_, C66_read_group v w head h6 hh G n ?_, ?_⟩
  · intro p hp
    have := (hG _ (List.mem_map_of_mem hp)).length_eq
    simpa using this
  · unfold fileOps filePerms
    rw [List.map_map, List.map_map]
    apply List.map_congr_left
    intro p _
    simp [Function.comp_def, List.map_map]

theorem file_enum {v w : ℕ} {head : List Str} (h6 : head.length = 6) (hh : ∀ l ∈ head, '\n' ∉ l) {G : List (List ℕ × List (List ℕ))} {n : ℕ}
    (hG : ∀ σ ∈ filePerms G, σ.Perm (List.range n)) {concs : List ℕ} {aconcs : List ℚ} (hlen : concs.length ≤ aconcs.length) (wanted nB : ℕ)
    (supers accept : Bool) (rnd : EnumRandom) :
    enumSysFile (groupFile v w head G) concs aconcs wanted nB supers accept rnd =
      enumSys ((filePerms G).map (fun σ => (σ, [0]))) concs aconcs wanted nB supers accept rnd := by
  obtain ⟨d, hd, -⟩ := C40_arrow_concs concs aconcs hlen
  obtain ⟨g, h1, h2⟩ := file_ops (v := v) (w := w) h6 hh hG
  unfold enumSysFile
  rw [hd, h1]
  simp only [h2]

theorem file_sites (P : List (List ℕ)) : (P.map (fun σ => ((σ, [0]) : Op))).map (·.1) = P := by
  rw [List.map_map]
  exact List.map_id _

/-- C99. A request without displaced atoms whose group is read from a file: if the file is written in the format of enum.x, with a group of permutations of
the sites in which no permutation occurs more often than another, structures of the right composition are returned, pairwise inequivalent under the
permutations of the file, `wanted` of the `full` ones that there are, or all of them. -/
theorem C99_request (v w : ℕ) (head : List Str) (h6 : head.length = 6) (hh : ∀ l ∈ head, '\n' ∉ l) (G : List (List ℕ × List (List ℕ)))
    (concs : List ℕ) (aconcs : List ℚ) (wanted nB : ℕ) (rnd : EnumRandom)
    (hG : IsPermGroup concs.sum (filePerms G)) (hb : Balanced (filePerms G))
    (h2 : 2 ≤ concs.length) (hlen : concs.length ≤ aconcs.length) (hn : 1 ≤ concs.sum)
    (hna : ∀ i, i < concs.length → arrowCount (concs.getD i 0) (aconcs.getD i 0) = 0)
    (hsh : ∀ l, (rnd.shuffle l).Perm l) (hmod : Modest concs wanted) :
    ∃ L full, enumSysFile (groupFile v w head G) concs aconcs wanted nB true false rnd = some (.ok L) ∧
      (∀ z ∈ L, (∀ s ∈ z, s.1 = -1) ∧ IsLabelling concs (z.map (·.2))) ∧
      L.Pairwise (fun z w => ¬ Equiv (filePerms G) z w) ∧
      IsTransversal (IsLabelling concs) (Equiv (filePerms G)) full ∧ L.length = delivered wanted full.length := by
  rw [file_enum h6 hh hG.perm hlen]
  have := C43_request ((filePerms G).map (fun σ => (σ, [0]))) concs aconcs wanted nB rnd h2 hlen hn hna
    (by rw [file_sites]; exact hG) (by rw [file_sites]; exact hb)
    (by intro g hg
        obtain ⟨σ, -, rfl⟩ := List.mem_map.mp hg
        exact ⟨1, List.Perm.refl _⟩) hsh hmod
  rwa [file_sites] at this

/-- C99 without superperiodic structures, two or three species, no displaced atoms: if the translations of the cell come first in the file, a request for all
structures returns one of each class of those that are not superperiodic. -/
theorem C99_request_super (v w : ℕ) (head : List Str) (h6 : head.length = 6) (hh : ∀ l ∈ head, '\n' ∉ l) (G : List (List ℕ × List (List ℕ)))
    (concs : List ℕ) (aconcs : List ℚ) (wanted nB : ℕ) (rnd : EnumRandom)
    (hG : IsPermGroup concs.sum (filePerms G)) (hb : Balanced (filePerms G))
    (ht : HasTranslations concs.sum ((filePerms G).map (fun σ => (σ, [0]))) (concs.sum / nB))
    (h2 : 2 ≤ concs.length) (h3 : concs.length ≤ 3) (hlen : concs.length ≤ aconcs.length) (hn : 1 ≤ concs.sum)
    (hna : ∀ i, i < concs.length → arrowCount (concs.getD i 0) (aconcs.getD i 0) = 0) (hmod : Modest concs wanted) 
    (full : List (List ℕ)) (hfull : IsTransversal (IsLabelling concs) (Equiv (filePerms G)) full)
    (hall : wanted = 0 ∨ full.length ≤ wanted) :
    ∃ L, enumSysFile (groupFile v w head G) concs aconcs wanted nB false false rnd = some (.ok L) ∧
      IsTransversal (fun z : Config => (∀ s ∈ z, s.1 = -1) ∧ IsLabelling concs (z.map (·.2)) ∧
        ¬ Superperiodic ((filePerms G).take (concs.sum / nB)) z) (Equiv (filePerms G)) L := by
  rw [file_enum h6 hh hG.perm hlen]
  have hsites := file_sites (filePerms G)
  have htot : polya concs ((filePerms G).map (fun σ => (σ, [0]))) .none = some (.ok (full.length : ℤ)) :=
    (C13_polya_counts_orbits concs _ hn (by rw [hsites]; exact hG) (by rw [hsites]; exact hb)
      (by intro g hg
          obtain ⟨σ, -, rfl⟩ := List.mem_map.mp hg
          exact ⟨1, List.Perm.refl _⟩)).2 full (by rw [hsites]; exact hfull)
  have := C43_request_super ((filePerms G).map (fun σ => (σ, [0]))) concs aconcs wanted nB rnd h2 h3 hlen hn hna
    (by rw [hsites]; exact hG) ht hmod full.length htot (by rcases hall with h | h <;> simp [h])
  rwa [hsites, ← List.map_take, file_sites] at this

/-! ### displaced atoms -/

theorem single_decorated_one {n : ℕ} (z : Config) : IsDecorated [n] (fun v => [n].length - 1 < v) 1 z ↔ z = List.replicate n (0, 1) := by
  unfold IsDecorated IsLabelling
  constructor
  · rintro ⟨⟨h1, h2⟩, h3⟩
    have hv : ∀ s ∈ z, s = ((0 : ℤ), 1) := by
      intro s hs
      have e := h1 s.2 (List.mem_map_of_mem hs)
      have e1 : s.2 = 1 := by simp at e; omega
      have := (h3 s hs).1 (by rw [e1]; simp)
      exact Prod.ext (by simp at this; omega) e1
    have this : (z.map (·.2)).count 1 = n := h2 0 (by simp)
    rw [List.eq_replicate_iff]
    refine ⟨?_, hv⟩
    have hc : (z.map (·.2)).count 1 = (z.map (·.2)).length := by
      rw [List.count_eq_length]
      intro b hb
      obtain ⟨s, hs, rfl⟩ := List.mem_map.mp hb
      rw [hv s hs]
    rw [List.length_map] at hc
    omega
  · rintro rfl
    refine ⟨⟨?_, ?_⟩, ?_⟩
    · intro v hv
      simp at hv
      simp [hv.2]
    · intro i hi
      have : i = 0 := by simp at hi; exact hi
      subst this
      simp
    · intro s hs
      rw [List.eq_of_mem_replicate hs]
      simp

theorem permuteArrows_fail : ∀ (l : List ℤ), (∃ a ∈ l, 1 ≤ a) → permuteArrows [0] l = .error .indexError
  | [], h => by simp at h
  | a :: l, h => by
    unfold permuteArrows
    by_cases ha : 0 ≤ a
    · rw [if_pos ha]
      by_cases h0 : a = 0
      · subst h0
        have : ∃ b ∈ l, 1 ≤ b := by
          obtain ⟨b, hb, hb1⟩ := h
          rcases List.mem_cons.mp hb with rfl | hb
          · omega
          · exact ⟨b, hb, hb1⟩
        simp [pyGet, permuteArrows_fail l this, bind, Except.bind]
      · have : ([0] : List ℕ)[a.toNat]? = none := by rw [List.getElem?_eq_none_iff]; simp; omega
        unfold pyGet
        rw [this]
        rfl
    · rw [if_neg ha]
      apply permuteArrows_fail
      obtain ⟨b, hb, hb1⟩ := h
      rcases List.mem_cons.mp hb with rfl | hb
      · omega
      · exact ⟨b, hb, hb1⟩

theorem permuteArrows_zero : ∀ (l : List ℤ), (∀ a ∈ l, a = 0) → permuteArrows [0] l = .ok (List.replicate l.length 0)
  | [], _ => rfl
  | a :: l, h => by
    have ha := h a (by simp)
    subst ha
    unfold permuteArrows
    rw [if_pos (le_refl _), permuteArrows_zero l (fun b hb => h b (List.mem_cons_of_mem _ hb))]
    rfl

theorem fillArrows_all : ∀ (n : ℕ) (cfg : List ℕ), cfg.length = n → fillArrows (List.replicate n ((1 : ℤ), 1)) cfg = .ok (cfg.map (fun a : ℕ => ((a : ℤ), 1)))
  | 0, cfg, h => by
    rw [List.length_eq_zero_iff] at h
    subst h; rfl
  | n + 1, [], h => by simp at h
  | n + 1, a :: cfg, h => by
    rw [List.replicate_succ, fillArrows]
    simp only [show ¬ ((1 : ℤ) < 0) by decide, if_false]
    rw [fillArrows_all n cfg (by simpa using h)]
    rfl

theorem digits_zero (n : ℕ) : digitsB 6 n 0 = List.replicate n 0 := by
  induction n with
  | zero => rfl
  | succ n ih => rw [digitsB, Nat.zero_div, ih]; rfl

theorem permHash_sites {n : ℕ} {σ : List ℕ} (hσ : σ.Perm (List.range n)) {z : Config} (hz : z.length = n) (dim : ℕ) :
    permHash z (σ, [0]) dim = (permuteArrows [0] ((permute σ z).map (·.1))).bind (fun arr => .ok (ahash arr dim)) := by
  subst hz
  unfold permHash
  rw [gather_range σ z (perm_range_length hσ) (perm_range_lt hσ)]
  rfl

theorem ahash_replicate_zero (n : ℕ) : ahash (List.replicate n 0) 6 = 0 := by
  unfold ahash
  apply List.sum_eq_zero
  intro x hx
  obtain ⟨i, -, rfl⟩ := List.mem_map.mp hx
  simp

theorem unique_zero {n : ℕ} (P : List (List ℕ)) (hP : ∀ σ ∈ P, σ.Perm (List.range n)) :
    arrowUnique (List.replicate n (1, 1)) (List.replicate n 0) 0 6 (P.map (fun σ => (σ, [0]))) = .ok true := by
  induction P with
  | nil => rfl
  | cons σ P ih =>
    rw [List.map_cons, arrowUnique, fillArrows_all n _ (by simp)]
    simp only [bind, Except.bind]
    rw [permHash_sites (hP σ (by simp)) (by simp), permuteArrows_zero]
    · simp only [Except.bind, not_lt_zero', if_false]
      exact ih (fun τ hτ => hP τ (List.mem_cons_of_mem _ hτ))
    · intro a ha
      obtain ⟨s, hs, rfl⟩ := List.mem_map.mp ha
      have := (permute_perm σ ((List.replicate n 0).map (fun a : ℕ => ((a : ℤ), 1))) (by simpa using hP σ (by simp))).mem_iff.mp hs
      simp at this
      rw [this.2]

theorem unique_one {n : ℕ} (σ : List ℕ) (P : List (List ℕ)) (hσ : σ.Perm (List.range (n + 1))) :
    arrowUnique (List.replicate (n + 1) (1, 1)) (1 :: List.replicate n 0) 1 6 ((σ :: P).map (fun σ => (σ, [0]))) = .error .indexError := by
  rw [List.map_cons, arrowUnique, fillArrows_all (n + 1) _ (by simp)]
  simp only [bind, Except.bind]
  rw [permHash_sites hσ (by simp), permuteArrows_fail]
  · rfl
  · refine ⟨1, ?_, le_refl _⟩
    apply List.mem_map.mpr
    refine ⟨(1, 1), ?_, rfl⟩
    rw [(permute_perm σ _ (by simpa using hσ)).mem_iff]
    simp

/-- C99 fails with displaced atoms: the permutations of the six displacements that the file does not contain are replaced by that of one displacement. For one
species with every atom displaced, the number of structures is reported as one, whatever the group, and a request for two or more of them raises an error. -/
theorem C99_displaced (v w : ℕ) (head : List Str) (h6 : head.length = 6) (hh : ∀ l ∈ head, '\n' ∉ l) (G : List (List ℕ × List (List ℕ)))
    (n : ℕ) (x : ℚ) (aconcs : List ℚ) (wanted nB : ℕ) (rnd : EnumRandom)
    (hG : IsPermGroup n (filePerms G)) (hb : Balanced (filePerms G)) (hn : 1 ≤ n) (hx : arrowCount n x = n) (h2 : 2 ≤ wanted) (hmod : n < 12 ∨ 100 < wanted) :
    enumSysFile (groupFile v w head G) [n] (x :: aconcs) wanted nB true false rnd = some (.error .indexError) := by
  rw [file_enum h6 hh (n := n) hG.perm (by simp)]
  have hop : IsOpGroup n 1 ((filePerms G).map (fun σ => ((σ, [0]) : Op))) := by
    refine ⟨?_, ?_, ?_, ?_, ?_⟩
    · intro g hg
      obtain ⟨σ, hσ, rfl⟩ := List.mem_map.mp hg
      exact hG.perm σ hσ
    · intro g hg
      obtain ⟨σ, hσ, rfl⟩ := List.mem_map.mp hg
      exact List.Perm.refl _
    · exact List.mem_map.mpr ⟨_, hG.one, rfl⟩
    · intro g hg h hh
      obtain ⟨σ, hσ, rfl⟩ := List.mem_map.mp hg
      obtain ⟨τ, hτ, rfl⟩ := List.mem_map.mp hh
      exact List.mem_map.mpr ⟨_, hG.mul σ hσ τ hτ, rfl⟩
    · intro g hg
      obtain ⟨σ, hσ, rfl⟩ := List.mem_map.mp hg
      obtain ⟨τ, hτ, e⟩ := hG.inv σ hσ
      exact ⟨(τ, [0]), List.mem_map.mpr ⟨_, hτ, rfl⟩, e, rfl⟩
  have hbal : Balanced ((filePerms G).map (fun σ => ((σ, [0]) : Op))) := by
    obtain ⟨m, hm⟩ := hb
    refine ⟨m, ?_⟩
    intro g hg
    obtain ⟨σ, hσ, rfl⟩ := List.mem_map.mp hg
    rw [List.countP_map, ← hm σ hσ]
    apply List.countP_congr
    intro τ _
    simp
  have htot : polya [n] ((filePerms G).map (fun σ => ((σ, [0]) : Op))) (.num 1) = some (.ok 1) := by
    refine (C14_polya_arrows_number [n] 1 1 _ (by simpa using hn) (by simp) (by simpa using hop) hbal).2 [List.replicate n (0, 1)] ?_
    refine ⟨by simp, ?_, ?_⟩
    · intro z hz
      rw [List.mem_singleton.mp hz]
      exact (single_decorated_one _).mpr rfl
    · intro z hz
      rw [single_decorated_one] at hz
      subst hz
      refine ⟨_, ⟨by simp, hop.opEquiv_refl (by simp) ?_⟩, fun y hy => List.mem_singleton.mp hy.1⟩
      intro s hs
      rw [List.eq_of_mem_replicate hs]
      decide
  have hlarge : largeSystem 1 (1 : ℕ) (n : ℕ) wanted = false := by
    unfold largeSystem
    rw [decide_eq_false (show ¬ ((1 : ℤ) > 100000) by decide)]
    rcases hmod with h | h
    · rw [decide_eq_false (show ¬ ((n : ℤ) ≥ 12) by omega)]; simp
    · rw [decide_eq_false (show ¬ ((wanted : ℤ) ≤ 100) by omega)]; simp
  have hadd : ∀ tr, addArrows (List.replicate n (1, 1)) ((filePerms G).map (fun σ => ((σ, [0]) : Op))) 6 tr none (some wanted) true = .error .indexError := by
    intro tr
    obtain ⟨n, rfl⟩ : ∃ k, n = k + 1 := ⟨n - 1, by omega⟩
    have hne : ∃ σ P, filePerms G = σ :: P := by
      cases h : filePerms G with
      | nil => exact absurd hG.one (by rw [h]; simp)
      | cons σ P => exact ⟨σ, P, rfl⟩
    obtain ⟨σ, P, hP⟩ := hne
    have u0 := unique_zero (filePerms G) hG.perm
    have u1 : arrowUnique (List.replicate (n + 1) (1, 1)) (1 :: List.replicate n 0) 1 6 ((filePerms G).map (fun σ => (σ, [0]))) = .error .indexError := by
      rw [hP]
      exact unique_one σ P (hG.perm σ (by rw [hP]; simp))
    have hpow : 2 ≤ 6 ^ (n + 1) := by
      have := Nat.one_le_pow n 6 (by norm_num)
      rw [Nat.pow_succ]; omega
    unfold addArrows
    simp only [single_howMany hn, ahash_max _ _ (show 0 < 6 by norm_num)]
    obtain ⟨m, hm⟩ : ∃ m, 6 ^ (n + 1) = m + 2 := ⟨6 ^ (n + 1) - 2, by omega⟩
    rw [hm, List.range_succ_eq_map, List.range_succ_eq_map, List.map_cons, addArrowsLoop]
    rw [ainvhash_eq 6 (n + 1) 0 (by omega), digits_zero, u0]
    simp only [bind, Except.bind, if_true, fillArrows_all (n + 1) _ (List.length_replicate ..)]
    simp only [pure, Except.pure, Bool.and_true, if_true, List.nil_append, List.length_singleton, Option.some.injEq]
    rw [if_neg (by omega), addArrowsLoop, ainvhash_eq 6 (n + 1) _ (by omega)]
    have : digitsB 6 (n + 1) (Nat.succ 0) = 1 :: List.replicate n 0 := by rw [digitsB, ← digits_zero]
    rw [this, u1]
    rfl
  unfold enumSys
  rw [single_decor hx]
  simp only [single_howMany hn, multinomial_single, List.sum_cons, List.sum_nil, Nat.add_zero, hlarge]
  unfold enumTotal
  simp only [Bool.false_eq_true, if_false, ne_eq, one_ne_zero, not_false_eq_true, if_true, htot]
  unfold enumCore
  simp only [List.length_singleton, if_true]
  rw [if_neg (by decide), if_neg (fun h => by have := h.1; omega)]
  simp only [Bool.false_eq_true, if_false, hadd]

/-! ### examples -/

/-- the group of the chain of four sites, as enum.x writes it, the last permutation on two lines -/
def chainFile : Str := ofLines [
  "The integer vectors in the final columns of each",
  "permutation listing describe how a list 1, 2, ...",
  "gets permuted. So \"2 1\" implies that element 2 is",
  "mapped to position 1, and the first one ends up in ",
  "second position.",
  "Number of permutations:   12",
  "Perm #:     1 Perm:    1    2    3    4",
  "Perm #:     2 Perm:    2    3    4    1",
  "Perm #:     3 Perm:    3    4    1    2",
  "Perm #:     4 Perm:    4    1",
  "    2    3"]

def chainPieces : List (List ℕ × List (List ℕ)) := [([0, 1, 2, 3], []), ([1, 2, 3, 0], []), ([2, 3, 0, 1], []), ([3, 0], [[1, 2]])]

theorem chainFile_eq : chainFile = groupFile 5 4 cyclicHead chainPieces := by decide +kernel

theorem chainPerms : filePerms chainPieces = chain4.map (·.1) := by decide

theorem chainPerms_group : IsPermGroup 4 (filePerms chainPieces) := by rw [chainPerms]; exact chain4_ok.permGroup

theorem chainPerms_balanced : Balanced (filePerms chainPieces) := ⟨1, by decide⟩

/-- the hypotheses of `C99_request`: one of the structures of the chain -/
example : ∃ L full, enumSysFile chainFile [2, 2] [0, 0] 1 1 true false exRandom = some (.ok L) ∧
      (∀ z ∈ L, (∀ s ∈ z, s.1 = -1) ∧ IsLabelling [2, 2] (z.map (·.2))) ∧
      L.Pairwise (fun z w => ¬ Equiv (filePerms chainPieces) z w) ∧
      IsTransversal (IsLabelling [2, 2]) (Equiv (filePerms chainPieces)) full ∧ L.length = delivered 1 full.length := by
  rw [chainFile_eq]
  exact C99_request 5 4 cyclicHead rfl (by decide) chainPieces [2, 2] [0, 0] 1 1 exRandom chainPerms_group chainPerms_balanced
    (by decide) (by decide) (by decide)
    (by intro i hi; have : i = 0 ∨ i = 1 := by simp at hi; omega
        rcases this with rfl | rfl <;> (unfold arrowCount; decide +kernel))
    (fun l => List.reverse_perm l) (Or.inl (by decide))

/-- the hypotheses of `C99_request_super`: the two structures of the chain are asked for -/
example : ∃ full L, full = [[1, 1, 2, 2], [1, 2, 1, 2]] ∧ enumSysFile chainFile [2, 2] [0, 0] 2 1 false false exRandom = some (.ok L) ∧
      IsTransversal (fun z : Config => (∀ s ∈ z, s.1 = -1) ∧ IsLabelling [2, 2] (z.map (·.2)) ∧
        ¬ Superperiodic ((filePerms chainPieces).take 4) z) (Equiv (filePerms chainPieces)) L := by
  refine ⟨[[1, 1, 2, 2], [1, 2, 1, 2]], ?_⟩
  rw [chainFile_eq]
  have := C99_request_super 5 4 cyclicHead rfl (by decide) chainPieces [2, 2] [0, 0] 2 1 exRandom chainPerms_group chainPerms_balanced
    ⟨by decide, by decide, by decide, by decide⟩
    (by decide) (by decide) (by decide) (by decide)
    (by intro i hi; have : i = 0 ∨ i = 1 := by simp at hi; omega
        rcases this with rfl | rfl <;> (unfold arrowCount; decide +kernel))
    (Or.inl (by decide)) [[1, 1, 2, 2], [1, 2, 1, 2]] (by rw [chainPerms]; exact chain4_transversal) (Or.inr (by decide))
  obtain ⟨L, h1, h2⟩ := this
  exact ⟨L, rfl, h1, h2⟩

/-- the hypotheses of `C99_displaced`: two structures of four displaced atoms -/
example : enumSysFile chainFile [4] [1] 2 1 true false exRandom = some (.error .indexError) := by
  rw [chainFile_eq]
  exact C99_displaced 5 4 cyclicHead rfl (by decide) chainPieces 4 1 [] 2 1 exRandom chainPerms_group chainPerms_balanced (by decide)
    (arrowCount_one 4) (by decide) (Or.inl (by decide))

end Phenum
