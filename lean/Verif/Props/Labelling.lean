import Verif.Proof.Decode
import Verif.Proof.ArrowHash
/-
Properties C03, C04, C05 (labelling numbers, tree.py) and C10 (arrow numbers, phonons.py).
-/
namespace Phenum
open Spec

/-- C03. Encoding then decoding: for a 0/1 labelling containing a 1, the hash is below the binomial
coefficient "sites choose ones" and decoding it (colour number `c`) puts `c` exactly on the ones. -/
theorem C03_decode_encode (l : List Nat) (hb : IsBinary l) (h1 : 1 ∈ l) (c : Nat) :
    ∃ y, hash l = .ok y ∧ y < l.length.choose (l.count 1) ∧
      invhashRow c l.length y (l.count 1 : Nat) = l.map (fun v => if v = 1 then c else 0) :=
  ⟨rank l, hash_eq_rank l h1, rank_lt l hb, invhashRow_rank c l hb⟩

example : IsBinary [0, 1, 1, 0, 1] ∧ 1 ∈ [0, 1, 1, 0, 1] ∧ hash [0, 1, 1, 0, 1] = .ok 7 := by
  refine ⟨by unfold IsBinary; decide, by decide, rfl⟩

/-- C03. Decoding then encoding: every number below "m choose k" (`k >= 1`) decodes to a 0/1 labelling of
`m` sites with exactly `k` ones whose hash is that number. -/
theorem C03_encode_decode (m k y : Nat) (hk : 1 ≤ k) (h : y < m.choose k) :
    let l := invhashRow 1 m y (k : Nat)
    l.length = m ∧ IsBinary l ∧ l.count 1 = k ∧ hash l = .ok y := by
  obtain ⟨r, h1, h2, h3, h4, h5⟩ := invhashRow_spec 1 m y k h
  have hr : r.map (fun v => if v = 1 then 1 else 0) = r := by
    conv_rhs => rw [← List.map_id r]
    apply List.map_congr_left
    intro v hv
    rcases h3 v hv with rfl | rfl <;> rfl
  rw [hr] at h1
  simp only [h1]
  refine ⟨h2, h3, h4, ?_⟩
  rw [hash_eq_rank r (List.count_pos_iff.mp (by omega)), h5]

example : (1 : Nat) ≤ 3 ∧ 7 < Nat.choose 5 3 ∧ invhashRow 1 5 7 3 = [0, 1, 1, 0, 1] := by decide

/-- C03. A labelling without a 1 is rejected with ValueError. -/
theorem C03_no_one (l : List Nat) (h : 1 ∉ l) : hash l = .error .valueError := hash_no_one l h

example : 1 ∉ [0, 0, 0] := by decide

/-- C04. Decoding a radix vector yields a labelling with the given concentrations, without error, and
re-encoding it level by level returns the vector. -/
theorem C04_decode (concs d : List Nat) (hpos : ∀ c ∈ concs, 1 ≤ c)
    (hd : IsRadixVec (coefficients concs (concs.sum : Nat)) d) :
    ∃ x, invhash d concs concs.sum = .ok x ∧ IsLabelling concs x ∧
      ∀ (i : Nat) (h : i < d.length), hash (levelRow i x) = .ok d[i] := by
  obtain ⟨x, hx, hdig⟩ := exists_labelling hd
  refine ⟨x, ?_, hx, ?_⟩
  · rw [← hdig, invhash_digits hx]
  · intro i h
    have hl : d.length = concs.length := by
      rw [← hdig, digits_length]
    have h1 : 1 ∈ levelRow i x := by
      apply List.count_pos_iff.mp
      rw [levelRow_count, hx.2 i (by omega)]
      exact hpos _ (List.getElem_mem _)
    rw [hash_eq_rank _ h1]
    have := digits_getElem? concs.length i x (by omega)
    rw [hdig, List.getElem?_eq_getElem h] at this
    exact congrArg Except.ok (Option.some.inj this).symm

/-- C04. Every labelling is the decoding of exactly one radix vector. -/
theorem C04_bijection (concs x : List Nat) (hx : IsLabelling concs x) :
    ∃! d, IsRadixVec (coefficients concs (concs.sum : Nat)) d ∧ invhash d concs concs.sum = .ok x := by
  refine ⟨digits concs.length x, ⟨digits_radix hx, invhash_digits hx⟩, ?_⟩
  rintro d ⟨h1, h2⟩
  obtain ⟨y, hy, hdig⟩ := exists_labelling h1
  have := invhash_digits hy
  rw [hdig, h2] at this
  rw [← hdig]
  cases this; rfl

example : IsRadixVec (coefficients [2, 1, 2] (([2, 1, 2] : List Nat).sum : Nat)) [7, 1, 0] := by
  unfold IsRadixVec
  rw [show coefficients [2, 1, 2] (([2, 1, 2] : List Nat).sum : Nat) = [10, 3, 1] by decide]
  exact .cons (by decide) (.cons (by decide) (.cons (by decide) .nil))
example : invhash [7, 1, 0] [2, 1, 2] 5 = .ok [3, 2, 1, 1, 3] := by decide
example : IsLabelling [2, 1, 2] [3, 2, 1, 1, 3] := by
  refine ⟨by decide, ?_⟩
  intro i h
  match i, h with
  | 0, _ => rfl
  | 1, _ => rfl
  | 2, _ => rfl

/-- C05. The product of the radix numbers is the number of labellings `n!/prod(c_i!)`. -/
theorem C05_product (concs : List Nat) :
    (coefficients concs (concs.sum : Nat)).prod = concs.sum.factorial / (concs.map Nat.factorial).prod := by
  rw [← coefficients_prod concs, Nat.mul_div_cancel]
  apply List.prod_pos
  intro x hx
  obtain ⟨y, -, rfl⟩ := List.mem_map.mp hx
  exact Nat.factorial_pos y

/-- C05. ... and the division is exact. -/
theorem C05_product_exact (concs : List Nat) :
    (coefficients concs (concs.sum : Nat)).prod * (concs.map Nat.factorial).prod = concs.sum.factorial :=
  coefficients_prod concs

/-- C10. Encode then decode arrow directions. -/
theorem C10_decode_encode (dim : Nat) (l : List Nat) (h : ∀ v ∈ l, v < dim) :
    ahash l dim < dim ^ l.length ∧ ainvhash (ahash l dim) l.length dim = l := by
  have hlt := ahash_lt dim l h
  exact ⟨hlt, by rw [ainvhash_eq _ _ _ hlt, digitsB_ahash dim l h]⟩

/-- C10. Decode then encode an arrow number. -/
theorem C10_encode_decode (dim k a : Nat) (h : a < dim ^ k) :
    (ainvhash a k dim).length = k ∧ (∀ v ∈ ainvhash a k dim, v < dim) ∧
      ahash (ainvhash a k dim) dim = a := by
  rw [ainvhash_eq _ _ _ h]
  refine ⟨digitsB_length _ _ _, ?_, ahash_digitsB _ _ _ h⟩
  cases k with
  | zero => simp [digitsB]
  | succ k =>
    apply digitsB_lt
    rcases Nat.eq_zero_or_pos dim with rfl | h'
    · simp at h
    · exact h'

/-- C10. The largest number, computed by the code from the list of largest directions, is `dim^k - 1`. -/
theorem C10_largest (dim k : Nat) (hd : 0 < dim) :
    ahash (List.replicate k (dim - 1)) dim + 1 = dim ^ k := ahash_max dim k hd

example : (∀ v ∈ [5, 0, 3], v < 6) ∧ ahash [5, 0, 3] 6 = 113 ∧ ainvhash 113 3 6 = [5, 0, 3] := by decide

end Phenum
