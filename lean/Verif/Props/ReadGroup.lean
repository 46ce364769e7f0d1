import Verif.Model.LatticeIn
import Verif.Props.EnumIn
import Verif.Proof.Poscar
import Verif.Props.ProgramExamples
/-
C66: reading a symmetry group from a file.
-/
namespace Phenum
open Spec

/-- A number in a column, with at least one blank before it. -/
def Spec.column (w : ℕ) (x : ℕ) : Str := ' ' :: padLeft w (natStr x)

/-- The lines of a permutation, given in pieces as it is broken over lines. The places are counted from 1 in the file. -/
def Spec.permLines (v w : ℕ) (i : ℕ) (first : List ℕ) (rest : List (List ℕ)) : List Str :=
  ("Perm #:".toList ++ column v i ++ " Perm:".toList ++ first.flatMap (fun x => column w (x + 1))) ::
    rest.map (fun piece => piece.flatMap (fun x => column w (x + 1)))

/-- The file: six lines of heading, then the permutations, numbered from 1. -/
def Spec.groupFile (v w : ℕ) (head : List Str) (G : List (List ℕ × List (List ℕ))) : Str :=
  (head ++ G.zipIdx.flatMap (fun p => permLines v w (p.2 + 1) p.1.1 p.1.2)).flatMap (fun l => l ++ ['\n'])

theorem split_places (w : ℕ) (x : Str) : ∀ (l : List ℕ), pySplit (x ++ l.flatMap (fun n => column w (n + 1))) = pySplit x ++ l.map (fun n => natStr (n + 1)) := by
  intro l
  induction l generalizing x with
  | nil => simp
  | cons n l ih =>
    rw [List.flatMap_cons, ← List.append_assoc, ih, List.map_cons]
    unfold column
    rw [split_append_ws _ ws_space, split_padLeft_head, split_natStr, List.append_assoc]
    rfl

theorem numLine_columns (w : ℕ) (l : List ℕ) : NumLine (l.flatMap (fun n => column w (n + 1))) := by
  intro ch h
  obtain ⟨n, -, hn⟩ := List.mem_flatMap.mp h
  unfold column padLeft at hn
  rcases List.mem_cons.mp hn with rfl | hn
  · exact Or.inr (Or.inr rfl)
  · rcases List.mem_append.mp hn with hn | hn
    · exact Or.inr (Or.inr (List.eq_of_mem_replicate hn))
    · exact NumLine.nat _ ch hn

theorem columns_no_perm (w : ℕ) (l : List ℕ) : containsStr "Perm #:".toList (l.flatMap (fun n => column w (n + 1))) = false := by
  unfold containsStr
  rw [decide_eq_false_iff_not]
  intro h
  have hm : 'P' ∈ l.flatMap (fun n => column w (n + 1)) := h.subset (by decide)
  rcases numLine_columns w l _ hm with h | h | h
  · exact absurd h (by decide)
  · exact absurd h (by decide)
  · exact absurd h (by decide)

theorem first_line (v w i : ℕ) (l : List ℕ) :
    pySplit ("Perm #:".toList ++ column v i ++ " Perm:".toList ++ l.flatMap (fun x => column w (x + 1))) =
      ["Perm".toList, "#:".toList, natStr i, "Perm:".toList] ++ l.map (fun n => natStr (n + 1)) := by
  rw [split_places]
  congr 1
  unfold column
  rw [List.append_assoc]
  show pySplit ("Perm #:".toList ++ ' ' :: (padLeft v (natStr i) ++ ' ' :: "Perm:".toList)) = _
  rw [split_append_ws _ ws_space, split_append_ws _ ws_space, split_padLeft_head, split_natStr]
  rfl

theorem parse_places (l : List ℕ) : (l.map (fun n => natStr (n + 1))).mapM parseInt = .ok (l.map (fun n : ℕ => ((n : ℤ) + 1))) := by
  have : l.map (fun n => natStr (n + 1)) = (l.map (fun n : ℕ => ((n : ℤ) + 1))).map intStr := by
    rw [List.map_map]
    apply List.map_congr_left
    intro n _
    show natStr (n + 1) = intStr ((n : ℤ) + 1)
    rw [← intStr_natCast]
    push_cast
    rfl
  rw [this, mapM_parse _ _ parseInt_intStr]

theorem loop_pieces (w : ℕ) (ls : List Str) : ∀ (rest : List (List ℕ)) (acc : List (List ℤ)) (q : List ℤ),
    readGroupLoop (rest.map (fun piece => piece.flatMap (fun x => column w (x + 1))) ++ ls) (acc ++ [q]) =
      readGroupLoop ls (acc ++ [q ++ rest.flatten.map (fun n : ℕ => ((n : ℤ) + 1))])
  | [], acc, q => by simp
  | piece :: rest, acc, q => by
    rw [List.map_cons, List.cons_append, readGroupLoop]
    rw [if_neg (by rw [columns_no_perm]; decide)]
    have h := split_places w [] piece
    rw [List.nil_append, split_nil, List.nil_append] at h
    rw [h, parse_places]
    simp only [bind, Except.bind, List.getLast?_concat, List.dropLast_concat]
    rw [loop_pieces w ls rest]
    simp

theorem loop_perms (v w : ℕ) : ∀ (G : List (List ℕ × List (List ℕ))) (k : ℕ) (acc : List (List ℤ)),
    readGroupLoop ((G.zipIdx k).flatMap (fun p => permLines v w (p.2 + 1) p.1.1 p.1.2)) acc =
      .ok (acc ++ G.map (fun p => (p.1 ++ p.2.flatten).map (fun n : ℕ => ((n : ℤ) + 1))))
  | [], k, acc => by simp [readGroupLoop]
  | p :: G, k, acc => by
    rw [List.zipIdx_cons, List.flatMap_cons]
    unfold permLines
    rw [List.cons_append, readGroupLoop, if_pos]
    · rw [first_line]
      show (do let q ← (p.1.map (fun n => natStr (n + 1))).mapM parseInt; _) = _
      rw [parse_places]
      simp only [bind, Except.bind]
      rw [loop_pieces]
      have := loop_perms v w G (k + 1) (acc ++ [p.1.map (fun n : ℕ => ((n : ℤ) + 1)) ++ p.2.flatten.map (fun n : ℕ => ((n : ℤ) + 1))])
      unfold permLines at this
      rw [this]
      simp
    · unfold containsStr
      rw [decide_eq_true_eq]
      simp only [List.append_assoc]
      exact (List.prefix_append _ _).isInfix

/-- C66. Reading a group from a file in the format of enum.x (a heading of six lines; for each permutation a line that begins with `Perm #:`, its number and
`Perm:` followed by its entries counted from 1 and possibly continued on further lines) gives exactly the permutations, counted from 0, in the order of the
file. -/
theorem C66_read_group (v w : ℕ) (head : List Str) (h6 : head.length = 6) (hh : ∀ l ∈ head, '\n' ∉ l) (G : List (List ℕ × List (List ℕ))) (n : ℕ)
    (hG : ∀ p ∈ G, (p.1 ++ p.2.flatten).length = n) :
    readGroup (groupFile v w head G) = .ok (G.map (fun p => (p.1 ++ p.2.flatten).map (fun x : ℕ => (x : ℤ)))) := by
  have hlines : fileLines (groupFile v w head G) = head ++ G.zipIdx.flatMap (fun p => permLines v w (p.2 + 1) p.1.1 p.1.2) := by
    unfold groupFile
    apply fileLines_eq
    intro l hl
    rcases List.mem_append.mp hl with hl | hl
    · exact hh l hl
    · obtain ⟨p, -, hp⟩ := List.mem_flatMap.mp hl
      unfold permLines at hp
      rcases List.mem_cons.mp hp with rfl | hp
      · intro hm
        simp only [List.mem_append] at hm
        rcases hm with ((hm | hm) | hm) | hm
        · exact absurd hm (by decide)
        · unfold column padLeft at hm
          rcases List.mem_cons.mp hm with hm | hm
          · exact absurd hm (by decide)
          · rcases List.mem_append.mp hm with hm | hm
            · exact absurd (List.eq_of_mem_replicate hm) (by decide)
            · rcases NumLine.nat _ _ hm with h | h | h
              · exact absurd h (by decide)
              · exact absurd h (by decide)
              · exact absurd h (by decide)
        · exact absurd hm (by decide)
        · exact (numLine_columns w _).no_newline hm
      · obtain ⟨piece, -, rfl⟩ := List.mem_map.mp hp
        exact (numLine_columns w _).no_newline
  unfold readGroup
  rw [hlines, ← h6, List.drop_left, loop_perms, List.nil_append]
  simp only [bind, Except.bind]
  have hc : checkRows (G.map (fun p => (p.1 ++ p.2.flatten).map (fun n : ℕ => ((n : ℤ) + 1)))) =
      .ok (G.map (fun p => (p.1 ++ p.2.flatten).map (fun n : ℕ => ((n : ℤ) + 1)))) := by
    cases G with
    | nil => rfl
    | cons p G =>
      rw [List.map_cons, checkRows, if_pos]
      rw [List.all_eq_true]
      intro r hr
      obtain ⟨q, hq, rfl⟩ := List.mem_map.mp hr
      rw [decide_eq_true_eq, List.length_map, List.length_map, hG q (List.mem_cons_of_mem _ hq), hG p List.mem_cons_self]
  rw [hc]
  simp only [List.map_map]
  congr 1
  apply List.map_congr_left
  intro p _
  simp [Function.comp_def]

/-- the first lines of /repo/input/tests/test3/cells.6/group.1, the second permutation broken over two lines -/
def cyclicFile : Str := ofLines [
  "The integer vectors in the final columns of each",
  "permutation listing describe how a list 1, 2, ...",
  "gets permuted. So \"2 1\" implies that element 2 is",
  "mapped to position 1, and the first one ends up in ",
  "second position.",
  "Number of permutations:   12",
  "Perm #:     1 Perm:    1    2    3    4    5    6",
  "Perm #:     2 Perm:    6    1    2",
  "    3    4    5"]

def cyclicHead : List Str := [
  "The integer vectors in the final columns of each".toList,
  "permutation listing describe how a list 1, 2, ...".toList,
  "gets permuted. So \"2 1\" implies that element 2 is".toList,
  "mapped to position 1, and the first one ends up in ".toList,
  "second position.".toList,
  "Number of permutations:   12".toList]

example : readGroup cyclicFile = .ok [[0, 1, 2, 3, 4, 5], [5, 0, 1, 2, 3, 4]] := by
  have e : cyclicFile = groupFile 5 4 cyclicHead [([0, 1, 2, 3, 4, 5], []), ([5, 0, 1], [[2, 3, 4]])] := by decide +kernel
  rw [e]
  exact C66_read_group 5 4 cyclicHead rfl (by decide) _ 6 (by simp)

end Phenum
