import Verif.Props.PoscarTitle
import Verif.Props.Steps
/-
What makeStr writes into titles: the names of elements of the table, and a title that is one line.
-/
namespace Phenum
open Spec

theorem py_bind_ok {α β : Type} {x : Py α} {f : α → Py β} {b : β} (h : (x >>= f) = .ok b) : ∃ a, x = .ok a ∧ f a = .ok b := by
  cases x with
  | error e => cases h
  | ok a => exact ⟨a, rfl, h⟩

theorem py_map_ok {α β : Type} {x : Py α} {f : α → β} {b : β} (h : x.map f = .ok b) : ∃ a, x = .ok a ∧ f a = b := by
  cases x with
  | error e => cases h
  | ok a => exact ⟨a, rfl, Except.ok.inj h⟩

/-- The names of the elements begin with a letter and have no white space. -/
theorem table_words : ∀ p ∈ elementTable, IsWord p.1.toList ∧ p.1.toList.head? ≠ some '_' := by
  have : ∀ p ∈ elementTable, (p.1.toList ≠ [] ∧ ∀ ch ∈ p.1.toList, isWs ch = false) ∧ p.1.toList.head? ≠ some '_' := by decide +kernel
  exact this

theorem volume_word {e : String} {v : ℚ} (h : elementVolume e = .ok v) : IsWord e.toList ∧ e.toList.head? ≠ some '_' := by
  unfold elementVolume at h
  split at h
  · rename_i p hp
    have h1 := List.mem_of_find?_eq_some hp
    have h2 := List.find?_some hp
    have : p.1 = e := by simpa using h2
    rw [← this]
    exact table_words p (List.mem_reverse.mp h1)
  · cases h

theorem latParamLoop_names {A : Matrix (Fin 3) (Fin 3) ℝ} {n : ℕ} {rz : Bool} : ∀ (l : List (String × ℕ)) (s : ℝ) (t : List String) (r : ℝ × List String),
    latParamLoop A n rz l s t = .ok r → (∀ e ∈ t, IsWord e.toList ∧ e.toList.head? ≠ some '_') → ∀ e ∈ r.2, IsWord e.toList ∧ e.toList.head? ≠ some '_' := by
  intro l
  induction l with
  | nil =>
    intro s t r h ht
    rw [← Except.ok.inj h]
    exact ht
  | cons p rest ih =>
    intro s t r h ht
    obtain ⟨e, c⟩ := p
    unfold latParamLoop at h
    obtain ⟨a, h1, h⟩ := py_bind_ok h
    refine ih _ _ r h ?_
    have he : IsWord e.toList ∧ e.toList.head? ≠ some '_' := by
      unfold latParamElement at h1
      obtain ⟨v, h2, -⟩ := py_bind_ok h1
      exact volume_word h2
    have hte : ∀ x ∈ t ++ [e], IsWord x.toList ∧ x.toList.head? ≠ some '_' := by
      intro x hx
      rcases List.mem_append.mp hx with hx | hx
      · exact ht x hx
      · rw [List.mem_singleton.mp hx]
        exact he
    intro x hx
    by_cases hc : c > 0
    · simp only [hc, if_true] at hx
      exact hte x hx
    · simp only [hc, if_false] at hx
      split at hx
      · exact hte x hx
      · exact ht x hx

theorem latticeParameter_names {els : Option (List String)} {concs : List ℕ} {A : Matrix (Fin 3) (Fin 3) ℝ} {n : ℕ} {rz : Bool} {r : ℝ × List String}
    (h : latticeParameter els concs A n rz = .ok r) : ∀ e ∈ r.2, IsWord e.toList ∧ e.toList.head? ≠ some '_' := by
  unfold latticeParameter at h
  cases els with
  | none =>
    rw [← Except.ok.inj h]
    simp
  | some els =>
    simp only at h
    split at h
    · cases h
    · obtain ⟨⟨s, t⟩, h1, h⟩ := py_bind_ok h
      simp only at h
      split at h
      · cases h
      · rw [← Except.ok.inj h]
        exact latParamLoop_names _ _ _ (s, t) h1 (by simp)

/-- The names in a POSCAR written by makeStr are those of elements. -/
theorem makeOne_poscar_names {m : MakeArgs} (hf : m.config = .str "f".toList) {mp : Option (List ℕ)} {rz : Bool} {sys : ReadSystem} {rnd : ℕ → ℕ → ℝ} {st : ReadStruct}
    {name : Str} {P : Poscar} (h : makeOne m mp rz sys rnd st = (pure [.poscar name P] : Run (List OutFile))) : ∀ e ∈ P.names, IsWord e.toList := by
  unfold makeOne at h
  obtain ⟨k, -, h⟩ := run_bind_ok h
  obtain ⟨e, -, h⟩ := run_bind_ok h
  obtain ⟨sd, -, h⟩ := run_bind_ok h
  obtain ⟨ab, -, h⟩ := run_bind_ok h
  simp only [hf, if_true] at h
  obtain ⟨name', h1, h⟩ := run_bind_ok h
  obtain ⟨P', h2, h⟩ := run_bind_ok h
  have := run_pure_inj h
  rw [List.cons.injEq, OutFile.poscar.injEq] at this
  obtain ⟨⟨-, rfl⟩, -⟩ := this
  have h2 := runPy_eq_pure h2
  unfold writePoscar at h2
  obtain ⟨concs, -, h2⟩ := py_bind_ok h2
  obtain ⟨r, h3, h2⟩ := py_bind_ok h2
  obtain ⟨dirs, -, h2⟩ := py_bind_ok h2
  obtain ⟨lines, -, h2⟩ := py_bind_ok h2
  rw [← Except.ok.inj h2]
  exact fun e he => (latticeParameter_names h3 e he).1

/-- The same for a config file. -/
theorem makeOne_config_names {m : MakeArgs} (hf : m.config = .str "t".toList) {mp : Option (List ℕ)} {rz : Bool} {sys : ReadSystem} {rnd : ℕ → ℕ → ℝ} {st : ReadStruct}
    {name : Str} {C : ConfigFile} (h : makeOne m mp rz sys rnd st = (pure [.config name C] : Run (List OutFile))) :
    ∀ e ∈ C.names, IsWord e.toList ∧ e.toList.head? ≠ some '_' := by
  unfold makeOne at h
  obtain ⟨k, -, h⟩ := run_bind_ok h
  obtain ⟨e, -, h⟩ := run_bind_ok h
  obtain ⟨sd, -, h⟩ := run_bind_ok h
  obtain ⟨ab, -, h⟩ := run_bind_ok h
  rw [if_neg (by rw [hf]; decide), if_pos hf] at h
  obtain ⟨C', h2, h⟩ := run_bind_ok h
  have := run_pure_inj h
  rw [List.cons.injEq, OutFile.config.injEq] at this
  obtain ⟨⟨-, rfl⟩, -⟩ := this
  have h2 := runPy_eq_pure h2
  unfold writeConfig at h2
  obtain ⟨concs, -, h2⟩ := py_bind_ok h2
  obtain ⟨sp, -, h2⟩ := py_bind_ok h2
  obtain ⟨r, h3, h2⟩ := py_bind_ok h2
  obtain ⟨dirs, -, h2⟩ := py_bind_ok h2
  obtain ⟨lines, -, h2⟩ := py_bind_ok h2
  rw [← Except.ok.inj h2]
  exact latticeParameter_names h3

/-! ## the title of enum.out -/

theorem splitOn_nonl (s : Str) : ∀ l ∈ splitOn '\n' s, '\n' ∉ l := by
  induction s with
  | nil => simp [splitOn]
  | cons c s ih =>
    rw [splitOn]
    split
    · intro l hl
      rcases List.mem_cons.mp hl with rfl | hl
      · simp
      · exact ih l hl
    · rename_i hc
      split
      · intro l hl
        rw [List.mem_singleton.mp hl]
        simpa using fun e => hc e.symm
      · rename_i w ws hw
        rw [hw] at ih
        intro l hl
        rcases List.mem_cons.mp hl with rfl | hl
        · rw [List.mem_cons, not_or]
          exact ⟨fun e => hc e.symm, ih w List.mem_cons_self⟩
        · exact ih l (List.mem_cons_of_mem _ hl)

theorem fileLines_nonl (s : Str) : ∀ l ∈ fileLines s, '\n' ∉ l := by
  intro l hl
  unfold fileLines at hl
  simp only at hl
  split at hl
  · exact splitOn_nonl s l (List.mem_of_mem_dropLast hl)
  · exact splitOn_nonl s l hl

theorem readLine_title {want : ℤ → Bool} {lc : ℕ} {line : Str} (hl : '\n' ∉ line) {acc acc' : ReadSystem × List ReadStruct} (ha : '\n' ∉ acc.1.title)
    (h : readLine want lc line acc = .ok acc') : '\n' ∉ acc'.1.title := by
  have htemp : '\n' ∉ rstrip line := by
    intro h
    unfold rstrip at h
    rw [List.mem_reverse] at h
    exact hl (List.mem_reverse.mp ((List.dropWhile_suffix _).subset h))
  unfold readLine at h
  simp only at h
  split at h
  · rw [← Except.ok.inj h]; exact ha
  · obtain ⟨s1, h1, h⟩ := py_bind_ok h
    obtain ⟨s2, h2, h⟩ := py_bind_ok h
    obtain ⟨s3, h3, h⟩ := py_bind_ok h
    have t1 : '\n' ∉ s1.title := by
      unfold readHead at h1
      split at h1
      · rw [← Except.ok.inj h1]; exact htemp
      · split at h1
        · obtain ⟨v, -, rfl⟩ := py_map_ok h1; exact ha
        · split at h1
          · obtain ⟨v, -, rfl⟩ := py_map_ok h1; exact ha
          · rw [← Except.ok.inj h1]; exact ha
    have t2 : '\n' ∉ s2.title := by
      unfold readBasis at h2
      split at h2
      · obtain ⟨v, -, rfl⟩ := py_map_ok h2; exact t1
      · rw [← Except.ok.inj h2]; exact t1
    have t3 : '\n' ∉ s3.title := by
      unfold readRest at h3
      split at h3
      · obtain ⟨v, -, rfl⟩ := py_map_ok h3; exact t2
      · split at h3
        · obtain ⟨v, -, rfl⟩ := py_map_ok h3; exact t2
        · rw [← Except.ok.inj h3]; exact t2
    split at h
    · obtain ⟨r, -, h⟩ := py_bind_ok h
      rw [← Except.ok.inj h]; exact t3
    · rw [← Except.ok.inj h]; exact t3

/-- The title read from enum.out is one line. -/
theorem readEnumOut_title {structures : Option (List ℤ)} {file : Str} {r : ReadSystem × List ReadStruct} (h : readEnumOut structures file = .ok r) : '\n' ∉ r.1.title := by
  have key : ∀ (want : ℤ → Bool) (ls : List Str) (lc : ℕ) (acc r : ReadSystem × List ReadStruct), (∀ l ∈ ls, '\n' ∉ l) → '\n' ∉ acc.1.title → readLoop want lc ls acc = .ok r →
      '\n' ∉ r.1.title := by
    intro want ls
    induction ls with
    | nil => intro lc acc r _ ha h; rw [← Except.ok.inj h]; exact ha
    | cons l ls ih =>
      intro lc acc r hl ha h
      unfold readLoop at h
      obtain ⟨acc', h1, h⟩ := py_bind_ok h
      exact ih (lc + 1) acc' r (fun x hx => hl x (List.mem_cons_of_mem _ hx)) (readLine_title (hl l List.mem_cons_self) ha h1) h
  exact key _ _ _ _ _ (fileLines_nonl file) (by simp) h

end Phenum
