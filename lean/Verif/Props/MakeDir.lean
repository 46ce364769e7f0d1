import Verif.Props.MakeNames
/-
C85. makeStr and the directory: which files it changes and how, also when it is stopped and called again.
-/
namespace Phenum
open Spec

/-- The directory after any number of calls of makeStr with these options, each with its own random numbers, each of which may have been stopped at any moment, may have raised
an exception or may have come to its end. -/
inductive Spec.MakeHistory (m : MakeArgs) (input : Str) (d : Dir) : Dir → Prop
  | start : MakeHistory m input d d
  | run {x y : Dir} (rnd : ReadStruct → ℕ → ℕ → ℝ) : MakeHistory m input d x → y ∈ makeStrStops m input rnd x → MakeHistory m input d y

/-- The structures that makeStr reads from the file `input` and selects. -/
def Spec.MakeReads (m : MakeArgs) (input : Str) (d : Dir) (sys : ReadSystem) (sts : List ReadStruct) : Prop :=
  ∃ structures file, selectStructures m.structures = .ok structures ∧ readFile d input = .ok file ∧ readEnumOut structures file = .ok (sys, sts)

/-! ## what is written for a structure -/

theorem makeOne_poscar {m : MakeArgs} (hf : m.config = .str "f".toList) {mp : Option (List ℕ)} {rz : Bool} {sys : ReadSystem} {rnd : ℕ → ℕ → ℝ} {st : ReadStruct}
    {outs : List OutFile} (h : makeOne m mp rz sys rnd st = (pure outs : Run (List OutFile))) :
    ∃ name P, poscarName m.outfile st.strN = .ok name ∧ outs = [.poscar name P] := by
  unfold makeOne at h
  obtain ⟨k, -, h⟩ := run_bind_ok h
  obtain ⟨e, -, h⟩ := run_bind_ok h
  obtain ⟨sd, -, h⟩ := run_bind_ok h
  obtain ⟨ab, -, h⟩ := run_bind_ok h
  simp only [hf, if_true] at h
  obtain ⟨name, h1, h⟩ := run_bind_ok h
  obtain ⟨P, -, h⟩ := run_bind_ok h
  exact ⟨name, P, runPy_eq_pure h1, (run_pure_inj h).symm⟩

theorem makeOne_config {m : MakeArgs} (hf : m.config = .str "t".toList) {mp : Option (List ℕ)} {rz : Bool} {sys : ReadSystem} {rnd : ℕ → ℕ → ℝ} {st : ReadStruct}
    {outs : List OutFile} (h : makeOne m mp rz sys rnd st = (pure outs : Run (List OutFile))) : ∃ C, outs = [.config m.outfile C] := by
  unfold makeOne at h
  obtain ⟨k, -, h⟩ := run_bind_ok h
  obtain ⟨e, -, h⟩ := run_bind_ok h
  obtain ⟨sd, -, h⟩ := run_bind_ok h
  obtain ⟨ab, -, h⟩ := run_bind_ok h
  rw [if_neg (by rw [hf]; decide), if_pos hf] at h
  obtain ⟨C, -, h⟩ := run_bind_ok h
  exact ⟨C, (run_pure_inj h).symm⟩

theorem makeStrDir_reads {m : MakeArgs} {input : Str} {d : Dir} {sys : ReadSystem} {sts : List ReadStruct} (h : MakeReads m input d sys sts) (rnd : ReadStruct → ℕ → ℕ → ℝ) :
    makeStrDir m input rnd d = makeLoop m (zerosLeft m) sys rnd sts d := by
  obtain ⟨structures, file, h1, h2, h3⟩ := h
  unfold makeStrDir
  rw [h1, h2, runPy_ok, pure_bind, runPy_ok, pure_bind, h3, runPy_ok, pure_bind]

theorem makeStrDir_ok {m : MakeArgs} {input : Str} {d d' : Dir} {rnd : ReadStruct → ℕ → ℕ → ℝ} (h : makeStrDir m input rnd d = (pure d' : Run Dir)) :
    ∃ sys sts, MakeReads m input d sys sts := by
  unfold makeStrDir at h
  obtain ⟨s, h1, h⟩ := run_bind_ok h
  obtain ⟨f, h2, h⟩ := run_bind_ok h
  obtain ⟨r, h3, -⟩ := run_bind_ok h
  exact ⟨r.1, r.2, s, f, runPy_eq_pure h1, runPy_eq_pure h2, runPy_eq_pure h3⟩

theorem makeReads_unique {m : MakeArgs} {input : Str} {d : Dir} {sys sys' : ReadSystem} {sts sts' : List ReadStruct} (h : MakeReads m input d sys sts)
    (h' : MakeReads m input d sys' sts') : sys = sys' ∧ sts = sts' := by
  obtain ⟨s, f, h1, h2, h3⟩ := h
  obtain ⟨s', f', h1', h2', h3'⟩ := h'
  rw [h1] at h1'
  cases h1'
  rw [h2] at h2'
  cases h2'
  rw [h3] at h3'
  cases h3'
  exact ⟨rfl, rfl⟩

theorem makeReads_congr {m : MakeArgs} {input : Str} {d d' : Dir} {sys : ReadSystem} {sts : List ReadStruct} (h : MakeReads m input d sys sts)
    (he : dictGet d' input = dictGet d input) : MakeReads m input d' sys sts := by
  obtain ⟨s, f, h1, h2, h3⟩ := h
  refine ⟨s, f, h1, ?_, h3⟩
  unfold readFile at h2 ⊢
  rw [he]
  exact h2

theorem makeReads_title {m : MakeArgs} {input : Str} {d : Dir} {sys : ReadSystem} {sts : List ReadStruct} (h : MakeReads m input d sys sts) : '\n' ∉ sys.title := by
  obtain ⟨s, f, -, -, h3⟩ := h
  exact readEnumOut_title h3

theorem forall₂_right {α β : Type} {R : α → β → Prop} {l : List α} {k : List β} (h : List.Forall₂ R l k) : ∀ b ∈ k, ∃ a ∈ l, R a b := by
  induction h with
  | nil => intro b hb; simp at hb
  | cons r _ ih =>
    intro b hb
    rcases List.mem_cons.mp hb with rfl | hb
    · exact ⟨_, List.mem_cons_self, r⟩
    · obtain ⟨a, ha, h⟩ := ih b hb
      exact ⟨a, List.mem_cons_of_mem _ ha, h⟩

/-- the stops of a call -/
theorem makeStrStops_reads {m : MakeArgs} {input : Str} {d : Dir} {sys : ReadSystem} {sts : List ReadStruct} (h : MakeReads m input d sys sts) {rnd : ReadStruct → ℕ → ℕ → ℝ} {x : Dir}
    (hx : x ∈ makeStrStops m input rnd d) : x = d ∨ x ∈ makeLoopStops m (zerosLeft m) sys rnd sts d := by
  rcases hx with hx | ⟨s, f, r, h1, h2, h3, hx⟩
  · exact Or.inl hx
  · obtain ⟨e1, e2⟩ := makeReads_unique h ⟨s, f, h1, h2, h3⟩
    exact Or.inr (by rw [e1, e2]; exact hx)

theorem stops_reads {m : MakeArgs} {input : Str} {d : Dir} {rnd : ReadStruct → ℕ → ℕ → ℝ} {x : Dir}
    (hx : x ∈ makeStrStops m input rnd d) : x = d ∨ ∃ sys sts, MakeReads m input d sys sts ∧ x ∈ makeLoopStops m (zerosLeft m) sys rnd sts d := by
  rcases hx with hx | ⟨s, f, r, h1, h2, h3, hx⟩
  · exact Or.inl hx
  · exact Or.inr ⟨r.1, r.2, ⟨s, f, h1, h2, h3⟩, hx⟩

/-! ## POSCAR files -/

/-- nothing else is changed, wherever the loop is stopped -/
theorem poscarStops_others {m : MakeArgs} (hf : m.config = .str "f".toList) {rz : Bool} {sys : ReadSystem} {rnd : ReadStruct → ℕ → ℕ → ℝ} {f : Str} :
    ∀ (sts : List ReadStruct) (d x : Dir), (∀ st ∈ sts, poscarName m.outfile st.strN ≠ .ok f) → x ∈ makeLoopStops m rz sys rnd sts d → dictGet x f = dictGet d f := by
  intro sts
  induction sts with
  | nil => intro d x _ hx; rw [show x = d from hx]
  | cons st rest ih =>
    intro d x hn hx
    rcases hx with rfl | ⟨-, name, p, h1, rfl, -⟩ | ⟨h1, -⟩ | ⟨outs, h1, hx⟩
    · rfl
    · rw [dictGet_set, if_neg]
      rintro rfl
      exact hn st List.mem_cons_self h1
    · rw [hf] at h1
      exact absurd h1 (by decide)
    · rw [ih _ x (fun s hs => hn s (List.mem_cons_of_mem _ hs)) hx]
      obtain ⟨name, P, h2, rfl⟩ := makeOne_poscar hf h1
      show dictGet (dictSet d name _) f = _
      rw [dictGet_set, if_neg]
      rintro rfl
      exact hn st List.mem_cons_self h2

theorem makeLoop_final {m : MakeArgs} {rz : Bool} {sys : ReadSystem} {rnd : ReadStruct → ℕ → ℕ → ℝ} : ∀ (sts : List ReadStruct) (d d' : Dir),
    makeLoop m rz sys rnd sts d = (pure d' : Run Dir) → d' ∈ makeLoopStops m rz sys rnd sts d := by
  intro sts
  induction sts with
  | nil => intro d d' h; exact (run_pure_inj h).symm
  | cons st rest ih =>
    intro d d' h
    unfold makeLoop at h
    obtain ⟨outs, h1, h⟩ := run_bind_ok h
    exact Or.inr (Or.inr (Or.inr ⟨outs, h1, ih _ _ h⟩))

/-- a completed run is one of the ways of being stopped -/
theorem makeStrDir_final {m : MakeArgs} {input : Str} {rnd : ReadStruct → ℕ → ℕ → ℝ} {d d' : Dir} (h : makeStrDir m input rnd d = (pure d' : Run Dir)) :
    d' ∈ makeStrStops m input rnd d := by
  obtain ⟨sys, sts, hr⟩ := makeStrDir_ok h
  rw [makeStrDir_reads hr] at h
  obtain ⟨s, f, h1, h2, h3⟩ := hr
  exact Or.inr ⟨s, f, (sys, sts), h1, h2, h3, makeLoop_final _ _ _ h⟩

/-- the loop from two directories: it ends in both, and the files written are the same -/
theorem poscarLoop_from {m : MakeArgs} (hf : m.config = .str "f".toList) {rz : Bool} {sys : ReadSystem} {rnd : ReadStruct → ℕ → ℕ → ℝ} :
    ∀ (sts : List ReadStruct) (d x d' : Dir), makeLoop m rz sys rnd sts d = (pure d' : Run Dir) →
      ∃ x', makeLoop m rz sys rnd sts x = (pure x' : Run Dir) ∧
        ∀ f, ((∃ st ∈ sts, poscarName m.outfile st.strN = .ok f) ∨ dictGet x f = dictGet d f) → dictGet x' f = dictGet d' f := by
  intro sts
  induction sts with
  | nil =>
    intro d x d' h
    refine ⟨x, rfl, ?_⟩
    rintro f (⟨st, hst, -⟩ | hf')
    · simp at hst
    · rw [hf', run_pure_inj h]
  | cons st rest ih =>
    intro d x d' h
    unfold makeLoop at h
    obtain ⟨outs, h1, h⟩ := run_bind_ok h
    obtain ⟨name, P, h2, rfl⟩ := makeOne_poscar hf h1
    obtain ⟨x', h3, h4⟩ := ih _ (([OutFile.poscar name P].map (textOut m sys st)).foldl writeOut x) d' h
    refine ⟨x', ?_, ?_⟩
    · unfold makeLoop
      rw [h1, pure_bind]
      exact h3
    · intro f hf'
      apply h4
      have hset : ∀ y : Dir, dictGet (([OutFile.poscar name P].map (textOut m sys st)).foldl writeOut y) f =
          if f = name then some (textOut m sys st (OutFile.poscar name P)).text else dictGet y f := by
        intro y
        show dictGet (dictSet y name _) f = _
        rw [dictGet_set]
        rfl
      rcases hf' with ⟨s, hs, hsn⟩ | hf'
      · rcases List.mem_cons.mp hs with rfl | hs
        · rw [h2] at hsn
          cases hsn
          right
          rw [hset, hset, if_pos rfl, if_pos rfl]
        · exact Or.inl ⟨s, hs, hsn⟩
      · right
        rw [hset, hset, hf']

/-- C85. The files that makeStr writes for VASP. If it comes to its end, it has written the file of every structure it read, whatever was in it before: if no other structure has
the same number the file holds the text of this structure. All other files are as before. -/
theorem C85_poscar_files {m : MakeArgs} (hf : m.config = .str "f".toList) {input : Str} {rnd : ReadStruct → ℕ → ℕ → ℝ} {d d' : Dir}
    (h : makeStrDir m input rnd d = (pure d' : Run Dir)) : ∃ sys sts, MakeReads m input d sys sts ∧
      (∀ st ∈ sts, ∃ name P, poscarName m.outfile st.strN = .ok name ∧
        makeOne m m.speciesMapping (zerosLeft m) sys (rnd st) st = (pure [.poscar name P] : Run (List OutFile)) ∧
        ((∀ st' ∈ sts, poscarName m.outfile st'.strN = .ok name → st' = st) →
          dictGet d' name = some (poscarText (poscarTitle m.species.isSome P.names sys.title st.strN) P))) ∧
      ∀ f, (∀ st ∈ sts, poscarName m.outfile st.strN ≠ .ok f) → dictGet d' f = dictGet d f := by
  obtain ⟨sys, sts, hr⟩ := makeStrDir_ok h
  rw [makeStrDir_reads hr] at h
  refine ⟨sys, sts, hr, ?_, fun f hn => poscarStops_others hf sts d d' hn (makeLoop_final _ _ _ h)⟩
  clear hr
  induction sts generalizing d with
  | nil => intro st hst; simp at hst
  | cons s rest ih =>
    intro st hst
    unfold makeLoop at h
    obtain ⟨outs, h1, h⟩ := run_bind_ok h
    obtain ⟨name, P, h2, rfl⟩ := makeOne_poscar hf h1
    by_cases hmem : st ∈ rest
    · obtain ⟨name', P', h3, h4, h5⟩ := ih h st hmem
      exact ⟨name', P', h3, h4, fun hu => h5 (fun st' hst' hn => hu st' (List.mem_cons_of_mem _ hst') hn)⟩
    · obtain rfl : st = s := by
        rcases List.mem_cons.mp hst with e | e
        · exact e
        · exact absurd e hmem
      refine ⟨name, P, h2, h1, fun hu => ?_⟩
      rw [poscarStops_others hf rest _ d' ?_ (makeLoop_final _ _ _ h)]
      · show dictGet (dictSet d name _) name = _
        rw [dictGet_set, if_pos rfl]
        rfl
      · intro st' hst' hn
        exact hmem (by rw [← hu st' (List.mem_cons_of_mem _ hst') hn]; exact hst')

/-- C85. Stopping makeStr does no harm to POSCAR files. Any number of calls that were stopped at any moment, or raised an exception, or came to their end, change only the files of
the structures; and the same call made once more gives every file the contents it would have had after a single call in the directory as it was at first, provided
that the input file is not one of the files written. -/
theorem C85_poscar_stopped {m : MakeArgs} (hf : m.config = .str "f".toList) {input : Str} {d : Dir} {sys : ReadSystem} {sts : List ReadStruct} (hr : MakeReads m input d sys sts)
    (hin : ∀ st ∈ sts, poscarName m.outfile st.strN ≠ .ok input) {x : Dir} (hx : MakeHistory m input d x) :
    (∀ f, (∀ st ∈ sts, poscarName m.outfile st.strN ≠ .ok f) → dictGet x f = dictGet d f) ∧
    ∀ (rnd : ReadStruct → ℕ → ℕ → ℝ) (d' : Dir), makeStrDir m input rnd d = (pure d' : Run Dir) →
      ∃ x', makeStrDir m input rnd x = (pure x' : Run Dir) ∧ ∀ f, dictGet x' f = dictGet d' f := by
  have key : ∀ f, (∀ st ∈ sts, poscarName m.outfile st.strN ≠ .ok f) → dictGet x f = dictGet d f := by
    induction hx with
    | start => intro f _; rfl
    | run rnd hx hy ih =>
      intro f hn
      rw [← ih f hn]
      rcases makeStrStops_reads (makeReads_congr hr (ih input hin)) hy with rfl | hy
      · rfl
      · exact poscarStops_others hf sts _ _ hn hy
  refine ⟨key, ?_⟩
  intro rnd d' h
  rw [makeStrDir_reads hr] at h
  obtain ⟨x', h1, h2⟩ := poscarLoop_from hf sts d x d' h
  refine ⟨x', by rw [makeStrDir_reads (makeReads_congr hr (key input hin))]; exact h1, ?_⟩
  intro f
  apply h2
  by_cases hn : ∃ st ∈ sts, poscarName m.outfile st.strN = .ok f
  · exact Or.inl hn
  · exact Or.inr (key f (fun st hst e => hn ⟨st, hst, e⟩))

/-- the files of a loop that was stopped, beside those of one that came to its end -/
theorem poscarStops_cut {m : MakeArgs} (hf : m.config = .str "f".toList) {rz : Bool} {sys : ReadSystem} {rnd : ReadStruct → ℕ → ℕ → ℝ} :
    ∀ (sts : List ReadStruct) (d d' x : Dir), (sts.map (fun st => poscarName m.outfile st.strN)).Nodup → makeLoop m rz sys rnd sts d = (pure d' : Run Dir) →
      x ∈ makeLoopStops m rz sys rnd sts d →
      ∃ cut : Str, (∃ t t', dictGet x cut = some t ∧ dictGet d' cut = some t' ∧ t <+: t') ∧ (∀ f, f ≠ cut → dictGet x f = dictGet d f ∨ dictGet x f = dictGet d' f) ∨
        ∀ f, dictGet x f = dictGet d f ∨ dictGet x f = dictGet d' f := by
  intro sts
  induction sts with
  | nil => intro d d' x _ _ hx; rw [show x = d from hx]; exact ⟨[], Or.inr fun f => Or.inl rfl⟩
  | cons st rest ih =>
    intro d d' x hnd h hx
    rw [List.map_cons, List.nodup_cons] at hnd
    unfold makeLoop at h
    obtain ⟨outs, h1, h⟩ := run_bind_ok h
    obtain ⟨name, P, h2, rfl⟩ := makeOne_poscar hf h1
    have hd' : dictGet d' name = some (textOut m sys st (.poscar name P)).text := by
      rw [poscarStops_others hf rest _ d' ?_ (makeLoop_final _ _ _ h)]
      · show dictGet (dictSet d name _) name = _
        rw [dictGet_set, if_pos rfl]
        rfl
      · intro s' hs' e
        exact hnd.1 (List.mem_map.mpr ⟨s', hs', by rw [e, h2]⟩)
    rcases hx with rfl | ⟨-, name', p, g1, rfl, g2⟩ | ⟨g1, -⟩ | ⟨outs, g1, hx⟩
    · exact ⟨[], Or.inr fun f => Or.inl rfl⟩
    · rw [h2] at g1
      obtain rfl : name = name' := by injection g1
      refine ⟨name, Or.inl ⟨⟨p, _, by rw [dictGet_set, if_pos rfl], hd', g2 _ _ h1⟩, fun f hne => Or.inl ?_⟩⟩
      rw [dictGet_set, if_neg hne]
    · rw [hf] at g1
      exact absurd g1 (by decide)
    · rw [h1] at g1
      obtain rfl := run_pure_inj g1
      have key : ∀ f, dictGet x f = dictGet (([OutFile.poscar name P].map (textOut m sys st)).foldl writeOut d) f ∨ dictGet x f = dictGet d' f →
          dictGet x f = dictGet d f ∨ dictGet x f = dictGet d' f := by
        rintro f (e | e)
        · by_cases hn : f = name
          · subst hn
            refine Or.inr (e.trans (Eq.trans ?_ hd'.symm))
            show dictGet (dictSet d f _) f = _
            rw [dictGet_set, if_pos rfl]
            rfl
          · refine Or.inl (e.trans ?_)
            show dictGet (dictSet d name _) f = _
            rw [dictGet_set, if_neg hn]
        · exact Or.inr e
      obtain ⟨cut, ⟨c1, c2⟩ | c⟩ := ih _ d' x hnd.2 h hx
      · exact ⟨cut, Or.inl ⟨c1, fun f hne => key f (c2 f hne)⟩⟩
      · exact ⟨cut, Or.inr fun f => key f (c f)⟩

/-- C85. In what state one stopped call leaves the directory. If the structures have different file names, then beside what the call would have left had it come to its end, every file
is either as it was before the call or complete, except at most one, which holds the beginning of what it would have held. -/
theorem C85_poscar_cut {m : MakeArgs} (hf : m.config = .str "f".toList) {input : Str} {rnd : ReadStruct → ℕ → ℕ → ℝ} {d d' x : Dir} {sys : ReadSystem} {sts : List ReadStruct}
    (hr : MakeReads m input d sys sts) (hnd : (sts.map (fun st => poscarName m.outfile st.strN)).Nodup)
    (h : makeStrDir m input rnd d = (pure d' : Run Dir)) (hx : x ∈ makeStrStops m input rnd d) :
    ∃ cut : Str, (∀ f, f ≠ cut → dictGet x f = dictGet d f ∨ dictGet x f = dictGet d' f) ∧
      (dictGet x cut = dictGet d cut ∨ ∃ t t', dictGet x cut = some t ∧ dictGet d' cut = some t' ∧ t <+: t') := by
  rw [makeStrDir_reads hr] at h
  rcases makeStrStops_reads hr hx with rfl | hx
  · exact ⟨[], fun f _ => Or.inl rfl, Or.inl rfl⟩
  · obtain ⟨cut, ⟨c1, c2⟩ | c⟩ := poscarStops_cut hf sts d d' x hnd h hx
    · exact ⟨cut, c2, Or.inr c1⟩
    · refine ⟨cut, fun f _ => c f, ?_⟩
      rcases c cut with e | e
      · exact Or.inl e
      · cases h0 : dictGet d' cut with
        | none =>
          left
          by_cases hn : ∃ st ∈ sts, poscarName m.outfile st.strN = .ok cut
          · exfalso
            obtain ⟨sys', sts', hr', q1, q0⟩ := C85_poscar_files hf (rnd := rnd) (d := d) (d' := d') (input := input) (by rw [makeStrDir_reads hr]; exact h)
            obtain ⟨rfl, rfl⟩ := makeReads_unique hr hr'
            obtain ⟨st, hst, e1⟩ := hn
            obtain ⟨name, P, q2, -, q3⟩ := q1 st hst
            rw [e1] at q2
            obtain rfl : cut = name := by injection q2
            rw [q3 (fun s' hs' e2 => List.inj_on_of_nodup_map hnd hs' hst (by rw [e1, e2]))] at h0
            simp at h0
          · exact poscarStops_others hf sts d x (fun st hst e1 => hn ⟨st, hst, e1⟩) hx
        | some t => exact Or.inr ⟨t, t, e.trans h0, rfl, List.prefix_refl _⟩

/-! ## config files -/

/-- the names and structures that the loop writes -/
theorem configLoop_from {m : MakeArgs} (hf : m.config = .str "t".toList) {rz : Bool} {sys : ReadSystem} {rnd : ReadStruct → ℕ → ℕ → ℝ} :
    ∀ (sts : List ReadStruct) (d d' : Dir), makeLoop m rz sys rnd sts d = (pure d' : Run Dir) →
      ∃ cs : List ConfigFile, List.Forall₂ (fun st C => makeOne m m.speciesMapping rz sys (rnd st) st = (pure [.config m.outfile C] : Run (List OutFile))) sts cs ∧
        ∀ x : Dir, ∃ x', makeLoop m rz sys rnd sts x = (pure x' : Run Dir) ∧
          (sts ≠ [] → dictGet x' m.outfile = some ((dictGet x m.outfile).getD [] ++
            (List.zipWith (fun st C => configText (configTitle m.species.isSome C.names sys.title st.strN) C) sts cs).flatten)) ∧
          ∀ f, f ≠ m.outfile → dictGet x' f = dictGet x f := by
  intro sts
  induction sts with
  | nil =>
    intro d d' h
    exact ⟨[], List.Forall₂.nil, fun x => ⟨x, rfl, fun hne => absurd rfl hne, fun _ _ => rfl⟩⟩
  | cons st rest ih =>
    intro d d' h
    unfold makeLoop at h
    obtain ⟨outs, h1, h⟩ := run_bind_ok h
    obtain ⟨C, rfl⟩ := makeOne_config hf h1
    obtain ⟨cs, h2, h3⟩ := ih _ d' h
    refine ⟨C :: cs, List.Forall₂.cons h1 h2, fun x => ?_⟩
    obtain ⟨x', h4, h5, h6⟩ := h3 (([OutFile.config m.outfile C].map (textOut m sys st)).foldl writeOut x)
    have hget : dictGet (([OutFile.config m.outfile C].map (textOut m sys st)).foldl writeOut x) m.outfile =
        some ((dictGet x m.outfile).getD [] ++ configText (configTitle m.species.isSome C.names sys.title st.strN) C) := by
      show dictGet (dictSet x m.outfile _) m.outfile = _
      rw [dictGet_set, if_pos rfl]
      rfl
    refine ⟨x', ?_, ?_, ?_⟩
    · show makeLoop m rz sys rnd (st :: rest) x = _
      unfold makeLoop
      rw [h1, pure_bind]
      exact h4
    · intro _
      cases rest with
      | nil =>
        have : x' = ([OutFile.config m.outfile C].map (textOut m sys st)).foldl writeOut x := (run_pure_inj h4).symm
        rw [this, hget]
        simp
      | cons s r =>
        rw [h5 (by simp), hget]
        simp
    · intro f hne
      rw [h6 f hne]
      show dictGet (dictSet x m.outfile _) f = _
      rw [dictGet_set, if_neg (fun e => hne e)]

/-- C85. The config file of makeStr: a call that comes to its end appends one structure for each structure read, in order, to what was in the file, and changes no other file. If the file
held structures written by makeStr, a reader finds these structures followed by the new ones. -/
theorem C85_config_file {m : MakeArgs} (hf : m.config = .str "t".toList) {input : Str} {rnd : ReadStruct → ℕ → ℕ → ℝ} {d d' : Dir}
    (h : makeStrDir m input rnd d = (pure d' : Run Dir)) : ∃ sys sts cs, MakeReads m input d sys sts ∧
      List.Forall₂ (fun st C => makeOne m m.speciesMapping (zerosLeft m) sys (rnd st) st = (pure [.config m.outfile C] : Run (List OutFile))) sts cs ∧
      (sts ≠ [] → dictGet d' m.outfile = some ((dictGet d m.outfile).getD [] ++
        (List.zipWith (fun st C => configText (configTitle m.species.isSome C.names sys.title st.strN) C) sts cs).flatten)) ∧
      (∀ f, f ≠ m.outfile → dictGet d' f = dictGet d f) ∧
      ∀ old : List (Str × ConfigFile), dictGet d m.outfile = some (old.flatMap (fun x => configText x.1 x.2)) → (∀ x ∈ old, '\n' ∉ x.1) →
        ∃ text R, dictGet d' m.outfile = some text ∧ readConfigText text = .ok R ∧
          List.Forall₂ ConfigMatches (old ++ List.zipWith (fun st C => (configTitle m.species.isSome C.names sys.title st.strN, C)) sts cs) R := by
  obtain ⟨sys, sts, hr⟩ := makeStrDir_ok h
  have h' := h
  rw [makeStrDir_reads hr] at h'
  obtain ⟨cs, h1, h2⟩ := configLoop_from hf sts d d' h'
  obtain ⟨x', h3, h4, h5⟩ := h2 d
  obtain rfl : d' = x' := run_pure_inj (h'.symm.trans h3)
  refine ⟨sys, sts, cs, hr, h1, h4, h5, ?_⟩
  intro old hold hnl
  have ht : '\n' ∉ sys.title := makeReads_title hr
  have hw : ∀ C ∈ cs, ∀ e ∈ C.names, IsWord e.toList := by
    intro C hC e he
    obtain ⟨st, -, hst⟩ := forall₂_right h1 C hC
    exact (makeOne_config_names hf hst e he).1
  have key : dictGet d' m.outfile = some ((old ++ List.zipWith (fun st C => (configTitle m.species.isSome C.names sys.title st.strN, C)) sts cs).flatMap (fun x => configText x.1 x.2)) := by
    have hz : ∀ (sts : List ReadStruct) (cs : List ConfigFile),
        (List.zipWith (fun st C => configText (configTitle m.species.isSome C.names sys.title st.strN) C) sts cs).flatten =
          (List.zipWith (fun st C => (configTitle m.species.isSome C.names sys.title st.strN, C)) sts cs).flatMap (fun x => configText x.1 x.2) := by
      intro sts
      induction sts with
      | nil => intro cs; rfl
      | cons s l ih =>
        intro cs
        cases cs with
        | nil => rfl
        | cons C cs => rw [List.zipWith_cons_cons, List.zipWith_cons_cons, List.flatten_cons, List.flatMap_cons, ih]
    cases sts with
    | nil =>
      have : d' = d := (run_pure_inj h').symm
      rw [this, hold]
      simp
    | cons s l =>
      rw [h4 (by simp), hold, hz, List.flatMap_append]
      rfl
  obtain ⟨R, hR1, hR2⟩ := C84_config_text (old ++ List.zipWith (fun st C => (configTitle m.species.isSome C.names sys.title st.strN, C)) sts cs) (by
    intro x hx
    rcases List.mem_append.mp hx with hx | hx
    · exact hnl x hx
    · obtain ⟨i, hi, rfl⟩ := List.mem_iff_getElem.mp hx
      rw [List.getElem_zipWith]
      obtain ⟨p, -, hp⟩ := C84_config_name m.species.isSome _ (hw _ (List.getElem_mem _)) sys.title ht _
      exact hp)
  exact ⟨_, R, key, hR1, hR2⟩

/-- nothing else is changed, and the config file is only extended, wherever the loop is stopped -/
theorem configStops_others {m : MakeArgs} (hf : m.config = .str "t".toList) {rz : Bool} {sys : ReadSystem} {rnd : ReadStruct → ℕ → ℕ → ℝ} :
    ∀ (sts : List ReadStruct) (d x : Dir), x ∈ makeLoopStops m rz sys rnd sts d →
      (∀ f, f ≠ m.outfile → dictGet x f = dictGet d f) ∧ (dictGet d m.outfile).getD [] <+: (dictGet x m.outfile).getD [] := by
  intro sts
  induction sts with
  | nil => intro d x hx; rw [show x = d from hx]; exact ⟨fun _ _ => rfl, List.prefix_refl _⟩
  | cons st rest ih =>
    intro d x hx
    have hset : ∀ p, (∀ f, f ≠ m.outfile → dictGet (dictSet d m.outfile (openedText d m.outfile true ++ p)) f = dictGet d f) ∧
        (dictGet d m.outfile).getD [] <+: (dictGet (dictSet d m.outfile (openedText d m.outfile true ++ p)) m.outfile).getD [] := by
      intro p
      constructor
      · intro f hne
        rw [dictGet_set, if_neg (fun e => hne e)]
      · rw [dictGet_set, if_pos rfl]
        exact ⟨p, rfl⟩
    rcases hx with rfl | ⟨h1, -⟩ | ⟨-, p, rfl, -⟩ | ⟨outs, h1, hx⟩
    · exact ⟨fun _ _ => rfl, List.prefix_refl _⟩
    · rw [hf] at h1
      exact absurd h1 (by decide)
    · exact hset p
    · obtain ⟨C, rfl⟩ := makeOne_config hf h1
      obtain ⟨h2, h3⟩ := ih _ x hx
      obtain ⟨h4, h5⟩ := hset (textOut m sys st (OutFile.config m.outfile C)).text
      exact ⟨fun f hne => (h2 f hne).trans (h4 f hne), h5.trans h3⟩

/-- C85. What a config file is after any number of calls that were stopped or came to their end: no other file is changed, and what the config file held is still at
its beginning. One more call appends the text of all structures after whatever the file holds then: what the earlier calls have written stays. -/
theorem C85_config_stopped {m : MakeArgs} (hf : m.config = .str "t".toList) {input : Str} (hin : input ≠ m.outfile) {d : Dir} {sys : ReadSystem} {sts : List ReadStruct}
    (hr : MakeReads m input d sys sts) (hne : sts ≠ []) {x : Dir} (hx : MakeHistory m input d x) :
    (∀ f, f ≠ m.outfile → dictGet x f = dictGet d f) ∧ (dictGet d m.outfile).getD [] <+: (dictGet x m.outfile).getD [] ∧
    ∀ (rnd : ReadStruct → ℕ → ℕ → ℝ) (d' : Dir), makeStrDir m input rnd d = (pure d' : Run Dir) →
      ∃ x' new, makeStrDir m input rnd x = (pure x' : Run Dir) ∧ dictGet d' m.outfile = some ((dictGet d m.outfile).getD [] ++ new) ∧
        dictGet x' m.outfile = some ((dictGet x m.outfile).getD [] ++ new) := by
  have key : (∀ f, f ≠ m.outfile → dictGet x f = dictGet d f) ∧ (dictGet d m.outfile).getD [] <+: (dictGet x m.outfile).getD [] := by
    induction hx with
    | start => exact ⟨fun _ _ => rfl, List.prefix_refl _⟩
    | run rnd hx hy ih =>
      obtain ⟨h1, h2⟩ := ih
      rcases makeStrStops_reads (makeReads_congr hr (h1 input hin)) hy with rfl | hy
      · exact ⟨h1, h2⟩
      · obtain ⟨h3, h4⟩ := configStops_others hf sts _ _ hy
        exact ⟨fun f hf => (h3 f hf).trans (h1 f hf), h2.trans h4⟩
  refine ⟨key.1, key.2, ?_⟩
  intro rnd d' h
  rw [makeStrDir_reads hr] at h
  obtain ⟨cs, -, h2⟩ := configLoop_from hf sts d d' h
  obtain ⟨y, h3, h4, -⟩ := h2 d
  obtain rfl : d' = y := run_pure_inj (h.symm.trans h3)
  obtain ⟨x', h5, h6, -⟩ := h2 x
  exact ⟨x', _, by rw [makeStrDir_reads (makeReads_congr hr (key.1 input hin))]; exact h5, h4 hne, h6 hne⟩

theorem configText_ne (t : Str) (C : ConfigFile) : configText t C ≠ [] := by
  rw [configText_lines]
  unfold configLines
  simp only [List.cons_append, List.flatMap_cons]
  intro h
  have := (List.append_eq_nil_iff.mp ((List.append_eq_nil_iff.mp h).1)).2
  exact absurd this (by decide)

/-- C85, a defect: calling makeStr for a config file a second time does not replace the file: it then holds every structure twice. -/
theorem C85_config_twice {m : MakeArgs} (hf : m.config = .str "t".toList) {input : Str} (hin : input ≠ m.outfile) {rnd : ReadStruct → ℕ → ℕ → ℝ} {d d' : Dir}
    (hnew : dictGet d m.outfile = none) {sys : ReadSystem} {sts : List ReadStruct} (hr : MakeReads m input d sys sts) (hne : sts ≠ [])
    (h : makeStrDir m input rnd d = (pure d' : Run Dir)) :
    ∃ text d'', dictGet d' m.outfile = some text ∧ text ≠ [] ∧ makeStrDir m input rnd d' = (pure d'' : Run Dir) ∧ dictGet d'' m.outfile = some (text ++ text) := by
  obtain ⟨-, -, h1⟩ := C85_config_stopped hf hin hr hne (MakeHistory.run rnd MakeHistory.start (makeStrDir_final h))
  obtain ⟨x', new, h2, h3, h4⟩ := h1 rnd d' h
  rw [hnew, Option.getD_none, List.nil_append] at h3
  refine ⟨new, x', h3, ?_, h2, by rw [h4, h3]; rfl⟩
  rw [makeStrDir_reads hr] at h
  obtain ⟨cs, h5, h6⟩ := configLoop_from hf sts d d' h
  obtain ⟨y, h7, h8, -⟩ := h6 d
  obtain rfl : d' = y := run_pure_inj (h.symm.trans h7)
  have h9 := h8 hne
  rw [h3, hnew] at h9
  cases h5 with
  | nil => exact absurd rfl hne
  | cons a b =>
    rename_i st C _ _
    rintro rfl
    have h10 := Option.some.inj h9
    rw [List.zipWith_cons_cons, List.flatten_cons] at h10
    have h11 := (List.append_eq_nil_iff.mp ((List.append_eq_nil_iff.mp h10.symm).2)).1
    exact configText_ne _ _ h11

/-! ## makeStr and its files -/

/-- the loop of makeStr ends exactly if the loop on the directory does -/
theorem makeLoop_outs {m : MakeArgs} {rz : Bool} {sys : ReadSystem} {rnd : ReadStruct → ℕ → ℕ → ℝ} : ∀ (sts : List ReadStruct) (d : Dir) (outs : List (List OutFile)),
    sts.mapM (fun st => makeOne m m.speciesMapping rz sys (rnd st) st) = (pure outs : Run _) →
      List.Forall₂ (fun st os => makeOne m m.speciesMapping rz sys (rnd st) st = (pure os : Run (List OutFile))) sts outs ∧
      makeLoop m rz sys rnd sts d = (pure ((List.zipWith (fun st os => os.map (textOut m sys st)) sts outs).flatten.foldl writeOut d) : Run Dir) := by
  intro sts
  induction sts with
  | nil =>
    intro d outs h
    have : outs = [] := (run_pure_inj h).symm
    subst this
    exact ⟨List.Forall₂.nil, rfl⟩
  | cons st rest ih =>
    intro d outs h
    rw [List.mapM_cons] at h
    obtain ⟨os, h1, h⟩ := run_bind_ok h
    obtain ⟨l, h2, h⟩ := run_bind_ok h
    have : outs = os :: l := (run_pure_inj h).symm
    subst this
    obtain ⟨h3, h4⟩ := ih ((os.map (textOut m sys st)).foldl writeOut d) l h2
    refine ⟨List.Forall₂.cons h1 h3, ?_⟩
    unfold makeLoop
    rw [h1, pure_bind, h4]
    rw [List.zipWith_cons_cons, List.flatten_cons, List.foldl_append]

theorem makeStr_ok {m : MakeArgs} {file : Str} {rnd : ReadStruct → ℕ → ℕ → ℝ} {outs : List OutFile} (h : makeStr (some m) file rnd = (pure outs : Run _)) :
    ∃ structures sys sts os, selectStructures m.structures = .ok structures ∧ readEnumOut structures file = .ok (sys, sts) ∧
      sts.mapM (fun st => makeOne m m.speciesMapping (zerosLeft m) sys (rnd st) st) = (pure os : Run _) ∧ outs = os.flatten := by
  unfold makeStr at h
  obtain ⟨s, h1, h⟩ := run_bind_ok h
  obtain ⟨r, h2, h⟩ := run_bind_ok h
  obtain ⟨os, h3, h⟩ := run_bind_ok h
  exact ⟨s, r.1, r.2, os, runPy_eq_pure h1, runPy_eq_pure h2, h3, (run_pure_inj h).symm⟩

/-- the structures read and the POSCARs written belong together -/
theorem written_structures {m : MakeArgs} {input file : Str} {rnd : ReadStruct → ℕ → ℕ → ℝ} {outs : List (Str × Poscar)} (hf : m.config = .str "f".toList)
    (h : makeStr (some m) file rnd = (pure (outs.map (fun o => OutFile.poscar o.1 o.2)) : Run _)) {d : Dir} (hd : dictGet d input = some file) :
    ∃ sys sts os, MakeReads m input d sys sts ∧
      List.Forall₂ (fun st o => makeOne m m.speciesMapping (zerosLeft m) sys (rnd st) st = (pure o : Run (List OutFile))) sts os ∧
      makeStrDir m input rnd d = (pure ((List.zipWith (fun st o => o.map (textOut m sys st)) sts os).flatten.foldl writeOut d) : Run Dir) ∧
      os = outs.map (fun o => [OutFile.poscar o.1 o.2]) ∧ List.Forall₂ (fun st (o : Str × Poscar) => poscarName m.outfile st.strN = .ok o.1) sts outs := by
  obtain ⟨s, sys, sts, os, h1, h2, h3, h4⟩ := makeStr_ok h
  have hr : MakeReads m input d sys sts := ⟨s, file, h1, by unfold readFile; rw [hd], h2⟩
  obtain ⟨h5, h6⟩ := makeLoop_outs sts d os h3
  rw [← makeStrDir_reads hr] at h6
  -- one POSCAR for each structure
  have e12 : os = outs.map (fun o => [OutFile.poscar o.1 o.2]) ∧ List.Forall₂ (fun st (o : Str × Poscar) => poscarName m.outfile st.strN = .ok o.1) sts outs := by
    clear h6 hr h2 h3 hd h
    induction h5 generalizing outs with
    | nil =>
      have : outs = [] := by simpa using h4
      subst this
      exact ⟨rfl, List.Forall₂.nil⟩
    | cons a b ih =>
      rename_i st o _ _
      obtain ⟨name, P, q1, rfl⟩ := makeOne_poscar hf a
      cases outs with
      | nil => simp at h4
      | cons o' outs =>
        rw [List.map_cons, List.flatten_cons, List.cons_append, List.nil_append, List.cons.injEq] at h4
        obtain ⟨i1, i2⟩ := ih h4.2
        have e : o' = (name, P) := by
          have := h4.1
          rw [OutFile.poscar.injEq] at this
          exact Prod.ext this.1 this.2
        subst e
        exact ⟨by rw [i1]; rfl, List.Forall₂.cons q1 i2⟩
  exact ⟨sys, sts, os, hr, h5, h6, e12.1, e12.2⟩

/-- C85. The files of the structures as a reader finds them: if makeStr writes the POSCARs `outs` under different names, then in every directory that has the file
enum.out it read, each of these files holds, after the call, a text from which one reads the numbers of atoms of `P` as they are, its scale to two decimals, its cell and its positions to
eight decimals; no other file is changed. -/
theorem C85_written {m : MakeArgs} {input file : Str} {rnd : ReadStruct → ℕ → ℕ → ℝ} {outs : List (Str × Poscar)} (hf : m.config = .str "f".toList)
    (h : makeStr (some m) file rnd = (pure (outs.map (fun o => OutFile.poscar o.1 o.2)) : Run _)) (hnd : (outs.map (·.1)).Nodup) {d : Dir} (hd : dictGet d input = some file) :
    ∃ d', makeStrDir m input rnd d = (pure d' : Run Dir) ∧ (∀ f, f ∉ outs.map (·.1) → dictGet d' f = dictGet d f) ∧
      ∀ o ∈ outs, ∃ sys N text, dictGet d' o.1 = some text ∧ text = poscarText (poscarTitle m.species.isSome o.2.names sys N) o.2 ∧
        ∃ R, readPoscarText text = .ok R ∧
            pySplit R.title = (if m.species.isSome then o.2.names.map String.toList else []) ++ pySplit sys ++ ["str".toList, "#:".toList, intStr N] ∧ Rounded 2 o.2.scale R.scale ∧
            (∃ a b c, R.cell = [a, b, c] ∧ RoundedVec 8 (o.2.cell 0) a ∧ RoundedVec 8 (o.2.cell 1) b ∧ RoundedVec 8 (o.2.cell 2) c) ∧ R.counts = o.2.counts ∧
            List.Forall₂ (RoundedVec 8) o.2.atoms R.atoms := by
  obtain ⟨sys, sts, os, hr, h5, h6, e1, e2⟩ := written_structures hf h hd
  refine ⟨_, h6, ?_, ?_⟩
  · intro f hfn
    obtain ⟨sys', sts', g1, -, g3⟩ := C85_poscar_files hf h6
    obtain ⟨-, rfl⟩ := makeReads_unique hr g1
    apply g3
    intro st hst hn
    apply hfn
    clear * - e2 hst hn
    induction e2 with
    | nil => simp at hst
    | cons a b ih =>
      rcases List.mem_cons.mp hst with rfl | hst
      · rw [hn] at a
        cases a
        simp
      · exact List.mem_cons_of_mem _ (ih hst)
  · intro o ho
    obtain ⟨sys', sts', g1, g2, -⟩ := C85_poscar_files hf h6
    obtain ⟨rfl, rfl⟩ := makeReads_unique hr g1
    -- the structure of this file
    obtain ⟨st, hst, hst1, hst2, hst3⟩ : ∃ st ∈ sts, poscarName m.outfile st.strN = .ok o.1 ∧
        makeOne m m.speciesMapping (zerosLeft m) sys (rnd st) st = (pure [.poscar o.1 o.2] : Run (List OutFile)) ∧
        ∀ st' ∈ sts, poscarName m.outfile st'.strN = .ok o.1 → st' = st := by
      subst e1
      clear * - e2 h5 ho hnd
      induction e2 with
      | nil => simp at ho
      | cons a b ih =>
        rename_i st o' sts outs
        rw [List.map_cons] at h5
        rw [List.map_cons, List.nodup_cons] at hnd
        cases h5 with
        | cons c dd =>
          rcases List.mem_cons.mp ho with rfl | ho
          · refine ⟨st, List.mem_cons_self, a, c, ?_⟩
            intro st' hst' hn
            rcases List.mem_cons.mp hst' with rfl | hst'
            · rfl
            · exfalso
              apply hnd.1
              clear * - b hst' hn
              induction b with
              | nil => simp at hst'
              | cons a b ih =>
                rcases List.mem_cons.mp hst' with rfl | hst'
                · rw [hn] at a
                  rw [Except.ok.inj a]
                  simp
                · exact List.mem_cons_of_mem _ (ih hst')
          · obtain ⟨s, q1, q2, q3, q4⟩ := ih hnd.2 ho dd
            refine ⟨s, List.mem_cons_of_mem _ q1, q2, q3, ?_⟩
            intro st' hst' hn
            rcases List.mem_cons.mp hst' with rfl | hst'
            · rw [hn] at a
              exfalso
              apply hnd.1
              rw [← Except.ok.inj a]
              exact List.mem_map_of_mem ho
            · exact q4 st' hst' hn
    obtain ⟨name, P, k1, k2, k3⟩ := g2 st hst
    rw [hst1] at k1
    cases k1
    rw [hst2] at k2
    obtain rfl : o.2 = P := by
      have := run_pure_inj k2
      rw [List.cons.injEq, OutFile.poscar.injEq] at this
      exact this.1.2
    refine ⟨sys.title, st.strN, _, k3 hst3, rfl, ?_⟩
    have n1 := makeReads_title hr
    have n2 := makeOne_poscar_names hf hst2
    obtain ⟨t, t1, t2, t3⟩ := C84_poscar_title m.species.isSome o.2.names n2 sys.title n1 st.strN
    rw [t1]
    obtain ⟨R, r1, r2, r3, r4, r5, r6⟩ := C84_poscar_text t t2 o.2
    exact ⟨R, r1, by rw [r2]; exact t3, r3, r4, r5, r6⟩

/-! ## a stopped run leaves a damaged config file -/

/-- the lines of the structures -/
theorem config_lines {m : MakeArgs} (hf : m.config = .str "t".toList) {rz : Bool} {sys : ReadSystem} (ht : '\n' ∉ sys.title) {rnd : ReadStruct → ℕ → ℕ → ℝ}
    {sts : List ReadStruct} {cs : List ConfigFile}
    (h : List.Forall₂ (fun st C => makeOne m m.speciesMapping rz sys (rnd st) st = (pure [.config m.outfile C] : Run (List OutFile))) sts cs) :
    ∃ L : List Str, (List.zipWith (fun st C => configText (configTitle m.species.isSome C.names sys.title st.strN) C) sts cs).flatten = L.flatMap (fun l => l ++ ['\n']) ∧
      ∀ l ∈ L, '\n' ∉ l := by
  induction h with
  | nil => exact ⟨[], rfl, fun l hl => by simp at hl⟩
  | @cons st C sts cs a b ih =>
    obtain ⟨L, g1, g2⟩ := ih
    refine ⟨configLines (configTitle m.species.isSome C.names sys.title st.strN) C ++ ["END_CFG".toList, []] ++ L, ?_, ?_⟩
    · rw [List.zipWith_cons_cons, List.flatten_cons, g1, configText_lines, List.flatMap_append (ys := L)]
    · intro l hl
      rcases List.mem_append.mp hl with hl | hl
      · obtain ⟨p, -, hp⟩ := C84_config_name m.species.isSome C.names (fun e he => (makeOne_config_names hf a e he).1) sys.title ht st.strN
        exact configLines_nonl hp C l hl
      · exact g2 l hl

/-- C85, a defect: the call can be stopped when only the first line of the first structure has been written. The same call made again comes to its end without an error, but
the file cannot be read: the line is still there. -/
theorem C85_config_damaged {m : MakeArgs} (hf : m.config = .str "t".toList) {input : Str} (hin : input ≠ m.outfile) {rnd : ReadStruct → ℕ → ℕ → ℝ} {d d' : Dir}
    (hnew : dictGet d m.outfile = none) {sys : ReadSystem} {sts : List ReadStruct} (hr : MakeReads m input d sys sts) (hne : sts ≠ [])
    (h : makeStrDir m input rnd d = (pure d' : Run Dir)) :
    ∃ x ∈ makeStrStops m input rnd d, ∃ x' text, makeStrDir m input rnd x = (pure x' : Run Dir) ∧ dictGet x' m.outfile = some text ∧
      readConfigText text = .error .valueError := by
  have h' := h
  rw [makeStrDir_reads hr] at h'
  obtain ⟨cs, h5, h6⟩ := configLoop_from hf sts d d' h'
  cases h5 with
  | nil => exact absurd rfl hne
  | cons a b =>
    rename_i st C rest cs
    have hx : dictSet d m.outfile (openedText d m.outfile true ++ ("BEGIN_CFG".toList ++ ['\n'])) ∈ makeStrStops m input rnd d := by
      obtain ⟨s, f, q1, q2, q3⟩ := hr
      refine Or.inr ⟨s, f, _, q1, q2, q3, Or.inr (Or.inr (Or.inl ⟨hf, _, rfl, ?_⟩))⟩
      intro n C' hC
      rw [hC] at a
      have := run_pure_inj a
      rw [List.cons.injEq, OutFile.config.injEq] at this
      obtain ⟨⟨rfl, rfl⟩, -⟩ := this
      show _ <+: configText _ _
      rw [configText_lines]
      unfold configLines
      simp only [List.cons_append, List.flatMap_cons]
      exact List.prefix_append _ _
    obtain ⟨x', h7, h8, -⟩ := h6 (dictSet d m.outfile (openedText d m.outfile true ++ ("BEGIN_CFG".toList ++ ['\n'])))
    have hget : dictGet (dictSet d m.outfile (openedText d m.outfile true ++ ("BEGIN_CFG".toList ++ ['\n']))) input = dictGet d input := by
      rw [dictGet_set, if_neg (fun e => hin e)]
    refine ⟨_, hx, x', _, by rw [makeStrDir_reads (makeReads_congr hr hget)]; exact h7, h8 hne, ?_⟩
    rw [dictGet_set, if_pos rfl]
    unfold openedText
    rw [hnew]
    simp only [if_true, Option.getD_none, Option.getD_some, List.nil_append]
    obtain ⟨L, g1, g2⟩ := config_lines hf (makeReads_title hr) b
    obtain ⟨p, -, hp⟩ := C84_config_name m.species.isSome C.names (fun e he => (makeOne_config_names hf a e he).1) sys.title (makeReads_title hr) st.strN
    have htext : "BEGIN_CFG".toList ++ ['\n'] ++ (List.zipWith (fun st C => configText (configTitle m.species.isSome C.names sys.title st.strN) C) (st :: rest) (C :: cs)).flatten =
        ("BEGIN_CFG".toList :: (configLines (configTitle m.species.isSome C.names sys.title st.strN) C ++ "END_CFG".toList :: [] :: L)).flatMap (fun l => l ++ ['\n']) := by
      rw [List.zipWith_cons_cons, List.flatten_cons, g1, configText_lines, List.flatMap_cons, List.flatMap_append, List.flatMap_append]
      simp only [List.flatMap_cons, List.flatMap_nil, List.append_assoc, List.append_nil]
    rw [htext]
    generalize configTitle m.species.isSome C.names sys.title st.strN = t at hp
    unfold readConfigText
    rw [fileLines_eq]
    · have hb : ∀ l ∈ "BEGIN_CFG".toList :: configLines t C, l ≠ [] ∧ l ≠ "END_CFG".toList := by
        intro l hl
        rcases List.mem_cons.mp hl with rfl | hl
        · exact ⟨by decide, by decide⟩
        · exact configLines_other t C l hl
      have hcut := cutBlocks_block hb ([] :: L) []
      rw [List.cons_append] at hcut
      rw [hcut, List.nil_append, List.mapM_cons]
      have hread : readBlock ("BEGIN_CFG".toList :: configLines t C) = .error .valueError := by
        unfold configLines
        simp only [List.cons_append, List.nil_append]
        rw [readBlock, if_pos]
        exact Or.inr (Or.inl (by decide))
      rw [hread]
      rfl
    · intro l hl
      rcases List.mem_cons.mp hl with rfl | hl
      · decide
      · rcases List.mem_append.mp hl with hl | hl
        · exact configLines_nonl hp C l (List.mem_append.mpr (Or.inl hl))
        · rcases List.mem_cons.mp hl with rfl | hl
          · decide
          · rcases List.mem_cons.mp hl with rfl | hl
            · simp
            · exact g2 l hl

/-- C85. The same for one stopped call: if makeStr writes the POSCARs `outs` under different names, then a call stopped at any moment leaves every file as it was or complete (holding what it
holds after a call that came to its end), except at most one, which holds the beginning of that. -/
theorem C85_written_cut {m : MakeArgs} {input file : Str} {rnd : ReadStruct → ℕ → ℕ → ℝ} {outs : List (Str × Poscar)} (hf : m.config = .str "f".toList)
    (h : makeStr (some m) file rnd = (pure (outs.map (fun o => OutFile.poscar o.1 o.2)) : Run _)) (hnd : (outs.map (·.1)).Nodup) {d : Dir} (hd : dictGet d input = some file) :
    ∃ d', makeStrDir m input rnd d = (pure d' : Run Dir) ∧ ∀ x ∈ makeStrStops m input rnd d,
      ∃ cut : Str, (∀ f, f ≠ cut → dictGet x f = dictGet d f ∨ dictGet x f = dictGet d' f) ∧
        (dictGet x cut = dictGet d cut ∨ ∃ t t', dictGet x cut = some t ∧ dictGet d' cut = some t' ∧ t <+: t') := by
  obtain ⟨sys, sts, os, hr, -, h6, -, e2⟩ := written_structures hf h hd
  refine ⟨_, h6, fun x hx => C85_poscar_cut hf hr ?_ h6 hx⟩
  have : sts.map (fun st => poscarName m.outfile st.strN) = outs.map (fun o => .ok o.1) := by
    clear * - e2
    induction e2 with
    | nil => rfl
    | cons a b ih => rw [List.map_cons, List.map_cons, a, ih]
  rw [this]
  rw [show outs.map (fun o => (Except.ok o.1 : Except PyErr Str)) = (outs.map (·.1)).map Except.ok by rw [List.map_map]; rfl]
  exact hnd.map (fun a b e => by injection e)

end Phenum
