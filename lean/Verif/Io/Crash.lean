/- Property C232: a process that dies while a file is being saved. -/
import Verif.Io.Props

namespace Verif.Io
open Verif Verif.Xrf

/-! ### the steps of a save -/

/-- What a save does to the file system, one system call at a time: `os.remove`, `open(path, "w")` (an empty file), `f.write`. -/
inductive Step
  | remove (path : Text)
  | create (path : Text)
  | write (path text : Text)

/-- Effect of one step. -/
def Step.run : Step → Fs → Fs
  | .remove p, fs => fun q => if q = p then none else fs q
  | .create p, fs => fun q => if q = p then some [] else fs q
  | .write p t, fs => fun q => if q = p then (fs q).map (· ++ t) else fs q

/-- Effect of steps in order. -/
def runSteps (steps : List Step) (fs : Fs) : Fs := steps.foldl (fun fs s => s.run fs) fs

/-- The steps of `_create_file_path`; save_powder_output.py 299-310: an existing file is removed. -/
def pathSteps (join : Text → Text → Text) (existsDir : Text → Bool) (fs : Fs) (dir : Option Text) (name ext : Text) : Py Text × List Step :=
  let path : Py Text := match dir with
    | none => .ok (name ++ ext)
    | some d => if existsDir d then .ok (join d name ++ ext) else .error .valueError
  match path with
  | .error e => (.error e, [])
  | .ok p => (.ok p, if (fs p).isSome then [.remove p] else [])

/-- The steps of `gsas_writer`; save_powder_output.py 137-242: the whole text is written with one `write`. -/
def gsasSteps (g : ℚ → Text) (join : Text → Text → Text) (existsDir : Text → Bool) (fs : Fs) (tth intensity : List ℚ) (name : Text) (mode : Option String)
    (err : Option (List ℚ)) (dir : Option Text) : Py Unit × List Step :=
  match validateInput tth intensity err ".gsas".toList with
  | .error e => (.error e, [])
  | .ok _ => match pathSteps join existsDir fs dir name ".gsas".toList with
    | (.error e, st) => (.error e, st)
    | (.ok path, st) => match gsasLines g name tth intensity mode err with
      | .error e => (.error e, st)
      | .ok lines => (.ok (), st ++ [.create path, .write path (joinCrLf lines)])

/-- The steps of `save_output`; save_powder_output.py 52-119: header and line break by `_encoding_writer`, then
`np.savetxt` writes row by row. -/
def saveSteps (fmt : ℚ → Text) (join : Text → Text → Text) (existsDir : Text → Bool) (fs : Fs) (tth intensity : List ℚ) (name : Text) (qOr2theta : String) (ext : Text)
    (err : Option (List ℚ)) (dir : Option Text) : Py Unit × List Step :=
  if qOr2theta ≠ "Q" ∧ qOr2theta ≠ "2theta" then (.error .valueError, [])
  else match validateInput tth intensity err ext with
  | .error e => (.error e, [])
  | .ok _ => match pathSteps join existsDir fs dir name ext with
    | (.error e, st) => (.error e, st)
    | (.ok path, st) =>
      let rows : List (List ℚ) := match err with
        | none => (tth.zip intensity).map (fun p => [p.1, p.2])
        | some e => (tth.zip (intensity.zip e)).map (fun p => [p.1, p.2.1, p.2.2])
      (.ok (), st ++ [.create path, .write path (saveHeader name (qOr2theta = "Q") tth.length).dropLast, .write path ['\n']] ++
        rows.map (fun r => .write path (List.intercalate [' '] (r.map fmt) ++ ['\n'])))

/-- The file system as a dying process may leave it: the first steps were done, and of the next `write` a beginning
reached the file.  (Text still in a buffer of the process is lost: the file then is as at an earlier step.) -/
def Spec.Crash (steps : List Step) (fs fs' : Fs) : Prop :=
  ∃ done rest, steps = done ++ rest ∧
    (fs' = runSteps done fs ∨ ∃ p t t' rest', rest = .write p t :: rest' ∧ t' <+: t ∧ fs' = (Step.write p t').run (runSteps done fs))

/-! ### the steps do what the calls do -/

theorem runSteps_append (a b : List Step) (fs : Fs) : runSteps (a ++ b) fs = runSteps b (runSteps a fs) := by
  unfold runSteps; rw [List.foldl_append]

theorem pathSteps_run (join : Text → Text → Text) (existsDir : Text → Bool) (fs : Fs) (dir : Option Text) (name ext : Text) :
    (createFilePath join existsDir fs dir name ext) = ((pathSteps join existsDir fs dir name ext).1, runSteps (pathSteps join existsDir fs dir name ext).2 fs) := by
  have key : ∀ p : Text, (fun q => if q = p then none else fs q) = runSteps (if (fs p).isSome then [.remove p] else []) fs := by
    intro p
    by_cases h : (fs p).isSome
    · rw [if_pos h]; rfl
    · rw [if_neg h]
      funext q
      show (if q = p then none else fs q) = fs q
      split_ifs with hq
      · subst hq
        cases hf : fs q with
        | none => rfl
        | some t => rw [hf] at h; exact absurd rfl h
      · rfl
  unfold createFilePath pathSteps
  cases dir with
  | none => simp only [key]
  | some d =>
    by_cases hd : existsDir d
    · simp only [if_pos hd, key]
    · simp only [if_neg hd]; rfl

/-- Steps that only add to one file. -/
theorem run_writes (p : Text) (l : List Text) (fs : Fs) (old : Text) (h : fs p = some old) :
    runSteps (l.map (Step.write p)) fs = fun q => if q = p then some (old ++ l.flatten) else fs q := by
  induction l generalizing fs old with
  | nil =>
    funext q
    show fs q = _
    split_ifs with hq
    · rw [hq, h]; simp
    · rfl
  | cons t l ih =>
    rw [List.map_cons]
    show runSteps (l.map (Step.write p)) ((Step.write p t).run fs) = _
    rw [ih _ (old ++ t) (by simp [Step.run, h])]
    funext q
    simp only [Step.run]
    split_ifs with hq
    · simp
    · rfl

theorem saveHeader_split (name : Text) (isQ : Bool) (n : ℕ) : (saveHeader name isQ n).dropLast ++ ['\n'] = saveHeader name isQ n := by
  unfold saveHeader
  simp only
  rw [List.dropLast_concat]

/-- The steps lead to the outcome and the files of the calls. -/
theorem gsasSteps_run (g : ℚ → Text) (join : Text → Text → Text) (existsDir : Text → Bool) (fs : Fs) (tth intensity : List ℚ) (name : Text) (mode : Option String)
    (err : Option (List ℚ)) (dir : Option Text) :
    gsasWriter g join existsDir fs tth intensity name mode err dir =
      ((gsasSteps g join existsDir fs tth intensity name mode err dir).1, runSteps (gsasSteps g join existsDir fs tth intensity name mode err dir).2 fs) := by
  unfold gsasWriter gsasSteps
  rw [pathSteps_run]
  cases validateInput tth intensity err ".gsas".toList with
  | error e => rfl
  | ok u =>
    simp only
    generalize pathSteps join existsDir fs dir name ".gsas".toList = ps
    obtain ⟨r, st⟩ := ps
    cases r with
    | error e => rfl
    | ok path =>
      simp only
      cases gsasLines g name tth intensity mode err with
      | error e => rfl
      | ok lines =>
        simp only
        rw [runSteps_append]
        congr 1
        funext q
        simp only [runSteps, List.foldl_cons, List.foldl_nil, Step.run]
        split_ifs with hq <;> simp

theorem saveSteps_run (fmt : ℚ → Text) (join : Text → Text → Text) (existsDir : Text → Bool) (fs : Fs) (tth intensity : List ℚ) (name : Text) (qOr2theta : String) (ext : Text)
    (err : Option (List ℚ)) (dir : Option Text) :
    saveOutput fmt join existsDir fs tth intensity name qOr2theta ext err dir =
      ((saveSteps fmt join existsDir fs tth intensity name qOr2theta ext err dir).1, runSteps (saveSteps fmt join existsDir fs tth intensity name qOr2theta ext err dir).2 fs) := by
  unfold saveOutput saveSteps
  rw [pathSteps_run]
  by_cases hq : qOr2theta ≠ "Q" ∧ qOr2theta ≠ "2theta"
  · rw [if_pos hq, if_pos hq]; rfl
  · rw [if_neg hq, if_neg hq]
    cases validateInput tth intensity err ext with
    | error e => rfl
    | ok u =>
      simp only
      generalize pathSteps join existsDir fs dir name ext = ps
      obtain ⟨r, st⟩ := ps
      cases r with
      | error e => rfl
      | ok path =>
        simp only
        have e1 : ∀ rows : List (List ℚ), [Step.create path, .write path (saveHeader name (qOr2theta = "Q") tth.length).dropLast, .write path ['\n']] ++
            rows.map (fun r => Step.write path (List.intercalate [' '] (r.map fmt) ++ ['\n'])) =
            [Step.create path] ++ (((saveHeader name (qOr2theta = "Q") tth.length).dropLast :: ['\n'] :: rows.map (fun r => List.intercalate [' '] (r.map fmt) ++ ['\n'])).map (Step.write path)) := by
          intro rows; simp
        rw [List.append_assoc, e1, runSteps_append, runSteps_append, run_writes path _ _ [] (by simp [runSteps, Step.run])]
        congr 1
        funext q
        simp only [runSteps, List.foldl_cons, List.foldl_nil, Step.run]
        split_ifs with hq
        · rw [List.nil_append, List.flatten_cons, List.flatten_cons, ← List.append_assoc, saveHeader_split]
          unfold saveRows
          rw [List.flatMap_def]
          cases err <;> rfl
        · rfl

/-! ### the states in between -/

/-- Everything a run can touch: removal and creation of one file and additions to it. -/
theorem crash_states (p : Text) (fs fs' : Fs) (pre : List Step) (l : List Text) (hpre : pre = [] ∨ pre = [.remove p])
    (h : Spec.Crash (pre ++ .create p :: l.map (Step.write p)) fs fs') :
    (∀ q, q ≠ p → fs' q = fs q) ∧ (fs' p = fs p ∨ fs' p = none ∨ ∃ t, fs' p = some t ∧ t <+: l.flatten) := by
  have base : ∀ fs1 : Fs, (∀ q, q ≠ p → fs1 q = fs q) → ∀ l1 l2 t', l = l1 ++ l2 → (t' = [] ∨ ∃ t l3, l2 = t :: l3 ∧ t' <+: t) →
      (∀ q, q ≠ p → (Step.write p t').run (runSteps (.create p :: l1.map (Step.write p)) fs1) q = fs q) ∧
      ∃ t, (Step.write p t').run (runSteps (.create p :: l1.map (Step.write p)) fs1) p = some t ∧ t <+: l.flatten := by
    intro fs1 h1 l1 l2 t' hl ht
    have hr : runSteps (.create p :: l1.map (Step.write p)) fs1 = fun q => if q = p then some ([] ++ l1.flatten) else (Step.create p).run fs1 q := by
      show runSteps (l1.map (Step.write p)) ((Step.create p).run fs1) = _
      rw [run_writes p l1 _ [] (by simp [Step.run])]
    rw [hr]
    refine ⟨fun q hq => by simp only [Step.run, if_neg hq, h1 q hq], l1.flatten ++ t', by simp [Step.run], ?_⟩
    rw [hl, List.flatten_append]
    apply (List.prefix_append_right_inj _).2
    rcases ht with rfl | ⟨t, l3, rfl, ht⟩
    · exact List.nil_prefix
    · rw [List.flatten_cons]; exact ht.trans (List.prefix_append _ _)
  have noop : ∀ fs1 : Fs, (Step.write p []).run fs1 = fs1 := by
    intro fs1
    funext q
    simp only [Step.run]
    split_ifs with hq
    · cases fs1 q <;> simp
    · rfl
  obtain ⟨done, rest, hs, hc⟩ := h
  -- where `done` ends
  have hcase : done = [] ∨ done = pre ∨ ∃ l1 l2, l = l1 ++ l2 ∧ done = pre ++ .create p :: l1.map (Step.write p) ∧ rest = l2.map (Step.write p) := by
    rcases List.append_eq_append_iff.1 hs with ⟨a, ha, hb⟩ | ⟨a, ha, hb⟩
    · cases a with
      | nil => right; left; simpa using ha
      | cons x a =>
        rw [List.cons_append] at hb
        injection hb with hx hb
        right; right
        subst hx
        obtain ⟨l1, l2, h1, h2, h3⟩ := List.map_eq_append_iff.1 hb
        exact ⟨l1, l2, h1, by rw [ha, h2], h3.symm⟩
    · rcases hpre with rfl | rfl
      · left
        have := congrArg List.length ha
        simp at this
        exact List.eq_nil_of_length_eq_zero (by omega)
      · cases done with
        | nil => left; rfl
        | cons x d =>
          right; left
          have := congrArg List.length ha
          rw [List.cons_append] at ha
          injection ha with h1 h2
          have : d = [] := (List.append_eq_nil_iff.1 h2.symm).1
          rw [this, h1]
  have hrem : (∀ q, q ≠ p → runSteps pre fs q = fs q) ∧ (runSteps pre fs p = fs p ∨ runSteps pre fs p = none) := by
    rcases hpre with rfl | rfl
    · exact ⟨fun q _ => rfl, Or.inl rfl⟩
    · exact ⟨fun q hq => by simp [runSteps, Step.run, hq], Or.inr (by simp [runSteps, Step.run])⟩
  rcases hcase with rfl | rfl | ⟨l1, l2, hl, rfl, hrest⟩
  · rcases hc with rfl | ⟨p', t, t', rest', hr, ht, rfl⟩
    · exact ⟨fun q _ => rfl, Or.inl rfl⟩
    · exfalso
      rw [List.nil_append, hr] at hs
      rcases hpre with rfl | rfl <;> simp at hs
  · rcases hc with rfl | ⟨p', t, t', rest', hr, ht, rfl⟩
    · exact ⟨hrem.1, hrem.2.elim Or.inl (fun h => Or.inr (Or.inl h))⟩
    · exfalso
      have := List.append_cancel_left hs
      rw [hr] at this
      injection this with h1 h2
      cases h1
  · rw [runSteps_append] at hc
    rcases hc with rfl | ⟨p', t, t', rest', hr, ht, rfl⟩
    · have := base _ hrem.1 l1 l2 [] hl (Or.inl rfl)
      rw [noop] at this
      exact ⟨this.1, Or.inr (Or.inr this.2)⟩
    · rw [hrest] at hr
      cases l2 with
      | nil => cases hr
      | cons t2 l3 =>
        rw [List.map_cons] at hr
        injection hr with h1 h2
        injection h1 with h1 h3
        subst h1 h3
        have := base _ hrem.1 l1 (t2 :: l3) t' hl (Or.inr ⟨t2, l3, rfl, ht⟩)
        exact ⟨this.1, Or.inr (Or.inr this.2)⟩

/-- The file a call writes to. -/
def Spec.target (join : Text → Text → Text) (dir : Option Text) (name ext : Text) : Text :=
  match dir with
  | none => name ++ ext
  | some d => join d name ++ ext

theorem pathSteps_spec (join : Text → Text → Text) (existsDir : Text → Bool) (fs : Fs) (dir : Option Text) (name ext : Text) (path : Text) (st : List Step)
    (h : pathSteps join existsDir fs dir name ext = (.ok path, st)) :
    path = Spec.target join dir name ext ∧ st = (if (fs path).isSome then [.remove path] else []) := by
  unfold pathSteps at h
  unfold Spec.target
  cases dir with
  | none =>
    simp only at h
    injection h with h1 h2
    injection h1 with h1
    subst h1
    exact ⟨rfl, h2.symm⟩
  | some d =>
    simp only at h
    by_cases hd : existsDir d
    · simp only [if_pos hd] at h
      injection h with h1 h2
      injection h1 with h1
      subst h1
      exact ⟨rfl, h2.symm⟩
    · simp only [if_neg hd] at h
      injection h with h1 h2
      cases h1

theorem crash_nil (fs fs' : Fs) (h : Spec.Crash [] fs fs') : fs' = fs := by
  obtain ⟨done, rest, hs, hc⟩ := h
  obtain ⟨rfl, rfl⟩ := List.append_eq_nil_iff.1 hs.symm
  rcases hc with rfl | ⟨_, _, _, _, hr, _⟩
  · rfl
  · cases hr

theorem crash_remove (p : Text) (fs fs' : Fs) (h : Spec.Crash [.remove p] fs fs') : (∀ q, q ≠ p → fs' q = fs q) ∧ (fs' p = fs p ∨ fs' p = none) := by
  obtain ⟨done, rest, hs, hc⟩ := h
  cases done with
  | nil =>
    rw [List.nil_append] at hs
    subst hs
    rcases hc with rfl | ⟨_, _, _, _, hr, _⟩
    · exact ⟨fun q _ => rfl, Or.inl rfl⟩
    · injection hr with hr _; cases hr
  | cons x d =>
    rw [List.cons_append] at hs
    injection hs with h1 h2
    obtain ⟨rfl, rfl⟩ := List.append_eq_nil_iff.1 h2.symm
    subst h1
    rcases hc with rfl | ⟨_, _, _, _, hr, _⟩
    · exact ⟨fun q hq => by simp [runSteps, Step.run, hq], Or.inr (by simp [runSteps, Step.run])⟩
    · cases hr

theorem pathSteps_error (join : Text → Text → Text) (existsDir : Text → Bool) (fs : Fs) (dir : Option Text) (name ext : Text) (e : PyErr) (st : List Step)
    (h : pathSteps join existsDir fs dir name ext = (.error e, st)) : st = [] := by
  unfold pathSteps at h
  cases dir with
  | none =>
    simp only at h
    injection h with h1 h2
    cases h1
  | some d =>
    simp only at h
    by_cases hd : existsDir d
    · simp only [if_pos hd] at h
      injection h with h1 h2
      cases h1
    · simp only [if_neg hd] at h
      injection h with h1 h2
      exact h2.symm

theorem removeSteps (fs : Fs) (p : Text) : (if (fs p).isSome then [Step.remove p] else []) = [] ∨ (if (fs p).isSome then [Step.remove p] else []) = [.remove p] := by
  split_ifs
  · exact Or.inr rfl
  · exact Or.inl rfl

/-! ## C232 -/

/-- When the process lives on, the steps lead to what `gsas_writer` and `save_output` leave behind: the same outcome and the same files. -/
theorem C232_finished (g : ℚ → Text) (join : Text → Text → Text) (existsDir : Text → Bool) (fs : Fs) (tth intensity : List ℚ) (name : Text) (mode : Option String)
    (qOr2theta : String) (ext : Text) (err : Option (List ℚ)) (dir : Option Text) :
    gsasWriter g join existsDir fs tth intensity name mode err dir =
      ((gsasSteps g join existsDir fs tth intensity name mode err dir).1, runSteps (gsasSteps g join existsDir fs tth intensity name mode err dir).2 fs) ∧
    saveOutput g join existsDir fs tth intensity name qOr2theta ext err dir =
      ((saveSteps g join existsDir fs tth intensity name qOr2theta ext err dir).1, runSteps (saveSteps g join existsDir fs tth intensity name qOr2theta ext err dir).2 fs) :=
  ⟨gsasSteps_run .., saveSteps_run ..⟩

/-- Wherever a process dies inside `gsas_writer`, all files but the one written to are untouched; that one is as before the call,
or absent, or a beginning of the new text. -/
theorem C232_gsas_partial (g : ℚ → Text) (join : Text → Text → Text) (existsDir : Text → Bool) (fs fs' : Fs) (tth intensity : List ℚ) (name : Text) (mode : Option String)
    (err : Option (List ℚ)) (dir : Option Text) (h : Spec.Crash (gsasSteps g join existsDir fs tth intensity name mode err dir).2 fs fs') :
    (∀ q, q ≠ Spec.target join dir name ".gsas".toList → fs' q = fs q) ∧
      (fs' (Spec.target join dir name ".gsas".toList) = fs (Spec.target join dir name ".gsas".toList) ∨ fs' (Spec.target join dir name ".gsas".toList) = none ∨
        ∃ part text, fs' (Spec.target join dir name ".gsas".toList) = some part ∧
          (gsasWriter g join existsDir fs tth intensity name mode err dir).2 (Spec.target join dir name ".gsas".toList) = some text ∧ part <+: text) := by
  have hall : ∀ (b : Prop) (fs'' : Fs), fs'' = fs → (∀ q, q ≠ Spec.target join dir name ".gsas".toList → fs'' q = fs q) ∧ (fs'' (Spec.target join dir name ".gsas".toList) = fs (Spec.target join dir name ".gsas".toList) ∨ b) :=
    fun _ fs'' h => ⟨fun q _ => by rw [h], Or.inl (by rw [h])⟩
  rw [gsasSteps_run]
  unfold gsasSteps at h ⊢
  cases hv : validateInput tth intensity err ".gsas".toList with
  | error e =>
    rw [hv] at h
    exact hall _ _ (crash_nil _ _ h)
  | ok u =>
    rw [hv] at h
    simp only at h ⊢
    cases hp : pathSteps join existsDir fs dir name ".gsas".toList with
    | mk r st =>
      rw [hp] at h
      cases r with
      | error e =>
        simp only at h
        rw [pathSteps_error _ _ _ _ _ _ _ _ hp] at h
        exact hall _ _ (crash_nil _ _ h)
      | ok path =>
        obtain ⟨h1, h2⟩ := pathSteps_spec _ _ _ _ _ _ _ _ hp
        subst h1
        simp only at h ⊢
        cases hl : gsasLines g name tth intensity mode err with
        | error e =>
          rw [hl] at h
          simp only at h
          rw [h2] at h
          rcases removeSteps fs (Spec.target join dir name ".gsas".toList) with h3 | h3
          · rw [h3] at h
            exact hall _ _ (crash_nil _ _ h)
          · rw [h3] at h
            obtain ⟨a, b⟩ := crash_remove _ _ _ h
            exact ⟨a, b.elim Or.inl (fun b => Or.inr (Or.inl b))⟩
        | ok lines =>
          rw [hl] at h
          simp only at h ⊢
          rw [h2] at h
          obtain ⟨a, b⟩ := crash_states _ fs fs' _ [joinCrLf lines] (removeSteps fs _) h
          refine ⟨a, b.imp_right (Or.imp_right ?_)⟩
          rintro ⟨t, ht, hpre⟩
          refine ⟨t, joinCrLf lines, ht, ?_, by simpa using hpre⟩
          rw [runSteps_append]
          simp [runSteps, Step.run]

/-- The same of `save_output`. -/
theorem C232_save_output_partial (fmt : ℚ → Text) (join : Text → Text → Text) (existsDir : Text → Bool) (fs fs' : Fs) (tth intensity : List ℚ) (name : Text) (qOr2theta : String) (ext : Text)
    (err : Option (List ℚ)) (dir : Option Text) (h : Spec.Crash (saveSteps fmt join existsDir fs tth intensity name qOr2theta ext err dir).2 fs fs') :
    (∀ q, q ≠ Spec.target join dir name ext → fs' q = fs q) ∧
      (fs' (Spec.target join dir name ext) = fs (Spec.target join dir name ext) ∨ fs' (Spec.target join dir name ext) = none ∨
        ∃ part text, fs' (Spec.target join dir name ext) = some part ∧
          (saveOutput fmt join existsDir fs tth intensity name qOr2theta ext err dir).2 (Spec.target join dir name ext) = some text ∧ part <+: text) := by
  have hall : ∀ (b : Prop) (fs'' : Fs), fs'' = fs → (∀ q, q ≠ Spec.target join dir name ext → fs'' q = fs q) ∧ (fs'' (Spec.target join dir name ext) = fs (Spec.target join dir name ext) ∨ b) :=
    fun _ fs'' h => ⟨fun q _ => by rw [h], Or.inl (by rw [h])⟩
  rw [saveSteps_run]
  unfold saveSteps at h ⊢
  by_cases hq : qOr2theta ≠ "Q" ∧ qOr2theta ≠ "2theta"
  · rw [if_pos hq] at h
    exact hall _ _ (crash_nil _ _ h)
  rw [if_neg hq] at h ⊢
  cases hv : validateInput tth intensity err ext with
  | error e =>
    rw [hv] at h
    exact hall _ _ (crash_nil _ _ h)
  | ok u =>
    rw [hv] at h
    simp only at h ⊢
    cases hp : pathSteps join existsDir fs dir name ext with
    | mk r st =>
      rw [hp] at h
      cases r with
      | error e =>
        simp only at h
        rw [pathSteps_error _ _ _ _ _ _ _ _ hp] at h
        exact hall _ _ (crash_nil _ _ h)
      | ok path =>
        obtain ⟨h1, h2⟩ := pathSteps_spec _ _ _ _ _ _ _ _ hp
        subst h1
        simp only at h ⊢
        set path := Spec.target join dir name ext
        have e1 : ∀ rows : List (List ℚ), [Step.create path, .write path (saveHeader name (qOr2theta = "Q") tth.length).dropLast, .write path ['\n']] ++
            rows.map (fun r => Step.write path (List.intercalate [' '] (r.map fmt) ++ ['\n'])) =
            Step.create path :: (((saveHeader name (qOr2theta = "Q") tth.length).dropLast :: ['\n'] :: rows.map (fun r => List.intercalate [' '] (r.map fmt) ++ ['\n'])).map (Step.write path)) := by
          intro rows; simp
        rw [List.append_assoc, e1] at h ⊢
        have h3 := crash_states path fs fs' st _ (by rw [h2]; exact removeSteps fs _) h
        obtain ⟨a, b⟩ := h3
        refine ⟨a, b.imp_right (Or.imp_right ?_)⟩
        rintro ⟨t, ht, hpre⟩
        refine ⟨t, _, ht, ?_, hpre⟩
        rw [runSteps_append]
        show runSteps (List.map _ _) ((Step.create path).run _) path = _
        rw [run_writes path _ _ [] (by simp [Step.run])]
        simp

/-- The old file is not kept until the new one is there: for every call of `gsas_writer` that would succeed and replace a file,
there is a moment at which a dying process leaves no file at all, and one at which it leaves an empty one. -/
theorem C232_old_or_new_refuted (g : ℚ → Text) (join : Text → Text → Text) (existsDir : Text → Bool) (fs : Fs) (tth intensity : List ℚ) (name : Text) (mode : Option String)
    (err : Option (List ℚ)) (dir : Option Text) (old : Text) (hold : fs (Spec.target join dir name ".gsas".toList) = some old)
    (hok : (gsasWriter g join existsDir fs tth intensity name mode err dir).1 = .ok ()) :
    (∃ fs', Spec.Crash (gsasSteps g join existsDir fs tth intensity name mode err dir).2 fs fs' ∧ fs' (Spec.target join dir name ".gsas".toList) = none) ∧
    (∃ fs', Spec.Crash (gsasSteps g join existsDir fs tth intensity name mode err dir).2 fs fs' ∧ fs' (Spec.target join dir name ".gsas".toList) = some []) := by
  rw [gsasSteps_run] at hok
  unfold gsasSteps at hok ⊢
  cases hv : validateInput tth intensity err ".gsas".toList with
  | error e => rw [hv] at hok; cases hok
  | ok u =>
    rw [hv] at hok
    simp only at hok ⊢
    cases hp : pathSteps join existsDir fs dir name ".gsas".toList with
    | mk r st =>
      rw [hp] at hok
      cases r with
      | error e => cases hok
      | ok path =>
        obtain ⟨h1, h2⟩ := pathSteps_spec _ _ _ _ _ _ _ _ hp
        subst h1
        simp only at hok ⊢
        cases hl : gsasLines g name tth intensity mode err with
        | error e => rw [hl] at hok; cases hok
        | ok lines =>
          simp only
          rw [hold, Option.isSome_some, if_pos rfl] at h2
          subst h2
          refine ⟨⟨_, ⟨[.remove _], _, rfl, Or.inl rfl⟩, by simp [runSteps, Step.run]⟩, ⟨_, ⟨[.remove _, .create _], _, rfl, Or.inl rfl⟩, by simp [runSteps, Step.run]⟩⟩

end Verif.Io
