/-
What `gsas_reader` (skbeam/io/gsas_file_reader.py 54-240) makes of a file that `gsas_writer` did not finish (Verif/Io/Crash.lean),
for the three formats: property C232.
-/
import Verif.Io.Crash

namespace Verif.Io
open Verif Verif.Xrf

theorem prefix_split {α : Type} (p a b : List α) (h : p <+: a ++ b) : p <+: a ∨ ∃ q, p = a ++ q ∧ q <+: b := by
  obtain ⟨t, ht⟩ := h
  rcases List.append_eq_append_iff.1 ht with ⟨c, h1, h2⟩ | ⟨c, h1, h2⟩
  · exact Or.inl ⟨c, h1.symm⟩
  · exact Or.inr ⟨c, h1, t, h2.symm⟩

theorem readLinesAux_rest (cur l : Text) (h : ∀ c ∈ l, c ≠ '\r' ∧ c ≠ '\n') : readLinesAux cur l = if cur ++ l = [] then [] else [cur ++ l] := by
  induction l generalizing cur with
  | nil => simp [readLinesAux]
  | cons c l ih =>
    obtain ⟨h1, h2⟩ := h c (by simp)
    rw [readLinesAux]
    · rw [if_neg (by simp [h1, h2]), ih _ (fun c' h' => h c' (by simp [h']))]
      simp
    · intro t' h' 
      exact absurd h' h1

theorem readLinesAux_cr (cur l : Text) (h : ∀ c ∈ l, c ≠ '\r' ∧ c ≠ '\n') : readLinesAux cur (l ++ ['\r']) = [cur ++ l ++ ['\n']] := by
  induction l generalizing cur with
  | nil =>
    rw [List.nil_append, readLinesAux]
    · simp [readLinesAux]
    · intro t h; simp
  | cons c l ih =>
    obtain ⟨h1, h2⟩ := h c (by simp)
    rw [List.cons_append, readLinesAux]
    · rw [if_neg (by simp [h1, h2]), ih _ (fun c' h' => h c' (by simp [h']))]
      simp
    · intro t' h' 
      exact absurd h' h1

/-- The lines of a text with Windows line ends, as one text. -/
def crlf (lines : List Text) : Text := lines.flatMap (· ++ ['\r', '\n'])

theorem joinCrLf_crlf (lines : List Text) (h : lines ≠ []) : joinCrLf lines = crlf lines := by
  induction lines with
  | nil => exact absurd rfl h
  | cons l ls ih =>
    by_cases hls : ls = []
    · subst hls; simp [joinCrLf, crlf, List.intercalate]
    · rw [joinCrLf_cons l ls hls, ih hls]; simp [crlf]

/-- A beginning of a text: whole lines, then perhaps a beginning of the next one. -/
theorem readLines_cut (lines : List Text) (h : ∀ l ∈ lines, ∀ c ∈ l, c ≠ '\r' ∧ c ≠ '\n') (p : Text) (hp : p <+: crlf lines) :
    ∃ (m : ℕ) (r : Text), m ≤ lines.length ∧ readLines p = (lines.take m).map (· ++ ['\n']) ++ (if r = [] then [] else [r]) ∧
      (r ≠ [] → ∃ l, lines[m]? = some l ∧ r <+: l) ∧ p.length ≤ (crlf (lines.take m)).length + r.length := by
  induction lines generalizing p with
  | nil =>
    have : p = [] := by simpa [crlf] using hp
    subst this
    exact ⟨0, [], le_rfl, by simp [readLines, readLinesAux], fun h => absurd rfl h, by simp⟩
  | cons l ls ih =>
    have hl := h l (by simp)
    have e : crlf (l :: ls) = l ++ ('\r' :: '\n' :: crlf ls) := by simp [crlf]
    rw [e] at hp
    rcases prefix_split _ _ _ hp with hp | ⟨q, rfl, hq⟩
    · refine ⟨0, p, Nat.zero_le _, ?_, fun _ => ⟨l, rfl, hp⟩, by simp [crlf]⟩
      unfold readLines
      rw [readLinesAux_rest [] p (fun c hc => hl c (hp.subset hc))]
      simp
    · cases q with
      | nil =>
        refine ⟨0, l, Nat.zero_le _, ?_, fun _ => ⟨l, rfl, List.prefix_refl _⟩, by simp⟩
        unfold readLines
        rw [List.append_nil, readLinesAux_rest [] l hl]
        simp
      | cons c q =>
        obtain ⟨rfl, hq1⟩ := List.cons_prefix_cons.1 hq
        cases q with
        | nil =>
          refine ⟨1, [], by simp, ?_, fun h => absurd rfl h, by simp [crlf]⟩
          unfold readLines
          rw [readLinesAux_cr [] l hl]
          simp
        | cons c q =>
          obtain ⟨rfl, hq2⟩ := List.cons_prefix_cons.1 hq1
          obtain ⟨m, r, h1, h2, h3, h4⟩ := ih (fun l' h' => h l' (by simp [h'])) q hq2
          refine ⟨m + 1, r, by simpa using h1, ?_, by simpa using h3, ?_⟩
          · unfold readLines at h2 ⊢
            rw [readLinesAux_line [] l q hl, h2]
            simp
          · simp only [List.take_succ_cons]
            have e2 : crlf (l :: ls.take m) = l ++ ('\r' :: '\n' :: crlf (ls.take m)) := by simp [crlf]
            rw [e2]
            simp only [List.length_append, List.length_cons]
            omega

theorem mapPy_append {α β : Type} (f : α → Py β) (a b : List α) :
    mapPy f (a ++ b) = match mapPy f a with
      | .error e => .error e
      | .ok x => match mapPy f b with
        | .error e => .error e
        | .ok y => .ok (x ++ y) := by
  induction a with
  | nil =>
    rw [List.nil_append, mapPy]
    simp only
    cases mapPy f b <;> rfl
  | cons a t ih =>
    rw [List.cons_append, mapPy, mapPy]
    cases f a with
    | error e => rfl
    | ok v =>
      simp only
      rw [ih]
      cases mapPy f t with
      | error e => rfl
      | ok x =>
        simp only
        cases mapPy f b <;> rfl

theorem mapPy_length {α β : Type} (f : α → Py β) (a : List α) (x : List β) (h : mapPy f a = .ok x) : x.length = a.length := by
  induction a generalizing x with
  | nil => rw [mapPy] at h; injection h with h; subst h; rfl
  | cons a t ih =>
    rw [mapPy] at h
    cases hf : f a with
    | error e => rw [hf] at h; cases h
    | ok v =>
      rw [hf] at h
      simp only at h
      cases ht : mapPy f t with
      | error e => rw [ht] at h; cases h
      | ok y =>
        rw [ht] at h
        injection h with h
        subst h
        rw [List.length_cons, List.length_cons, ih y ht]

/-- Nothing after the header: no point can come out. -/
theorem reader_short (p : Text) (h : (readLines p).length ≤ 2) : (∃ e, gsasReader p = .error e) ∨ gsasReader p = .ok [] := by
  unfold gsasReader
  cases h1 : (readLines p)[1]? with
  | none => exact Or.inl ⟨_, rfl⟩
  | some b =>
    simp only
    obtain ⟨a, hab⟩ : ∃ a, readLines p = [a, b] := by
      match hm : readLines p, h, h1 with
      | [a, b'], _, h1 => exact ⟨a, by simpa using h1⟩
      | [a], _, h1 => simp at h1
      | [], _, h1 => simp at h1
      | a :: b' :: c :: t, h, _ => simp at h
    cases token b 9 with
    | error e => exact Or.inl ⟨e, rfl⟩
    | ok mode =>
      simp only [bind, Except.bind]
      unfold getStd getEsd getFxye
      rw [hab]
      simp only [List.drop_succ_cons, List.drop_zero, bind, Except.bind, fieldsOf, List.flatMap_nil, List.zipIdx_nil, mapPy]
      split_ifs
      · cases token b 5 with
        | error e => exact Or.inl ⟨e, rfl⟩
        | ok t5 =>
          simp only
          cases parseFloat t5 with
          | error e => exact Or.inl ⟨e, rfl⟩
          | ok v =>
            simp only
            cases token b 6 with
            | error e => exact Or.inl ⟨e, rfl⟩
            | ok t6 =>
              simp only
              cases parseFloat t6 with
              | error e => exact Or.inl ⟨e, rfl⟩
              | ok v =>
                simp only
                cases token b 2 with
                | error e => exact Or.inl ⟨e, rfl⟩
                | ok t2 =>
                  simp only
                  cases parseFloat t2 with
                  | error e => exact Or.inl ⟨e, rfl⟩
                  | ok v => exact Or.inr rfl
      · cases token b 5 with
        | error e => exact Or.inl ⟨e, rfl⟩
        | ok t5 =>
          simp only
          cases parseFloat t5 with
          | error e => exact Or.inl ⟨e, rfl⟩
          | ok v =>
            simp only
            cases token b 6 with
            | error e => exact Or.inl ⟨e, rfl⟩
            | ok t6 =>
              simp only
              cases parseFloat t6 with
              | error e => exact Or.inl ⟨e, rfl⟩
              | ok v => exact Or.inr rfl
      · exact Or.inr rfl
      · exact Or.inl ⟨_, rfl⟩

theorem fieldsOf_append (w k : ℕ) (a b : List Text) : fieldsOf w k (a ++ b) = fieldsOf w k a ++ fieldsOf w k b := by
  unfold fieldsOf; rw [List.flatMap_append]

theorem fieldsOf_length (w k : ℕ) (a : List Text) : (fieldsOf w k a).length = k * a.length := by
  unfold fieldsOf
  induction a with
  | nil => simp
  | cons l t ih => rw [List.flatMap_cons, List.length_append, ih]; simp [Nat.mul_succ, Nat.add_comm]

theorem slice_prefix (r l : Text) (a b : ℕ) (h : r <+: l) : slice r a b <+: slice l a b := by
  unfold slice
  obtain ⟨t, rfl⟩ := h
  rw [List.drop_append, List.take_append]
  exact List.prefix_append _ _

/-- Fields of a cut line are cut fields. -/
theorem fieldsOf_cut (w k : ℕ) (r l : Text) (h : r <+: l) : ∀ f' ∈ fieldsOf w k [r], ∃ f ∈ fieldsOf w k [l], f' <+: f := by
  intro f' hf
  unfold fieldsOf at hf ⊢
  simp only [List.flatMap_cons, List.flatMap_nil, List.append_nil] at hf ⊢
  obtain ⟨i, hi, rfl⟩ := List.mem_map.1 hf
  exact ⟨_, List.mem_map.2 ⟨i, hi, rfl⟩, slice_prefix r l _ _ h⟩

theorem mapPy_exists {α β : Type} (f : α → Py β) (l : List α) (h : ∀ a ∈ l, ∃ b, f a = .ok b) : ∃ x, mapPy f l = .ok x := by
  induction l with
  | nil => exact ⟨[], rfl⟩
  | cons a t ih =>
    obtain ⟨b, hb⟩ := h a (by simp)
    obtain ⟨x, hx⟩ := ih (fun c hc => h c (by simp [hc]))
    exact ⟨b :: x, by rw [mapPy, hb]; simp only; rw [hx]⟩

/-- The reader appends a point for each index below the number of channels. -/
theorem std_appends (start step : Option ℚ) (n : ℕ) (f : Text) (j : ℕ) (o : Option Point) (h : stdField start step (some (n : ℚ)) (f, j) = .ok o) : o.isSome = decide (j < n) := by
  unfold stdField at h
  simp only [bind, Except.bind] at h
  cases h1 : sint (slice f 0 2) with
  | error e => rw [h1] at h; cases h
  | ok v =>
    rw [h1] at h
    simp only at h
    cases h2 : sfloat (slice f 2 8) with
    | error e => rw [h2] at h; cases h
    | ok y =>
      rw [h2] at h
      simp only at h
      by_cases hj : j < n
      · have hj' : (j : ℚ) < n := by exact_mod_cast hj
        rw [if_pos hj'] at h
        cases y with
        | none =>
          simp only [Option.map_none] at h
          injection h with h
          subst h
          simp [hj]
        | some y =>
          simp only [Option.map_some] at h
          split_ifs at h <;> (injection h with h; subst h; simp [hj])
      · have hj' : ¬ (j : ℚ) < n := by exact_mod_cast hj
        rw [if_neg hj'] at h
        injection h with h
        subst h
        simp [hj]

theorem std_count (start step : Option ℚ) (n : ℕ) (l : List Text) (k : ℕ) (x : List (Option Point)) (h : mapPy (stdField start step (some (n : ℚ))) (l.zipIdx k) = .ok x) :
    (x.filterMap id).length = min l.length (n - k) := by
  induction l generalizing k x with
  | nil =>
    rw [List.zipIdx_nil, mapPy] at h
    injection h with h; subst h; simp
  | cons f t ih =>
    rw [List.zipIdx_cons, mapPy] at h
    cases hf : stdField start step (some (n : ℚ)) (f, k) with
    | error e => rw [hf] at h; cases h
    | ok o =>
      rw [hf] at h
      simp only at h
      cases ht : mapPy (stdField start step (some (n : ℚ))) (t.zipIdx (k + 1)) with
      | error e => rw [ht] at h; cases h
      | ok y =>
        rw [ht] at h
        injection h with h
        subst h
        have h1 := ih (k + 1) y ht
        have h2 := std_appends _ _ _ _ _ _ hf
        cases o with
        | none =>
          rw [List.filterMap_cons_none rfl, h1, List.length_cons]
          have : ¬ k < n := by simpa using h2
          omega
        | some v =>
          rw [show List.filterMap id (some v :: y) = v :: List.filterMap id y from rfl, List.length_cons, h1, List.length_cons]
          have : k < n := by simpa using h2
          omega

/-- The header is whole: what the reader returns is a function of the data lines. -/
theorem reader_std (p : Text) (title : Text) (n k : ℕ) (t0 : ℚ) (dt : Option ℚ) (D : List Text)
    (h : readLines p = title :: (padRight 80 (bankLine n k t0 dt "STD".toList) ++ ['\n']) :: D) :
    gsasReader p = match mapPy (stdField (centi (some (fixed 5 t0))) (centi (dt.map (fixed 5))) (some (n : ℚ))) (fieldsOf 8 10 D).zipIdx with
      | .error e => .error e
      | .ok x => .ok (x.filterMap id) := by
  have hw := bank_words n k t0 dt "STD".toList (by decide) (nonspace_lit _ (by decide))
  have tok : ∀ j w, (["BANK".toList, digits 1, digits n, digits k, "CONST".toList, body 5 (some t0), body 5 dt, body 5 (some 0), body 5 (some 0), "STD".toList])[j]? = some w →
      token (padRight 80 (bankLine n k t0 dt "STD".toList) ++ ['\n']) j = .ok w := by
    intro j w h
    unfold token
    rw [hw, h]
  unfold gsasReader getStd
  rw [h]
  simp only [List.getElem?_cons_succ, List.getElem?_cons_zero, List.drop_succ_cons, List.drop_zero]
  rw [tok 9 _ rfl, tok 5 _ rfl, tok 6 _ rfl, tok 2 _ rfl]
  simp only [bind, Except.bind, if_true, parse_body, parse_digits, Option.map_some]
  generalize mapPy _ _ = z
  cases z <;> rfl

theorem reader_esd (p : Text) (title : Text) (n k : ℕ) (t0 : ℚ) (dt : Option ℚ) (D : List Text)
    (h : readLines p = title :: (padRight 80 (bankLine n k t0 dt "ESD".toList) ++ ['\n']) :: D) :
    gsasReader p = mapPy (esdField (centi (some (fixed 5 t0))) (centi (dt.map (fixed 5)))) (fieldsOf 16 5 D).zipIdx := by
  have hw := bank_words n k t0 dt "ESD".toList (by decide) (nonspace_lit _ (by decide))
  have tok : ∀ j w, (["BANK".toList, digits 1, digits n, digits k, "CONST".toList, body 5 (some t0), body 5 dt, body 5 (some 0), body 5 (some 0), "ESD".toList])[j]? = some w →
      token (padRight 80 (bankLine n k t0 dt "ESD".toList) ++ ['\n']) j = .ok w := by
    intro j w h
    unfold token
    rw [hw, h]
  have hne1 : ("ESD".toList : Text) ≠ "STD".toList := by decide
  unfold gsasReader getEsd
  rw [h]
  simp only [List.getElem?_cons_succ, List.getElem?_cons_zero, List.drop_succ_cons, List.drop_zero]
  rw [tok 9 _ rfl, tok 5 _ rfl, tok 6 _ rfl]
  simp only [bind, Except.bind, if_true, parse_body, Option.map_some, if_neg hne1]

theorem reader_fxye (p : Text) (title : Text) (n k : ℕ) (t0 : ℚ) (dt : Option ℚ) (D : List Text)
    (h : readLines p = title :: (padRight 80 (bankLine n k t0 dt "FXYE".toList) ++ ['\n']) :: D) :
    gsasReader p = mapPy fxyeLine D := by
  have hw := bank_words n k t0 dt "FXYE".toList (by decide) (nonspace_lit _ (by decide))
  have tok : token (padRight 80 (bankLine n k t0 dt "FXYE".toList) ++ ['\n']) 9 = .ok "FXYE".toList := by
    unfold token
    rw [hw]; rfl
  have n1 : ("FXYE".toList : Text) ≠ "STD".toList := by decide
  have n2 : ("FXYE".toList : Text) ≠ "ESD".toList := by decide
  unfold gsasReader getFxye
  rw [h]
  simp only [List.getElem?_cons_succ, List.getElem?_cons_zero, List.drop_succ_cons, List.drop_zero]
  rw [tok]
  simp only [bind, Except.bind, if_neg n1, if_neg n2, if_true]

/-- A beginning of a file of two header lines and data lines: either the header is not whole, or the lines read are the header, the
first `m` data lines and perhaps a beginning of the next. -/
theorem lines_cut (title bank : Text) (data : List Text) (h : ∀ l ∈ title :: bank :: data, ∀ c ∈ l, c ≠ '\r' ∧ c ≠ '\n') (h80 : ∀ l ∈ data, l.length = 80)
    (p : Text) (hp : p <+: crlf (title :: bank :: data)) :
    ((readLines p).length ≤ 2 ∧ p.length < title.length + bank.length + 4) ∨
    ∃ (m : ℕ) (R : List Text), m ≤ data.length ∧ readLines p = (title ++ ['\n']) :: (bank ++ ['\n']) :: ((data.map (· ++ ['\n'])).take m ++ R) ∧
      (R = [] ∨ ∃ r l, R = [r] ∧ (data.map (· ++ ['\n']))[m]? = some l ∧ r <+: l) ∧ p.length ≤ title.length + bank.length + 4 + 82 * m + 80 := by
  obtain ⟨M, r, h1, h2, h3, h4⟩ := readLines_cut _ h p hp
  have hlen : (if r = [] then [] else [r] : List Text).length ≤ 1 := by split_ifs <;> simp
  match M, h1, h2, h3, h4 with
  | 0, h1, h2, h3, h4 =>
    left
    constructor
    · rw [h2]; simp only [List.take_zero, List.map_nil, List.nil_append]; omega
    · by_cases hr : r = []
      · subst hr
        have : p.length ≤ 0 := by simpa [crlf] using h4
        omega
      · obtain ⟨l, hl, hpre⟩ := h3 hr
        simp only [List.getElem?_cons_zero, Option.some.injEq] at hl
        subst hl
        have := hpre.length_le
        simp [crlf] at h4
        omega
  | 1, h1, h2, h3, h4 =>
    left
    constructor
    · rw [h2, List.length_append]
      simp only [List.take_succ_cons, List.take_zero, List.map_cons, List.map_nil, List.length_cons, List.length_nil]; omega
    · by_cases hr : r = []
      · subst hr; simp [crlf] at h4; omega
      · obtain ⟨l, hl, hpre⟩ := h3 hr
        simp only [List.getElem?_cons_succ, List.getElem?_cons_zero, Option.some.injEq] at hl
        subst hl
        have := hpre.length_le
        simp [crlf] at h4
        omega
  | m + 2, h1, h2, h3, h4 =>
    right
    have hm : m ≤ data.length := by simpa using h1
    have hc : ∀ l : List Text, (∀ a ∈ l, a.length = 80) → (crlf l).length = 82 * l.length := by
      intro l
      induction l with
      | nil => intro _; rfl
      | cons a t ih =>
        intro ha
        have e : crlf (a :: t) = a ++ ('\r' :: '\n' :: crlf t) := by simp [crlf]
        rw [e]
        simp only [List.length_append, List.length_cons]
        rw [ih (fun b hb => ha b (by simp [hb])), ha a (by simp)]
        omega
    have hlen4 : (crlf (List.take (m + 2) (title :: bank :: data))).length = title.length + bank.length + 4 + 82 * m := by
      have e : crlf (List.take (m + 2) (title :: bank :: data)) = title ++ ('\r' :: '\n' :: (bank ++ ('\r' :: '\n' :: crlf (data.take m)))) := by simp [crlf]
      rw [e]
      simp only [List.length_append, List.length_cons]
      rw [hc _ (fun a ha => h80 a (List.mem_of_mem_take ha)), List.length_take, min_eq_left hm]
      omega
    refine ⟨m, if r = [] then [] else [r], hm, ?_, ?_, ?_⟩
    · rw [h2]; simp [List.map_take]
    · by_cases hr : r = []
      · exact Or.inl (if_pos hr)
      · right
        obtain ⟨l, hl, hpre⟩ := h3 hr
        simp only [List.getElem?_cons_succ] at hl
        exact ⟨r, l ++ ['\n'], if_neg hr, by rw [List.getElem?_map, hl]; rfl, hpre.trans (List.prefix_append _ _)⟩
    · have hr80 : r.length ≤ 80 := by
        by_cases hr : r = []
        · subst hr; simp
        · obtain ⟨l, hl, hpre⟩ := h3 hr
          simp only [List.getElem?_cons_succ] at hl
          rw [← h80 l (List.mem_of_getElem? hl)]
          exact hpre.length_le
      omega

/-- What a reader that works field by field makes of a cut file. -/
theorem fields_cut {β : Type} (f : Text × ℕ → Py β) (w k : ℕ) (D : List Text) (m : ℕ) (hm : m ≤ D.length) (R : List Text) (hR : R = [] ∨ ∃ r l, R = [r] ∧ D[m]? = some l ∧ r <+: l)
    (full : List β) (hfull : mapPy f (fieldsOf w k D).zipIdx = .ok full)
    (hok : ∀ a ∈ fieldsOf w k D, ∀ a', a' <+: a → ∀ j, ∃ b, f (a', j) = .ok b) :
    ∃ z : List β, mapPy f (fieldsOf w k (D.take m ++ R)).zipIdx = .ok (full.take (k * m) ++ z) ∧ mapPy f ((fieldsOf w k R).zipIdx (k * m)) = .ok z ∧
      mapPy f (fieldsOf w k (D.take m)).zipIdx = .ok (full.take (k * m)) := by
  have e1 : (fieldsOf w k D).zipIdx = (fieldsOf w k (D.take m)).zipIdx ++ (fieldsOf w k (D.drop m)).zipIdx (k * m) := by
    conv_lhs => rw [← List.take_append_drop m D, fieldsOf_append, List.zipIdx_append, fieldsOf_length, List.length_take, min_eq_left hm]
    rw [Nat.zero_add]
  have e2 : (fieldsOf w k (D.take m ++ R)).zipIdx = (fieldsOf w k (D.take m)).zipIdx ++ (fieldsOf w k R).zipIdx (k * m) := by
    rw [fieldsOf_append, List.zipIdx_append, fieldsOf_length, List.length_take, min_eq_left hm, Nat.zero_add]
  rw [e1, mapPy_append] at hfull
  obtain ⟨z, hz⟩ : ∃ z, mapPy f ((fieldsOf w k R).zipIdx (k * m)) = .ok z := by
    apply mapPy_exists
    rintro ⟨a', j⟩ hmem
    have ha' : a' ∈ fieldsOf w k R := by
      have := List.mem_map_of_mem (f := Prod.fst) hmem
      rwa [List.zipIdx_map_fst] at this
    rcases hR with rfl | ⟨r, l, rfl, hl, hpre⟩
    · simp [fieldsOf] at ha'
    · obtain ⟨a, ha, hpa⟩ := fieldsOf_cut w k r l hpre a' ha'
      refine hok a ?_ a' hpa j
      have hl' := List.mem_of_getElem? hl
      unfold fieldsOf at ha ⊢
      simp only [List.flatMap_cons, List.flatMap_nil, List.append_nil] at ha
      exact List.mem_flatMap.2 ⟨l, hl', ha⟩
  cases hx : mapPy f (fieldsOf w k (D.take m)).zipIdx with
  | error e => rw [hx] at hfull; cases hfull
  | ok x =>
    rw [hx] at hfull
    simp only at hfull
    cases hy : mapPy f ((fieldsOf w k (D.drop m)).zipIdx (k * m)) with
    | error e => rw [hy] at hfull; cases hfull
    | ok y =>
      rw [hy] at hfull
      simp only at hfull
      injection hfull with hfull
      have hxl : x.length = k * m := by
        rw [mapPy_length _ _ _ hx, List.length_zipIdx, fieldsOf_length, List.length_take, min_eq_left hm]
      have hxt : full.take (k * m) = x := by rw [← hfull, ← hxl, List.take_left]
      refine ⟨z, ?_, hz, by rw [hxt]⟩
      rw [e2, mapPy_append, hx, hxt]
      simp only
      rw [hz]

/-! ### cut numbers -/

theorem natOf_some (w : Text) (h : ∀ c ∈ w, IsDigit c) (acc : ℕ) : ∃ n, natOf acc w = some n := by
  induction w generalizing acc with
  | nil => exact ⟨acc, rfl⟩
  | cons c t ih =>
    have hc : 48 ≤ c.toNat ∧ c.toNat ≤ 57 := h c (by simp)
    rw [natOf, if_pos hc]
    exact ih (fun c' h' => h c' (by simp [h'])) _

theorem sfloat_number (k : ℕ) (w : Text) (hne : w ≠ []) (h : ∀ c ∈ w, IsDigit c) (n : ℕ) (hn : natOf 0 w = some n) : sfloat (List.replicate k ' ' ++ w) = .ok (some (n : ℚ)) := by
  have hs : strip (List.replicate k ' ' ++ w) = w := by
    have := strip_pad k 0 w hne (fun c hc => isDigit_nonspace c (h c hc))
    simpa using this
  have hu : unsignedOf w = some (n : ℚ) := by
    unfold unsignedOf
    rw [dropWhile_all _ w (by intro c hc; have := isDigit_ne c '.' (h c hc) (by decide); simpa using this)]
    simp [hne, hn]
  unfold sfloat parseFloat
  rw [hs, if_pos hne]
  obtain ⟨c, t, rfl⟩ := List.exists_cons_of_ne_nil hne
  have h1 : c ≠ '-' := isDigit_ne c '-' (h c (by simp)) (by decide)
  have h2 : c :: t ≠ "nan".toList := by
    intro he
    have h3 : c = 'n' := by
      have := congrArg List.head? he
      simpa using this
    exact isDigit_ne c 'n' (h c (by simp)) (by decide) h3
  split
  · rename_i t' heq
    injection heq with h3 _
    exact absurd h3 h1
  · rw [if_neg h2, hu]

theorem sfloat_blank (k : ℕ) : sfloat (List.replicate k ' ') = .ok (some 0) := by
  unfold sfloat
  rw [strip_blank]
  simp

/-- The text of a nonnegative number without decimals. -/
theorem fmtF_whole (w : ℕ) (q : ℚ) (h0 : 0 ≤ q) : fmtF w 0 (some q) = List.replicate (w - (digits (roundEven q).toNat).length) ' ' ++ digits (roundEven q).toNat := by
  have : fmtFixed 0 q = digits (roundEven q).toNat := by
    unfold fmtFixed
    rw [if_neg (not_lt.2 h0), abs_of_nonneg h0]
    simp
  unfold fmtF padLeft
  simp only [this]

/-- Every beginning of the text of a number is a number. -/
theorem sfloat_cut (w : ℕ) (q : ℚ) (h0 : 0 ≤ q) (t : Text) (h : t <+: fmtF w 0 (some q)) : ∃ v, sfloat t = .ok (some v) := by
  rw [fmtF_whole w q h0] at h
  rcases prefix_split _ _ _ h with h | ⟨d, rfl, hd⟩
  · have : t = List.replicate t.length ' ' := by
      rw [List.eq_replicate_iff]
      exact ⟨rfl, fun c hc => List.eq_of_mem_replicate (h.subset hc)⟩
    rw [this]
    exact ⟨0, sfloat_blank _⟩
  · by_cases hne : d = []
    · subst hne
      rw [List.append_nil]
      exact ⟨0, sfloat_blank _⟩
    · have hdig : ∀ c ∈ d, IsDigit c := fun c hc => digits_isDigit _ c (hd.subset hc)
      obtain ⟨n, hn⟩ := natOf_some d hdig 0
      exact ⟨n, sfloat_number _ d hne hdig n hn⟩

/-- Without its last digit a number is read as a tenth of itself. -/
theorem sfloat_dropLast (w : ℕ) (q : ℚ) (h0 : 0 ≤ q) : sfloat (fmtF w 0 (some q)).dropLast = .ok (some (((roundEven q).toNat / 10 : ℕ) : ℚ)) := by
  rw [fmtF_whole w q h0]
  generalize (roundEven q).toNat = v
  generalize w - (digits v).length = k
  rw [List.dropLast_append_of_ne_nil (digits_ne_nil v)]
  rw [digits]
  split_ifs with hv
  · have : v / 10 = 0 := by omega
    rw [this]
    simp only [List.dropLast_singleton, List.append_nil, Nat.cast_zero]
    exact sfloat_blank k
  · rw [List.dropLast_concat]
    exact sfloat_number k _ (digits_ne_nil _) (digits_isDigit _) _ (natOf_digits _)

theorem prefix_slice_fst (t a b : Text) (n : ℕ) (h : t <+: a ++ b) (ha : a.length = n) : slice t 0 n <+: a := by
  have := slice_prefix t (a ++ b) 0 n h
  rwa [slice_fst a b n ha] at this

theorem prefix_slice_snd (t a b : Text) (n m : ℕ) (h : t <+: a ++ b) (ha : a.length = n) (hb : b.length = m) : slice t n (n + m) <+: b := by
  have := slice_prefix t (a ++ b) n (n + m) h
  rwa [slice_snd a b n m ha hb] at this

theorem sint_cut (t : Text) (h : t <+: padLeft 2 (digits 1)) : ∃ v, sint t = .ok v := by
  have e : padLeft 2 (digits 1) = [' ', '1'] := by decide +kernel
  rw [e] at h
  have h1 : t = [] ∨ t = [' '] ∨ t = [' ', '1'] := by
    have hl := h.length_le
    rw [List.prefix_iff_eq_take] at h
    match hn : t.length, hl with
    | 0, _ => left; exact List.eq_nil_of_length_eq_zero hn
    | 1, _ => right; left; rw [h, hn]; rfl
    | 2, _ => right; right; rw [h, hn]; rfl
    | k + 3, hl => simp at hl
  rcases h1 with rfl | rfl | rfl
  · exact ⟨0, by decide +kernel⟩
  · exact ⟨0, by decide +kernel⟩
  · exact ⟨1, by decide +kernel⟩

theorem stdField_ok (start step : Option ℚ) (n : ℚ) (f : Text) (j : ℕ) (a : ℤ) (b : Option ℚ) (h1 : sint (slice f 0 2) = .ok a) (h2 : sfloat (slice f 2 8) = .ok b) :
    ∃ o, stdField start step (some n) (f, j) = .ok o := by
  unfold stdField
  simp only [h1, h2, bind, Except.bind]
  split_ifs with hj
  · cases b with
    | none => exact ⟨_, rfl⟩
    | some y =>
      simp only [Option.map_some]
      split_ifs <;> exact ⟨_, rfl⟩
  · exact ⟨_, rfl⟩

theorem stdField_cut (start step : Option ℚ) (n : ℚ) (s i : ℚ) (h0 : 0 ≤ i * s) (h1 : i * s ≤ 999999) (t : Text) (h : t <+: stdRec s i) (j : ℕ) :
    ∃ o, stdField start step (some n) (t, j) = .ok o := by
  have hl : (padLeft 2 (digits 1)).length = 2 := by decide +kernel
  unfold stdRec at h
  obtain ⟨a, ha⟩ := sint_cut _ (prefix_slice_fst t _ _ 2 h hl)
  obtain ⟨b, hb⟩ := sfloat_cut 6 _ h0 _ (prefix_slice_snd t _ _ 2 6 h hl (fmtF_length 6 (by norm_num) _ h0 (by norm_num; linarith)))
  exact stdField_ok _ _ _ _ _ a _ ha hb

theorem blank_prefix (k : ℕ) (t : Text) (h : t <+: List.replicate k ' ') : ∃ m, t = List.replicate m ' ' :=
  ⟨t.length, by rw [List.eq_replicate_iff]; exact ⟨rfl, fun c hc => List.eq_of_mem_replicate (h.subset hc)⟩⟩

theorem slice_blank (m a b : ℕ) : ∃ k, slice (List.replicate m ' ') a b = List.replicate k ' ' := by
  unfold slice
  rw [List.drop_replicate, List.take_replicate]
  exact ⟨_, rfl⟩

theorem stdField_cutBlank (start step : Option ℚ) (n : ℚ) (t : Text) (h : t <+: List.replicate 8 ' ') (j : ℕ) : ∃ o, stdField start step (some n) (t, j) = .ok o := by
  obtain ⟨m, rfl⟩ := blank_prefix 8 t h
  obtain ⟨a, ha⟩ := slice_blank m 0 2
  obtain ⟨b, hb⟩ := slice_blank m 2 8
  refine stdField_ok _ _ _ _ _ 0 (some 0) ?_ ?_
  · rw [ha]; unfold sint; rw [strip_blank]; simp
  · rw [hb]; exact sfloat_blank b

theorem esdField_cut (start step : Option ℚ) (s i e : ℚ) (h0 : 0 ≤ i) (h1 : i ≤ 99999999) (h2 : 0 ≤ e * s) (h3 : e * s ≤ 99999999) (t : Text) (h : t <+: esdRec s i e) (j : ℕ) :
    ∃ o, esdField start step (t, j) = .ok o := by
  unfold esdRec at h
  have l1 := fmtF_length 8 (by norm_num) i h0 (by norm_num; linarith)
  have l2 := fmtF_length 8 (by norm_num) (e * s) h2 (by norm_num; linarith)
  obtain ⟨a, ha⟩ := sfloat_cut 8 _ h0 _ (prefix_slice_fst t _ _ 8 h l1)
  obtain ⟨b, hb⟩ := sfloat_cut 8 _ h2 _ (prefix_slice_snd t _ _ 8 8 h l1 l2)
  unfold esdField
  simp only [ha, hb, bind, Except.bind]
  exact ⟨_, rfl⟩

theorem esdField_cutBlank (start step : Option ℚ) (t : Text) (h : t <+: List.replicate 16 ' ') (j : ℕ) : ∃ o, esdField start step (t, j) = .ok o := by
  obtain ⟨m, rfl⟩ := blank_prefix 16 t h
  obtain ⟨a, ha⟩ := slice_blank m 0 8
  obtain ⟨b, hb⟩ := slice_blank m 8 16
  unfold esdField
  simp only [ha, hb, sfloat_blank, bind, Except.bind]
  exact ⟨_, rfl⟩

/-! ### the data lines -/

theorem fieldText (k w : ℕ) (hk : 0 < k) (h80 : k * w = 80) (recs : List Text) (hr : ∀ r ∈ recs, r.length = w) (hne : recs ≠ []) (a b : Text) :
    joinCrLf (padLast ([a, b] ++ (chunks k recs).map List.flatten)) = crlf (a :: b :: (chunks k recs).map (fun c => padRight (k * w) c.flatten)) := by
  have hchne : (chunks k recs).map List.flatten ≠ [] := by simpa using chunks_ne_nil k hk _ hne
  have : padLast ([a, b] ++ (chunks k recs).map List.flatten) = a :: b :: (chunks k recs).map (fun c => padRight (k * w) c.flatten) := by
    rw [← padLast_chunks k w hk h80 _ hr]
    obtain ⟨x, t, hat⟩ := List.exists_cons_of_ne_nil hchne
    rw [hat]
    rfl
  rw [this, joinCrLf_crlf _ (by simp)]

theorem chunk_noNl (k w : ℕ) (hk : 0 < k) (recs : List Text) (hc : ∀ r ∈ recs, ∀ c ∈ r, c ≠ '\r' ∧ c ≠ '\n') :
    ∀ l ∈ (chunks k recs).map (fun c => padRight (k * w) c.flatten), ∀ c ∈ l, c ≠ '\r' ∧ c ≠ '\n' := by
  intro l hl
  obtain ⟨c, hcm, rfl⟩ := List.mem_map.1 hl
  apply padRight_noNl
  intro ch hch
  obtain ⟨r, hr, hchr⟩ := List.mem_flatten.1 hch
  exact hc r (mem_chunks k hk _ c hcm r hr) ch hchr

theorem mem_chunks_length {α : Type} (k : ℕ) (hk : 0 < k) (l : List α) : ∀ c ∈ chunks k l, c.length ≤ k := by
  induction hn : l.length using Nat.strong_induction_on generalizing l with
  | _ n ih =>
    intro c hc
    by_cases hl : l = []
    · subst hl; rw [chunks_nil] at hc; cases hc
    · rw [chunks_cons k hk l hl] at hc
      rcases List.mem_cons.1 hc with rfl | hc
      · rw [List.length_take]; omega
      · have hpos := List.length_pos_iff.2 hl
        exact ih (l.drop k).length (by rw [List.length_drop]; omega) _ rfl c hc

theorem chunk_length (k w : ℕ) (hk : 0 < k) (recs : List Text) (hr : ∀ r ∈ recs, r.length = w) :
    ∀ l ∈ (chunks k recs).map (fun c => padRight (k * w) c.flatten), l.length = k * w := by
  intro l hl
  obtain ⟨c, hcm, rfl⟩ := List.mem_map.1 hl
  unfold padRight
  rw [List.length_append, List.length_replicate, flatten_length w c (fun r h => hr r (mem_chunks k hk _ c hcm r h))]
  have := mem_chunks_length k hk recs c hcm
  have : w * c.length ≤ k * w := by rw [Nat.mul_comm k w]; exact Nat.mul_le_mul_left w this
  omega

theorem stdRec_noNl (s i : ℚ) : ∀ c ∈ stdRec s i, c ≠ '\r' ∧ c ≠ '\n' := by
  intro ch hchr
  unfold stdRec at hchr
  rcases List.mem_append.1 hchr with h | h
  · have : ∀ c ∈ padLeft 2 (digits 1), c ≠ '\r' ∧ c ≠ '\n' := by decide +kernel
    exact this ch h
  · exact fmtF_noNl _ _ _ ch h

theorem esdRec_noNl (s i e : ℚ) : ∀ c ∈ esdRec s i e, c ≠ '\r' ∧ c ≠ '\n' := by
  intro ch hchr
  unfold esdRec at hchr
  rcases List.mem_append.1 hchr with h | h
  · exact fmtF_noNl _ _ _ ch h
  · exact fmtF_noNl _ _ _ ch h

theorem crlf_length80 (l : List Text) (h : ∀ a ∈ l, a.length = 80) : (crlf l).length = 82 * l.length := by
  induction l with
  | nil => rfl
  | cons a t ih =>
    have e : crlf (a :: t) = a ++ ('\r' :: '\n' :: crlf t) := by simp [crlf]
    rw [e]
    simp only [List.length_append, List.length_cons]
    rw [ih (fun b hb => h b (by simp [hb])), h a (by simp)]
    omega

theorem crlf_cons2 (a b : Text) (l : List Text) : (crlf (a :: b :: l)).length = a.length + b.length + 4 + (crlf l).length := by
  have e : crlf (a :: b :: l) = a ++ ('\r' :: '\n' :: (b ++ ('\r' :: '\n' :: crlf l))) := by simp [crlf]
  rw [e]
  simp only [List.length_append, List.length_cons]
  omega

/-- Reading a beginning of a written STD file. -/
theorem cut_std (title : Text) (t0 : ℚ) (dt : Option ℚ) (s : ℚ) (intensity : List ℚ) (hne : intensity ≠ [])
    (hi : ∀ i ∈ intensity, 0 ≤ i * s ∧ i * s ≤ 999999) (ht : ∀ c ∈ title, c ≠ '\r' ∧ c ≠ '\n') (text : Text) (full : List Point)
    (htext : text = joinCrLf (padLast ([padRight 80 title, padRight 80 (bankLine intensity.length ((intensity.length + 9) / 10) t0 dt "STD".toList)] ++
        (chunks 10 (intensity.map (stdRec s))).map List.flatten))) (hfull : gsasReader text = .ok full) (p : Text) (hp : p <+: text) :
    ((∃ e, gsasReader p = .error e) ∧ p.length + 82 * ((intensity.length + 9) / 10) < text.length) ∨
    ∃ (m : ℕ) (c : List Point), gsasReader p = .ok (full.take (10 * m) ++ c) ∧ c.length ≤ 10 ∧ (full.take (10 * m) ++ c).length ≤ full.length ∧
      p.length + 82 * ((intensity.length + 9) / 10) ≤ text.length + 82 * m + 80 := by
  set n := intensity.length with hn
  have hrec : ∀ r ∈ intensity.map (stdRec s), r.length = 8 := by
    intro r hr
    obtain ⟨i, hmem, rfl⟩ := List.mem_map.1 hr
    exact stdRec_length s i (hi i hmem).1 (hi i hmem).2
  have hrnl : ∀ r ∈ intensity.map (stdRec s), ∀ c ∈ r, c ≠ '\r' ∧ c ≠ '\n' := by
    intro r hr
    obtain ⟨i, _, rfl⟩ := List.mem_map.1 hr
    exact stdRec_noNl s i
  rw [fieldText 10 8 (by norm_num) (by norm_num) _ hrec (by simpa using hne)] at htext
  have hnl := chunk_noNl 10 8 (by norm_num) _ hrnl
  have h80 := chunk_length 10 8 (by norm_num) _ hrec
  have hlen : ((chunks 10 (intensity.map (stdRec s))).map (fun c => padRight (10 * 8) c.flatten)).length = (n + 9) / 10 := by
    rw [List.length_map, chunks_length 10 (by norm_num), List.length_map]
  have hfields := fields_chunks 10 8 (by norm_num) (intensity.map (stdRec s)) hrec
  have hD : (chunks 10 (intensity.map (stdRec s))).map (fun c => padRight (10 * 8) c.flatten ++ ['\n']) =
      ((chunks 10 (intensity.map (stdRec s))).map (fun c => padRight (10 * 8) c.flatten)).map (· ++ ['\n']) := by rw [List.map_map]; rfl
  rw [hD] at hfields
  clear hD
  generalize (chunks 10 (intensity.map (stdRec s))).map (fun c => padRight (10 * 8) c.flatten) = data at *
  have hall : ∀ l ∈ padRight 80 title :: padRight 80 (bankLine n ((n + 9) / 10) t0 dt "STD".toList) :: data, ∀ c ∈ l, c ≠ '\r' ∧ c ≠ '\n' := by
    intro l hl
    rcases List.mem_cons.1 hl with rfl | hl
    · exact padRight_noNl _ _ ht
    · rcases List.mem_cons.1 hl with rfl | hl
      · exact bank_noNl _ _ _ _ _ (nonspace_lit _ (by decide))
      · exact hnl l hl
  have htl : text.length = (padRight 80 title).length + (padRight 80 (bankLine n ((n + 9) / 10) t0 dt "STD".toList)).length + 4 + 82 * ((n + 9) / 10) := by
    rw [htext, crlf_cons2, crlf_length80 data h80, hlen]
  have hrl : readLines text = (padRight 80 title ++ ['\n']) :: (padRight 80 (bankLine n ((n + 9) / 10) t0 dt "STD".toList) ++ ['\n']) :: data.map (· ++ ['\n']) := by
    rw [htext, ← joinCrLf_crlf _ (by simp), readLines_join _ (by simp) hall]
    rfl
  rw [reader_std _ _ _ _ _ _ _ hrl] at hfull
  cases hx : mapPy (stdField (centi (some (fixed 5 t0))) (centi (dt.map (fixed 5))) (some (n : ℚ))) (fieldsOf 8 10 (data.map (· ++ ['\n']))).zipIdx with
  | error e => rw [hx] at hfull; cases hfull
  | ok X =>
  rw [hx] at hfull
  simp only at hfull
  injection hfull with hfull
  rw [htext] at hp
  rcases lines_cut _ _ _ hall h80 p hp with ⟨h2, hl⟩ | ⟨m, R, hm, hrp, hR, hl⟩
  · rcases reader_short p h2 with he | he
    · exact Or.inl ⟨he, by omega⟩
    · exact Or.inr ⟨0, [], by simpa using he, by simp, by simp, by omega⟩
  · right
    obtain ⟨z, h1, h2, h3⟩ := fields_cut (stdField (centi (some (fixed 5 t0))) (centi (dt.map (fixed 5))) (some (n : ℚ))) 8 10 (data.map (· ++ ['\n'])) m
      (by rw [List.length_map]; exact hm) R hR X hx (by
        intro a ha a' hpre j
        rw [hfields] at ha
        rcases List.mem_append.1 ha with h | h
        · obtain ⟨i, hmem, rfl⟩ := List.mem_map.1 h
          exact stdField_cut _ _ _ s i (hi i hmem).1 (hi i hmem).2 a' hpre j
        · rw [List.eq_of_mem_replicate h] at hpre
          exact stdField_cutBlank _ _ _ a' hpre j)
    have c3 := std_count _ _ _ _ 0 _ h3
    have c2 := std_count _ _ _ _ (10 * m) _ h2
    have cX := std_count _ _ _ _ 0 _ hx
    rw [fieldsOf_length] at c2 c3 cX
    have hDl : (data.map (· ++ ['\n'])).length = data.length := List.length_map _
    rw [List.length_take, hDl, min_eq_left hm] at c3
    rw [hDl, hlen] at cX
    have hsplit : full = (X.take (10 * m)).filterMap id ++ (X.drop (10 * m)).filterMap id := by
      rw [← List.filterMap_append, List.take_append_drop, hfull]
    have htake : full.take (10 * m) = (X.take (10 * m)).filterMap id := by
      by_cases hc : 10 * m ≤ n
      · rw [hsplit, List.take_left']
        rw [c3]; omega
      · have h5 : full.length = n := by
          rw [← hfull, cX]
          have := Nat.div_add_mod (n + 9) 10
          omega
        have h6 : (X.drop (10 * m)).filterMap id = [] := by
          apply List.eq_nil_of_length_eq_zero
          have := congrArg List.length hsplit
          rw [List.length_append, c3, h5] at this
          omega
        rw [List.take_of_length_le (by omega), hsplit, h6, List.append_nil]
    have hRl : R.length ≤ 1 := by
      rcases hR with rfl | ⟨r, l, rfl, _⟩ <;> simp
    refine ⟨m, z.filterMap id, ?_, ?_, ?_, by omega⟩
    · rw [reader_std _ _ _ _ _ _ _ hrp, h1]
      simp only
      rw [List.filterMap_append, htake]
    · rw [c2]; omega
    · rw [htake, List.length_append, c3, c2, ← hfull, cX]
      rcases hR with rfl | ⟨r, l, rfl, hl', _⟩
      · simp only [List.length_nil]; omega
      · have : m < data.length := by
          by_contra hc
          rw [List.getElem?_eq_none (by rw [hDl]; omega)] at hl'
          cases hl'
        simp only [List.length_singleton]
        omega

/-- Reading a beginning of a written ESD file. -/
theorem cut_esd (title : Text) (t0 : ℚ) (dt : Option ℚ) (s : ℚ) (data0 : List (ℚ × ℚ)) (hne : data0 ≠ [])
    (hi : ∀ p ∈ data0, 0 ≤ p.1 ∧ p.1 ≤ 99999999 ∧ 0 ≤ p.2 * s ∧ p.2 * s ≤ 99999999) (ht : ∀ c ∈ title, c ≠ '\r' ∧ c ≠ '\n') (text : Text) (full : List Point)
    (htext : text = joinCrLf (padLast ([padRight 80 title, padRight 80 (bankLine data0.length ((data0.length + 4) / 5) t0 dt "ESD".toList)] ++
        (chunks 5 (data0.map (fun p => esdRec s p.1 p.2))).map List.flatten))) (hfull : gsasReader text = .ok full) (p : Text) (hp : p <+: text) :
    ((∃ e, gsasReader p = .error e) ∧ p.length + 82 * ((data0.length + 4) / 5) < text.length) ∨
    ∃ (m : ℕ) (c : List Point), gsasReader p = .ok (full.take (5 * m) ++ c) ∧ c.length ≤ 5 ∧ (full.take (5 * m) ++ c).length ≤ full.length ∧
      p.length + 82 * ((data0.length + 4) / 5) ≤ text.length + 82 * m + 80 := by
  set n := data0.length with hn
  have hrec : ∀ r ∈ data0.map (fun p => esdRec s p.1 p.2), r.length = 16 := by
    intro r hr
    obtain ⟨i, hmem, rfl⟩ := List.mem_map.1 hr
    obtain ⟨a, b, c, d⟩ := hi i hmem
    exact esdRec_length s i.1 i.2 a b c d
  have hrnl : ∀ r ∈ data0.map (fun p => esdRec s p.1 p.2), ∀ c ∈ r, c ≠ '\r' ∧ c ≠ '\n' := by
    intro r hr
    obtain ⟨i, _, rfl⟩ := List.mem_map.1 hr
    exact esdRec_noNl s _ _
  have hrc : ∀ r ∈ data0.map (fun p => esdRec s p.1 p.2), ∀ a', a' <+: r → ∀ j, ∃ b, esdField (centi (some (fixed 5 t0))) (centi (dt.map (fixed 5))) (a', j) = .ok b := by
    intro r hr a' hpre j
    obtain ⟨i, hmem, rfl⟩ := List.mem_map.1 hr
    obtain ⟨x1, x2, x3, x4⟩ := hi i hmem
    exact esdField_cut _ _ s i.1 i.2 x1 x2 x3 x4 a' hpre j
  have hrl0 : (data0.map (fun p => esdRec s p.1 p.2)).length = n := List.length_map _
  have hrne : data0.map (fun p => esdRec s p.1 p.2) ≠ [] := by simpa using hne
  generalize data0.map (fun p => esdRec s p.1 p.2) = recs at *
  clear hi hne
  rw [fieldText 5 16 (by norm_num) (by norm_num) _ hrec hrne] at htext
  have hnl := chunk_noNl 5 16 (by norm_num) _ hrnl
  have h80 := chunk_length 5 16 (by norm_num) _ hrec
  have hlen : ((chunks 5 recs).map (fun c => padRight (5 * 16) c.flatten)).length = (n + 4) / 5 := by
    rw [List.length_map, chunks_length 5 (by norm_num), hrl0]
  have hfields := fields_chunks 5 16 (by norm_num) recs hrec
  have hD : (chunks 5 recs).map (fun c => padRight (5 * 16) c.flatten ++ ['\n']) =
      ((chunks 5 recs).map (fun c => padRight (5 * 16) c.flatten)).map (· ++ ['\n']) := by rw [List.map_map]; rfl
  rw [hD] at hfields
  clear hD
  generalize (chunks 5 recs).map (fun c => padRight (5 * 16) c.flatten) = data at *
  have hall : ∀ l ∈ padRight 80 title :: padRight 80 (bankLine n ((n + 4) / 5) t0 dt "ESD".toList) :: data, ∀ c ∈ l, c ≠ '\r' ∧ c ≠ '\n' := by
    intro l hl
    rcases List.mem_cons.1 hl with rfl | hl
    · exact padRight_noNl _ _ ht
    · rcases List.mem_cons.1 hl with rfl | hl
      · exact bank_noNl _ _ _ _ _ (nonspace_lit _ (by decide))
      · exact hnl l hl
  have htl : text.length = (padRight 80 title).length + (padRight 80 (bankLine n ((n + 4) / 5) t0 dt "ESD".toList)).length + 4 + 82 * ((n + 4) / 5) := by
    rw [htext, crlf_cons2, crlf_length80 data h80, hlen]
  have hrl : readLines text = (padRight 80 title ++ ['\n']) :: (padRight 80 (bankLine n ((n + 4) / 5) t0 dt "ESD".toList) ++ ['\n']) :: data.map (· ++ ['\n']) := by
    rw [htext, ← joinCrLf_crlf _ (by simp), readLines_join _ (by simp) hall]
    rfl
  rw [reader_esd _ _ _ _ _ _ _ hrl] at hfull
  rw [htext] at hp
  rcases lines_cut _ _ _ hall h80 p hp with ⟨h2, hl⟩ | ⟨m, R, hm, hrp, hR, hl⟩
  · rcases reader_short p h2 with he | he
    · exact Or.inl ⟨he, by omega⟩
    · exact Or.inr ⟨0, [], by simpa using he, by simp, by simp, by omega⟩
  · right
    obtain ⟨z, h1, h2, h3⟩ := fields_cut (esdField (centi (some (fixed 5 t0))) (centi (dt.map (fixed 5)))) 16 5 (data.map (· ++ ['\n'])) m
      (by rw [List.length_map]; exact hm) R hR full hfull (by
        intro a ha a' hpre j
        rw [hfields] at ha
        rcases List.mem_append.1 ha with h | h
        · exact hrc a h a' hpre j
        · rw [List.eq_of_mem_replicate h] at hpre
          exact esdField_cutBlank _ _ a' hpre j)
    have c2 := mapPy_length _ _ _ h2
    have cX := mapPy_length _ _ _ hfull
    have hDl : (data.map (· ++ ['\n'])).length = data.length := List.length_map _
    rw [List.length_zipIdx, fieldsOf_length] at c2 cX
    rw [hDl] at cX
    have hRl : R.length ≤ 1 := by
      rcases hR with rfl | ⟨r, l, rfl, _⟩ <;> simp
    refine ⟨m, z, ?_, by omega, ?_, by omega⟩
    · rw [reader_esd _ _ _ _ _ _ _ hrp, h1]
    · rw [List.length_append, List.length_take, c2]
      rcases hR with rfl | ⟨r, l, rfl, hl', _⟩
      · simp only [List.length_nil]; omega
      · have : m < data.length := by
          by_contra hc
          rw [List.getElem?_eq_none (by rw [hDl]; omega)] at hl'
          cases hl'
        simp only [List.length_singleton]
        omega

/-- Reading a beginning of a file in FXYE format, one line per point. -/
theorem cut_fxye (title : Text) (n : ℕ) (t0 : ℚ) (dt : Option ℚ) (data : List Text) (ht : ∀ c ∈ title, c ≠ '\r' ∧ c ≠ '\n')
    (hnl : ∀ l ∈ data, ∀ c ∈ l, c ≠ '\r' ∧ c ≠ '\n') (h80 : ∀ l ∈ data, l.length = 80) (text : Text) (full : List Point)
    (htext : text = crlf (padRight 80 title :: padRight 80 (bankLine n n t0 dt "FXYE".toList) :: data)) (hfull : gsasReader text = .ok full) (p : Text) (hp : p <+: text) :
    (∃ e, gsasReader p = .error e) ∨
    ∃ (m : ℕ) (c : List Point), gsasReader p = .ok (full.take m ++ c) ∧ c.length ≤ 1 ∧ (full.take m ++ c).length ≤ full.length ∧
      p.length + 82 * data.length ≤ text.length + 82 * m + 80 := by
  have hall : ∀ l ∈ padRight 80 title :: padRight 80 (bankLine n n t0 dt "FXYE".toList) :: data, ∀ c ∈ l, c ≠ '\r' ∧ c ≠ '\n' := by
    intro l hl
    rcases List.mem_cons.1 hl with rfl | hl
    · exact padRight_noNl _ _ ht
    · rcases List.mem_cons.1 hl with rfl | hl
      · exact bank_noNl _ _ _ _ _ (nonspace_lit _ (by decide))
      · exact hnl l hl
  have htl : text.length = (padRight 80 title).length + (padRight 80 (bankLine n n t0 dt "FXYE".toList)).length + 4 + 82 * data.length := by
    rw [htext, crlf_cons2, crlf_length80 data h80]
  have hrl : readLines text = (padRight 80 title ++ ['\n']) :: (padRight 80 (bankLine n n t0 dt "FXYE".toList) ++ ['\n']) :: data.map (· ++ ['\n']) := by
    rw [htext, ← joinCrLf_crlf _ (by simp), readLines_join _ (by simp) hall]
    rfl
  rw [reader_fxye _ _ _ _ _ _ _ hrl] at hfull
  rw [htext] at hp
  rcases lines_cut _ _ _ hall h80 p hp with ⟨h2, hl⟩ | ⟨m, R, hm, hrp, hR, hl⟩
  · rcases reader_short p h2 with he | he
    · exact Or.inl he
    · exact Or.inr ⟨0, [], by simpa using he, by simp, by simp, by omega⟩
  · rw [reader_fxye _ _ _ _ _ _ _ hrp]
    have hDl : (data.map (· ++ ['\n'])).length = data.length := List.length_map _
    have hX := mapPy_length _ _ _ hfull
    rw [hDl] at hX
    generalize data.map (· ++ ['\n']) = D at *
    rw [← List.take_append_drop m D, mapPy_append] at hfull
    rw [mapPy_append]
    cases hx : mapPy fxyeLine (D.take m) with
    | error e => rw [hx] at hfull; cases hfull
    | ok x =>
      rw [hx] at hfull
      simp only at hfull ⊢
      have hxl : x.length = m := by rw [mapPy_length _ _ _ hx, List.length_take]; omega
      cases hy : mapPy fxyeLine (D.drop m) with
      | error e => rw [hy] at hfull; cases hfull
      | ok y =>
        rw [hy] at hfull
        simp only at hfull
        injection hfull with hfull
        have hxt : full.take m = x := by rw [← hfull, ← hxl, List.take_left]
        cases hz : mapPy fxyeLine R with
        | error e => exact Or.inl ⟨e, rfl⟩
        | ok z =>
          right
          have hzl := mapPy_length _ _ _ hz
          refine ⟨m, z, by rw [hxt], ?_, ?_, by omega⟩
          · rw [hzl]
            rcases hR with rfl | ⟨r, l, rfl, _⟩ <;> simp
          · rw [hxt, List.length_append, hxl, hzl, hX]
            rcases hR with rfl | ⟨r, l, rfl, hl', _⟩
            · simpa using hm
            · have : m < D.length := by
                by_contra hc
                rw [List.getElem?_eq_none (by omega)] at hl'
                cases hl'
              simp only [List.length_singleton]
              omega

/-! ### a number without its last digit -/

theorem readLines_tail (lines : List Text) (h : ∀ l ∈ lines, ∀ c ∈ l, c ≠ '\r' ∧ c ≠ '\n') (r : Text) (hr : ∀ c ∈ r, c ≠ '\r' ∧ c ≠ '\n') (hne : r ≠ []) :
    readLines (crlf lines ++ r) = lines.map (· ++ ['\n']) ++ [r] := by
  induction lines with
  | nil =>
    unfold readLines
    rw [show crlf [] ++ r = r from rfl, readLinesAux_rest [] r hr]
    simp [hne]
  | cons l ls ih =>
    have e : crlf (l :: ls) ++ r = l ++ '\r' :: '\n' :: (crlf ls ++ r) := by simp [crlf]
    unfold readLines at ih ⊢
    rw [e, readLinesAux_line [] l _ (h l (by simp)), ih (fun l' h' => h l' (by simp [h']))]
    simp

/-- The fields of a line that stops inside a record. -/
theorem fields_stop (w k : ℕ) (recs : List Text) (hr : ∀ r ∈ recs, r.length = w) (hk : recs.length < k) (cut : Text) (hc : cut.length < w) :
    fieldsOf w k [recs.flatten ++ cut] = recs ++ [cut] ++ List.replicate (k - recs.length - 1) [] := by
  obtain ⟨j, rfl⟩ : ∃ j, k = recs.length + (1 + j) := ⟨k - recs.length - 1, by omega⟩
  unfold fieldsOf
  simp only [List.flatMap_cons, List.flatMap_nil, List.append_nil]
  rw [List.range_add, List.map_append, fields_line w recs.length recs cut hr rfl, List.append_assoc]
  congr 1
  rw [List.map_map]
  have hfl := flatten_length w recs hr
  have key : ∀ i, slice (recs.flatten ++ cut) (w * (recs.length + i)) (w * (recs.length + i) + w) = (cut.drop (w * i)).take w := by
    intro i
    unfold slice
    rw [show w * (recs.length + i) = recs.flatten.length + w * i by rw [hfl]; ring, List.drop_append]
    congr 1
    · omega
    · rw [List.drop_eq_nil_of_le (by omega), List.nil_append]
      congr 1
      omega
  rw [List.range_add, List.map_append]
  congr 1
  · simp only [List.range_one, List.map_cons, List.map_nil, Function.comp, key, Nat.mul_zero, List.drop_zero]
    rw [List.take_of_length_le (by omega)]
  · rw [List.map_map, List.eq_replicate_iff]
    constructor
    · simp
    · intro b hb
      obtain ⟨i, _, rfl⟩ := List.mem_map.1 hb
      simp only [Function.comp, key]
      rw [List.drop_eq_nil_of_le, List.take_nil]
      have : w ≤ w * (1 + i) := Nat.le_mul_of_pos_right w (by omega)
      omega

theorem chunks_at {α : Type} (k : ℕ) (hk : 0 < k) (l : List α) (q : ℕ) (h : k * q < l.length) : (chunks k l)[q]? = some ((l.drop (k * q)).take k) := by
  induction q generalizing l with
  | zero =>
    have hl : l ≠ [] := by rintro rfl; simp at h
    rw [chunks_cons k hk l hl]; simp
  | succ q ih =>
    have hl : l ≠ [] := by rintro rfl; simp at h
    rw [Nat.mul_succ] at h
    rw [chunks_cons k hk l hl, List.getElem?_cons_succ, ih (l.drop k) (by rw [List.length_drop]; omega), List.drop_drop]
    rw [Nat.mul_succ, Nat.add_comm]

theorem stdField_stop (start step : Option ℚ) (n : ℕ) (s i : ℚ) (j : ℕ) (h0 : 0 ≤ i * s) (h1 : i * s ≤ 999999) (hj : j < n) :
    stdField start step (some (n : ℚ)) ((stdRec s i).dropLast, j) = .ok (some (Spec.stdPoint start step (fun _ => (((roundEven (i * s)).toNat / 10 : ℕ) : ℚ)) j)) := by
  have hl : (padLeft 2 (digits 1)).length = 2 := by decide +kernel
  have hl6 : (fmtF 6 0 (some (i * s))).length = 6 := fmtF_length 6 (by norm_num) _ h0 (by norm_num; linarith)
  have hne : fmtF 6 0 (some (i * s)) ≠ [] := by intro h; rw [h] at hl6; simp at hl6
  have e0 : (stdRec s i).dropLast = padLeft 2 (digits 1) ++ (fmtF 6 0 (some (i * s))).dropLast := by
    unfold stdRec; rw [List.dropLast_append_of_ne_nil hne]
  have e1 : slice (stdRec s i).dropLast 0 2 = padLeft 2 (digits 1) := by rw [e0]; exact slice_fst _ _ 2 hl
  have e2 : slice (stdRec s i).dropLast 2 8 = (fmtF 6 0 (some (i * s))).dropLast := by
    rw [e0]
    unfold slice
    rw [List.drop_append, hl, List.drop_eq_nil_of_le (by omega)]
    simp only [Nat.sub_self, List.drop_zero, List.nil_append]
    rw [List.take_of_length_le]
    rw [List.length_dropLast, hl6]; omega
  have e3 : sint (padLeft 2 (digits 1)) = .ok 1 := by decide +kernel
  have hj' : (j : ℚ) < n := by exact_mod_cast hj
  unfold stdField
  simp only [e1, e2, e3, sfloat_dropLast 6 _ h0, bind, Except.bind, Option.map_some, if_pos hj']
  generalize (roundEven (i * s)).toNat / 10 = v
  have hv : (0 : ℚ) ≤ (v : ℚ) := Nat.cast_nonneg v
  rw [max_eq_left hv]
  unfold Spec.stdPoint
  norm_num
  split_ifs with h2
  · subst h2; simp
  · rfl

/-- An STD file that stops just before the last digit of its last number. -/
theorem stop_std (title : Text) (t0 : ℚ) (dt : Option ℚ) (s : ℚ) (init : List ℚ) (a : ℚ)
    (hi : ∀ i ∈ init ++ [a], 0 ≤ i * s ∧ i * s ≤ 999999) (ht : ∀ c ∈ title, c ≠ '\r' ∧ c ≠ '\n') (text : Text)
    (htext : text = joinCrLf (padLast ([padRight 80 title, padRight 80 (bankLine (init ++ [a]).length (((init ++ [a]).length + 9) / 10) t0 dt "STD".toList)] ++
        (chunks 10 ((init ++ [a]).map (stdRec s))).map List.flatten))) :
    ∃ p, p <+: text ∧ gsasReader p = .ok ((List.range (init ++ [a]).length).map (Spec.stdPoint (centi (some (fixed 5 t0))) (centi (dt.map (fixed 5)))
      (fun j => if j < init.length then fixed 0 (init.getD j 0 * s) else (((roundEven (a * s)).toNat / 10 : ℕ) : ℚ)))) := by
  set n := (init ++ [a]).length with hn
  have hn1 : n = init.length + 1 := by rw [hn, List.length_append, List.length_singleton]
  have hinit : ∀ i ∈ init, 0 ≤ i * s ∧ i * s ≤ 999999 := fun i h => hi i (by simp [h])
  have ha := hi a (by simp)
  have hrec : ∀ r ∈ (init ++ [a]).map (stdRec s), r.length = 8 := by
    intro r hr
    obtain ⟨i, hmem, rfl⟩ := List.mem_map.1 hr
    exact stdRec_length s i (hi i hmem).1 (hi i hmem).2
  have hrec0 : ∀ r ∈ init.map (stdRec s), r.length = 8 := fun r hr => hrec r (by rw [List.map_append]; exact List.mem_append_left _ hr)
  have hrnl : ∀ r ∈ (init ++ [a]).map (stdRec s), ∀ c ∈ r, c ≠ '\r' ∧ c ≠ '\n' := by
    intro r hr
    obtain ⟨i, _, rfl⟩ := List.mem_map.1 hr
    exact stdRec_noNl s i
  have hfields := fields_chunks 10 8 (by norm_num) ((init ++ [a]).map (stdRec s)) hrec
  rw [List.length_map, ← hn] at hfields
  rw [fieldText 10 8 (by norm_num) (by norm_num) _ hrec (by simp)] at htext
  have hnl := chunk_noNl 10 8 (by norm_num) _ hrnl
  set q := init.length / 10 with hq
  have hat := chunks_at 10 (by norm_num) ((init ++ [a]).map (stdRec s)) q (by rw [List.length_map, ← hn]; omega)
  have hdata : ((chunks 10 ((init ++ [a]).map (stdRec s))).map (fun c => padRight (10 * 8) c.flatten))[q]? =
      some (padRight (10 * 8) ((((init ++ [a]).map (stdRec s)).drop (10 * q)).take 10).flatten) := by rw [List.getElem?_map, hat]; rfl
  have hlast : (((init ++ [a]).map (stdRec s)).drop (10 * q)).take 10 = (init.map (stdRec s)).drop (10 * q) ++ [stdRec s a] := by
    rw [List.map_append, List.drop_append, List.length_map, List.take_of_length_le]
    · rw [show 10 * q - init.length = 0 by omega]; rfl
    · rw [List.length_append, List.length_drop, List.length_drop, List.length_map]; simp; omega
  rw [hlast] at hdata
  have hD : (chunks 10 ((init ++ [a]).map (stdRec s))).map (fun c => padRight (10 * 8) c.flatten ++ ['\n']) =
      ((chunks 10 ((init ++ [a]).map (stdRec s))).map (fun c => padRight (10 * 8) c.flatten)).map (· ++ ['\n']) := by rw [List.map_map]; rfl
  rw [hD] at hfields
  clear hD hat
  have hall : ∀ l ∈ padRight 80 title :: padRight 80 (bankLine n ((n + 9) / 10) t0 dt "STD".toList) ::
      (chunks 10 ((init ++ [a]).map (stdRec s))).map (fun c => padRight (10 * 8) c.flatten), ∀ c ∈ l, c ≠ '\r' ∧ c ≠ '\n' := by
    intro l hl
    rcases List.mem_cons.1 hl with rfl | hl
    · exact padRight_noNl _ _ ht
    · rcases List.mem_cons.1 hl with rfl | hl
      · exact bank_noNl _ _ _ _ _ (nonspace_lit _ (by decide))
      · exact hnl l hl
  generalize (chunks 10 ((init ++ [a]).map (stdRec s))).map (fun c => padRight (10 * 8) c.flatten) = data at *
  have hqd : q < data.length := by
    by_contra hc
    rw [List.getElem?_eq_none (by omega)] at hdata
    cases hdata
  have hra : (stdRec s a).length = 8 := stdRec_length s a ha.1 ha.2
  have hrane : stdRec s a ≠ [] := by intro h; rw [h] at hra; simp at hra
  set R0 := (init.map (stdRec s)).drop (10 * q) with hR0
  have hR0l : R0.length = init.length - 10 * q := by rw [hR0, List.length_drop, List.length_map]
  have hR0r : ∀ r ∈ R0, r.length = 8 := fun r hr => hrec0 r (List.mem_of_mem_drop hr)
  have hline : data[q]? = some (R0.flatten ++ (stdRec s a).dropLast ++ ([(stdRec s a).getLast hrane] ++ List.replicate (10 * 8 - (R0 ++ [stdRec s a]).flatten.length) ' ')) := by
    rw [hdata]
    congr 1
    unfold padRight
    rw [List.flatten_append, List.flatten_singleton]
    simp only [List.append_assoc]
    congr 1
    rw [← List.append_assoc, List.dropLast_concat_getLast]
  set r := R0.flatten ++ (stdRec s a).dropLast with hr
  have hrne : r ≠ [] := by
    intro h
    have := congrArg List.length h
    rw [hr, List.length_append, List.length_dropLast, hra] at this
    simp at this
  have hrnl' : ∀ c ∈ r, c ≠ '\r' ∧ c ≠ '\n' := fun c hc => hnl _ (List.mem_of_getElem? hline) c (List.mem_append_left _ hc)
  have hcut : crlf (data.take q) ++ r <+: crlf data := by
    conv_rhs => rw [← List.take_append_drop q data]
    have e : crlf (data.take q ++ data.drop q) = crlf (data.take q) ++ crlf (data.drop q) := by unfold crlf; rw [List.flatMap_append]
    rw [e]
    apply (List.prefix_append_right_inj _).2
    rw [List.drop_eq_getElem_cons hqd]
    rw [List.getElem?_eq_getElem hqd] at hline
    injection hline with hline
    rw [hline]
    have e : ∀ (x : Text) t, crlf (x :: t) = x ++ ('\r' :: '\n' :: crlf t) := by intro x t; simp [crlf]
    rw [e, List.append_assoc]
    exact List.prefix_append _ _
  refine ⟨crlf (padRight 80 title :: padRight 80 (bankLine n ((n + 9) / 10) t0 dt "STD".toList) :: data.take q) ++ r, ?_, ?_⟩
  · rw [htext]
    have e : ∀ x y (t : List Text), crlf (x :: y :: t) = x ++ ('\r' :: '\n' :: (y ++ ('\r' :: '\n' :: crlf t))) := by intro x y t; simp [crlf]
    rw [e, e]
    simp only [List.append_assoc, List.cons_append]
    apply (List.prefix_append_right_inj _).2
    apply List.cons_prefix_cons.2 ⟨rfl, _⟩
    apply List.cons_prefix_cons.2 ⟨rfl, _⟩
    apply (List.prefix_append_right_inj _).2
    apply List.cons_prefix_cons.2 ⟨rfl, _⟩
    exact List.cons_prefix_cons.2 ⟨rfl, hcut⟩
  · have hread := readLines_tail (padRight 80 title :: padRight 80 (bankLine n ((n + 9) / 10) t0 dt "STD".toList) :: data.take q) (by
        intro l hl
        apply hall l
        rcases List.mem_cons.1 hl with h | hl
        · rw [h]; simp
        · rcases List.mem_cons.1 hl with h | hl
          · rw [h]; simp
          · exact List.mem_cons_of_mem _ (List.mem_cons_of_mem _ (List.mem_of_mem_take hl))) r hrnl' hrne
    rw [reader_std _ (padRight 80 title ++ ['\n']) n ((n + 9) / 10) t0 dt ((data.take q).map (· ++ ['\n']) ++ [r]) (by rw [hread]; simp)]
    have hf1 : fieldsOf 8 10 ((data.take q).map (· ++ ['\n'])) = (init.map (stdRec s)).take (10 * q) := by
      have h1 : fieldsOf 8 10 ((data.map (· ++ ['\n'])).take q) = (fieldsOf 8 10 (data.map (· ++ ['\n']))).take (10 * q) := by
        conv_rhs => rw [← List.take_append_drop q (data.map (· ++ ['\n'])), fieldsOf_append]
        rw [List.take_left']
        rw [fieldsOf_length, List.length_take, List.length_map, min_eq_left hqd.le]
      rw [List.map_take, h1, hfields, List.map_append, List.append_assoc, List.take_append_of_le_length]
      rw [List.length_map]; omega
    have hf2 : fieldsOf 8 10 [r] = R0 ++ [(stdRec s a).dropLast] ++ List.replicate (10 - R0.length - 1) ([] : Text) :=
      fields_stop 8 10 R0 hR0r (by omega) _ (by rw [List.length_dropLast, hra]; omega)
    have hf : fieldsOf 8 10 ((data.take q).map (· ++ ['\n']) ++ [r]) = init.map (stdRec s) ++ ([(stdRec s a).dropLast] ++ List.replicate (10 - R0.length - 1) ([] : Text)) := by
      rw [fieldsOf_append, hf1, hf2, hR0, List.append_assoc, ← List.append_assoc, List.take_append_drop]
    rw [hf]
    have hpts : mapPy (stdField (centi (some (fixed 5 t0))) (centi (dt.map (fixed 5))) (some (n : ℚ))) (init.map (stdRec s) ++ ([(stdRec s a).dropLast] ++ List.replicate (10 - R0.length - 1) ([] : Text))).zipIdx =
        .ok ((init.map (stdRec s) ++ ([(stdRec s a).dropLast] ++ List.replicate (10 - R0.length - 1) ([] : Text))).zipIdx.map (fun p =>
          (fun j => if j < n then some (Spec.stdPoint (centi (some (fixed 5 t0))) (centi (dt.map (fixed 5)))
            (fun j => if j < init.length then fixed 0 (init.getD j 0 * s) else (((roundEven (a * s)).toNat / 10 : ℕ) : ℚ)) j) else none) p.2)) := by
      apply mapPy_ok
      rintro ⟨f, j⟩ hmem
      have hget := mem_zipIdx _ _ hmem
      simp only at hget ⊢
      by_cases hj : j < init.length
      · rw [List.getElem?_append_left (by rw [List.length_map]; exact hj), List.getElem?_map] at hget
        have hgi : init[j]? = some init[j] := List.getElem?_eq_getElem hj
        rw [hgi] at hget
        injection hget with hget
        subst hget
        have hmem' : init[j] ∈ init := List.getElem_mem hj
        have hgd : init.getD j 0 = init[j] := by rw [List.getD_eq_getElem?_getD, hgi]; rfl
        have hjn : j < n := by omega
        rw [stdField_rec _ _ _ _ _ _ (hinit _ hmem').1 (hinit _ hmem').2 (by exact_mod_cast hjn), if_pos hjn]
        unfold Spec.stdPoint
        simp only [hgd, if_pos hj]
      · rw [List.getElem?_append_right (by rw [List.length_map]; omega), List.length_map] at hget
        by_cases hj2 : j = init.length
        · have hf : f = (stdRec s a).dropLast := by
            rw [hj2, Nat.sub_self] at hget
            simpa using hget.symm
          rw [hf, stdField_stop _ _ _ _ _ _ ha.1 ha.2 (by omega), if_pos (by omega)]
          unfold Spec.stdPoint
          simp only [if_neg hj]
        · obtain ⟨d, hd⟩ : ∃ d, j - init.length = d + 1 := ⟨j - init.length - 1, by omega⟩
          rw [hd, List.singleton_append, List.getElem?_cons_succ] at hget
          have hf : f = [] := List.eq_of_mem_replicate (List.mem_of_getElem? hget)
          have hjn : ¬ j < n := by omega
          have e1 : sint (slice [] 0 2) = .ok 0 := by decide +kernel
          have e2 : sfloat (slice [] 2 8) = .ok (some 0) := by decide +kernel
          have hjq : ¬ (j : ℚ) < n := by exact_mod_cast hjn
          rw [hf, if_neg hjn]
          unfold stdField
          simp only [e1, e2, bind, Except.bind, if_neg hjq]
    rw [hpts]
    simp only
    rw [map_zipIdx_snd _ (fun j => if j < n then some (Spec.stdPoint (centi (some (fixed 5 t0))) (centi (dt.map (fixed 5)))
            (fun j => if j < init.length then fixed 0 (init.getD j 0 * s) else (((roundEven (a * s)).toNat / 10 : ℕ) : ℚ)) j) else none), filterMap_first _ n _ (by
      simp only [List.length_append, List.length_map, List.length_singleton]; omega)]

/-- An STD file that stops after whole lines. -/
theorem whole_std (title : Text) (t0 : ℚ) (dt : Option ℚ) (s : ℚ) (intensity : List ℚ) (hne : intensity ≠ [])
    (hi : ∀ i ∈ intensity, 0 ≤ i * s ∧ i * s ≤ 999999) (ht : ∀ c ∈ title, c ≠ '\r' ∧ c ≠ '\n') (text : Text) (full : List Point)
    (htext : text = joinCrLf (padLast ([padRight 80 title, padRight 80 (bankLine intensity.length ((intensity.length + 9) / 10) t0 dt "STD".toList)] ++
        (chunks 10 (intensity.map (stdRec s))).map List.flatten))) (hfull : gsasReader text = .ok full) (k : ℕ) (hk : 10 * k < intensity.length) :
    ∃ p, p <+: text ∧ gsasReader p = .ok (full.take (10 * k)) := by
  set n := intensity.length with hn
  have hrec : ∀ r ∈ intensity.map (stdRec s), r.length = 8 := by
    intro r hr
    obtain ⟨i, hmem, rfl⟩ := List.mem_map.1 hr
    exact stdRec_length s i (hi i hmem).1 (hi i hmem).2
  have hrnl : ∀ r ∈ intensity.map (stdRec s), ∀ c ∈ r, c ≠ '\r' ∧ c ≠ '\n' := by
    intro r hr
    obtain ⟨i, _, rfl⟩ := List.mem_map.1 hr
    exact stdRec_noNl s i
  rw [fieldText 10 8 (by norm_num) (by norm_num) _ hrec (by simpa using hne)] at htext
  have hnl := chunk_noNl 10 8 (by norm_num) _ hrnl
  have hlen : ((chunks 10 (intensity.map (stdRec s))).map (fun c => padRight (10 * 8) c.flatten)).length = (n + 9) / 10 := by
    rw [List.length_map, chunks_length 10 (by norm_num), List.length_map]
  generalize (chunks 10 (intensity.map (stdRec s))).map (fun c => padRight (10 * 8) c.flatten) = data at *
  have hall : ∀ l ∈ padRight 80 title :: padRight 80 (bankLine n ((n + 9) / 10) t0 dt "STD".toList) :: data, ∀ c ∈ l, c ≠ '\r' ∧ c ≠ '\n' := by
    intro l hl
    rcases List.mem_cons.1 hl with rfl | hl
    · exact padRight_noNl _ _ ht
    · rcases List.mem_cons.1 hl with rfl | hl
      · exact bank_noNl _ _ _ _ _ (nonspace_lit _ (by decide))
      · exact hnl l hl
  have hrl : readLines text = (padRight 80 title ++ ['\n']) :: (padRight 80 (bankLine n ((n + 9) / 10) t0 dt "STD".toList) ++ ['\n']) :: data.map (· ++ ['\n']) := by
    rw [htext, ← joinCrLf_crlf _ (by simp), readLines_join _ (by simp) hall]
    rfl
  rw [reader_std _ _ _ _ _ _ _ hrl] at hfull
  have hDl : (data.map (· ++ ['\n'])).length = data.length := List.length_map _
  have e1 : (fieldsOf 8 10 (data.map (· ++ ['\n']))).zipIdx = (fieldsOf 8 10 ((data.map (· ++ ['\n'])).take k)).zipIdx ++ (fieldsOf 8 10 ((data.map (· ++ ['\n'])).drop k)).zipIdx (10 * k) := by
    conv_lhs => rw [← List.take_append_drop k (data.map (· ++ ['\n'])), fieldsOf_append, List.zipIdx_append, fieldsOf_length, List.length_take, min_eq_left (by omega)]
    rw [Nat.zero_add]
  rw [e1, mapPy_append] at hfull
  cases hx : mapPy (stdField (centi (some (fixed 5 t0))) (centi (dt.map (fixed 5))) (some (n : ℚ))) (fieldsOf 8 10 ((data.map (· ++ ['\n'])).take k)).zipIdx with
  | error e => rw [hx] at hfull; cases hfull
  | ok x =>
  rw [hx] at hfull
  simp only at hfull
  cases hy : mapPy (stdField (centi (some (fixed 5 t0))) (centi (dt.map (fixed 5))) (some (n : ℚ))) ((fieldsOf 8 10 ((data.map (· ++ ['\n'])).drop k)).zipIdx (10 * k)) with
  | error e => rw [hy] at hfull; cases hfull
  | ok y =>
  rw [hy] at hfull
  simp only at hfull
  injection hfull with hfull
  refine ⟨crlf (padRight 80 title :: padRight 80 (bankLine n ((n + 9) / 10) t0 dt "STD".toList) :: data.take k), ?_, ?_⟩
  · rw [htext]
    conv_rhs => rw [← List.take_append_drop k data]
    unfold crlf
    simp only [List.flatMap_cons, List.flatMap_append, ← List.append_assoc]
    exact List.prefix_append _ _
  · have hrp : readLines (crlf (padRight 80 title :: padRight 80 (bankLine n ((n + 9) / 10) t0 dt "STD".toList) :: data.take k)) =
        (padRight 80 title ++ ['\n']) :: (padRight 80 (bankLine n ((n + 9) / 10) t0 dt "STD".toList) ++ ['\n']) :: (data.map (· ++ ['\n'])).take k := by
      rw [← joinCrLf_crlf _ (by simp), readLines_join _ (by simp)]
      · simp [List.map_take]
      · intro l hl
        apply hall l
        rcases List.mem_cons.1 hl with h | hl
        · rw [h]; simp
        · rcases List.mem_cons.1 hl with h | hl
          · rw [h]; simp
          · exact List.mem_cons_of_mem _ (List.mem_cons_of_mem _ (List.mem_of_mem_take hl))
    rw [reader_std _ _ _ _ _ _ _ hrp, hx]
    simp only
    have c := std_count _ _ _ _ 0 _ hx
    rw [fieldsOf_length, List.length_take, hDl] at c
    rw [← hfull, List.filterMap_append, List.take_left']
    rw [c]
    omega

/-! ## C232, reading what a crash left -/

theorem target_of_path (join : Text → Text → Text) (existsDir : Text → Bool) (fs fs' : Fs) (dir : Option Text) (name ext path : Text)
    (hp : createFilePath join existsDir fs dir name ext = (.ok path, fs')) : path = Spec.target join dir name ext := by
  rw [pathSteps_run] at hp
  injection hp with h1 _
  have : pathSteps join existsDir fs dir name ext = (.ok path, (pathSteps join existsDir fs dir name ext).2) := by rw [← h1]
  exact (pathSteps_spec _ _ _ _ _ _ _ _ this).1

/-- What a crash leaves in place of the old file is a beginning of the new text. -/
theorem part_of_crash (g : ℚ → Text) (join : Text → Text → Text) (existsDir : Text → Bool) (fs fs' : Fs) (tth intensity : List ℚ) (name : Text) (mode : Option String)
    (err : Option (List ℚ)) (dir : Option Text) (path text part : Text) (hpath : path = Spec.target join dir name ".gsas".toList)
    (hw : (gsasWriter g join existsDir fs tth intensity name mode err dir).2 path = some text)
    (h : Spec.Crash (gsasSteps g join existsDir fs tth intensity name mode err dir).2 fs fs') (hpart : fs' path = some part) (hnew : fs path ≠ some part) : part <+: text := by
  obtain ⟨_, h1 | h1 | ⟨part', text', h1, h2, h3⟩⟩ := C232_gsas_partial g join existsDir fs fs' tth intensity name mode err dir h
  · rw [← hpath, hpart] at h1; exact absurd h1.symm hnew
  · rw [← hpath, hpart] at h1; cases h1
  · rw [← hpath, hpart] at h1
    rw [← hpath, hw] at h2
    injection h1 with h1
    injection h2 with h2
    rw [h1, h2]; exact h3

/-- Every beginning of the new text is left by some crash. -/
theorem crash_of_part (g : ℚ → Text) (join : Text → Text → Text) (existsDir : Text → Bool) (fs fs' : Fs) (tth intensity : List ℚ) (name : Text) (mode : Option String)
    (err : Option (List ℚ)) (dir : Option Text) (path part : Text) (lines : List Text) (hv : Spec.Valid tth intensity err)
    (hp : createFilePath join existsDir fs dir name ".gsas".toList = (.ok path, fs')) (hl : gsasLines g name tth intensity mode err = .ok lines) (hpart : part <+: joinCrLf lines) :
    ∃ fs'', Spec.Crash (gsasSteps g join existsDir fs tth intensity name mode err dir).2 fs fs'' ∧ fs'' path = some part := by
  rw [pathSteps_run] at hp
  injection hp with h1 _
  have hps : pathSteps join existsDir fs dir name ".gsas".toList = (.ok path, (pathSteps join existsDir fs dir name ".gsas".toList).2) := by rw [← h1]
  unfold gsasSteps
  rw [validate_ok tth intensity err hv, hps]
  simp only [hl]
  generalize (pathSteps join existsDir fs dir name ".gsas".toList).2 = st
  refine ⟨_, ⟨st ++ [.create path], [.write path (joinCrLf lines)], by simp, Or.inr ⟨path, _, part, [], rfl, hpart, rfl⟩⟩, ?_⟩
  rw [runSteps_append]
  simp [runSteps, Step.run]

/-- An STD file left by a crash.  `gsas_reader` raises an error only if the header lines (all of the text but 82 characters per ten points)
are incomplete.  Otherwise it returns the points of the first lines as they were written, the rest of at most ten points is not
guaranteed, and no more than the last incomplete line and what comes after it is lost. -/
theorem C232_std_partial (g : ℚ → Text) (join : Text → Text → Text) (existsDir : Text → Bool) (fs fs' : Fs) (tth intensity : List ℚ) (name : Text) (mode : Option String)
    (err : Option (List ℚ)) (dir : Option Text) (path : Text) (hv : Spec.Valid tth intensity err) (hm : err = none ∨ mode = some "STD")
    (hg : ∀ q, Spec.OneLine (g q)) (hn : Spec.OneLine name)
    (hp : createFilePath join existsDir fs dir name ".gsas".toList = (.ok path, fs')) :
    ∃ text full, (gsasWriter g join existsDir fs tth intensity name mode err dir).2 path = some text ∧ gsasReader text = .ok full ∧ full.length = intensity.length ∧
      ∀ fs'' part, Spec.Crash (gsasSteps g join existsDir fs tth intensity name mode err dir).2 fs fs'' → fs'' path = some part → fs path ≠ some part →
        ((∃ e, gsasReader part = .error e) ∧ part.length + 82 * ((intensity.length + 9) / 10) < text.length) ∨
        ∃ (m : ℕ) (c : List Point), gsasReader part = .ok (full.take (10 * m) ++ c) ∧ c.length ≤ 10 ∧ (full.take (10 * m) ++ c).length ≤ full.length ∧
          part.length + 82 * ((intensity.length + 9) / 10) ≤ text.length + 82 * m + 80 := by
  obtain ⟨s, hs, hs0, hs1, -, hfit, -, -⟩ := scaleOf_spec intensity hv.some_points hv.nonneg
  have hl := stdLines g name tth intensity mode err s hs hm
  obtain ⟨w1, w2⟩ := writer_ok g join existsDir fs fs' tth intensity name mode err dir path _ hv hp hl
  have hi : ∀ i ∈ intensity, 0 ≤ i * s ∧ i * s ≤ 999999 := fun i hi => ⟨mul_nonneg (hv.nonneg i hi) hs0.le, hfit i hi⟩
  have hr := read_std _ (tthHeader tth).1 (tthHeader tth).2 s intensity hv.some_points hi (title_oneLine _ _ (hg s) hn)
  refine ⟨_, _, w2, hr, by simp, ?_⟩
  intro fs'' part hc hpart hnew
  exact cut_std _ _ _ s intensity hv.some_points hi (title_oneLine _ _ (hg s) hn) _ _ rfl hr part
    (part_of_crash g join existsDir fs fs'' tth intensity name mode err dir path _ part (target_of_path _ _ _ _ _ _ _ _ hp) w2 hc hpart hnew)

/-- An ESD file left by a crash: the same with five points per line. -/
theorem C232_esd_partial (g : ℚ → Text) (join : Text → Text → Text) (existsDir : Text → Bool) (fs fs' : Fs) (tth intensity e : List ℚ) (name : Text)
    (dir : Option Text) (path : Text) (hv : Spec.Valid tth intensity (some e)) (hmax : ∀ a ∈ intensity, a ≤ 99999999) (he : ∀ a ∈ e, 0 ≤ a ∧ a ≤ 99999999)
    (hg : ∀ q, Spec.OneLine (g q)) (hn : Spec.OneLine name)
    (hp : createFilePath join existsDir fs dir name ".gsas".toList = (.ok path, fs')) :
    ∃ text full, (gsasWriter g join existsDir fs tth intensity name (some "ESD") (some e) dir).2 path = some text ∧ gsasReader text = .ok full ∧
      ∀ fs'' part, Spec.Crash (gsasSteps g join existsDir fs tth intensity name (some "ESD") (some e) dir).2 fs fs'' → fs'' path = some part → fs path ≠ some part →
        ((∃ e, gsasReader part = .error e) ∧ part.length + 82 * ((intensity.length + 4) / 5) < text.length) ∨
        ∃ (m : ℕ) (c : List Point), gsasReader part = .ok (full.take (5 * m) ++ c) ∧ c.length ≤ 5 ∧ (full.take (5 * m) ++ c).length ≤ full.length ∧
          part.length + 82 * ((intensity.length + 4) / 5) ≤ text.length + 82 * m + 80 := by
  obtain ⟨s, hs, hs0, hs1, -, hfit, -, -⟩ := scaleOf_spec intensity hv.some_points hv.nonneg
  have hl := esdLines g name tth intensity e s hs
  obtain ⟨w1, w2⟩ := writer_ok g join existsDir fs fs' tth intensity name (some "ESD") (some e) dir path _ hv hp hl
  have hlen := hv.err_len e rfl
  have hz : (intensity.zip e).length = intensity.length := by rw [List.length_zip, ← hlen, min_self]
  have hi : ∀ p ∈ intensity.zip e, 0 ≤ p.1 ∧ p.1 ≤ 99999999 ∧ 0 ≤ p.2 * s ∧ p.2 * s ≤ 99999999 := by
    intro p hp'
    obtain ⟨h1, h2⟩ := List.of_mem_zip hp'
    obtain ⟨h3, h4⟩ := he _ h2
    exact ⟨hv.nonneg _ h1, hmax _ h1, mul_nonneg h3 hs0.le, by nlinarith⟩
  have hne : intensity.zip e ≠ [] := by
    intro h
    rw [h] at hz
    exact hv.some_points (List.eq_nil_of_length_eq_zero hz.symm)
  have hr := read_esd _ (tthHeader tth).1 (tthHeader tth).2 s (intensity.zip e) hne hi (title_oneLine _ _ (hg s) hn)
  have hcut := fun text full htext hfull part hpart => cut_esd _ (tthHeader tth).1 (tthHeader tth).2 s (intensity.zip e) hne hi (title_oneLine _ _ (hg s) hn) text full htext hfull part hpart
  rw [hz] at hr hcut
  refine ⟨_, _, w2, hr, ?_⟩
  intro fs'' part hc hpart hnew
  exact hcut _ _ rfl hr part (part_of_crash g join existsDir fs fs'' tth intensity name _ _ dir path _ part (target_of_path _ _ _ _ _ _ _ _ hp) w2 hc hpart hnew)

/-- The reader does not notice the loss: whenever an STD file needs more than one line of ten points, a crash after any whole number of lines leaves
a file that `gsas_reader` reads without complaint as a shorter pattern, though the header states the number of points. -/
theorem C232_unnoticed_refuted (g : ℚ → Text) (join : Text → Text → Text) (existsDir : Text → Bool) (fs fs' : Fs) (tth intensity : List ℚ) (name : Text) (mode : Option String)
    (err : Option (List ℚ)) (dir : Option Text) (path : Text) (hv : Spec.Valid tth intensity err) (hm : err = none ∨ mode = some "STD")
    (hg : ∀ q, Spec.OneLine (g q)) (hn : Spec.OneLine name)
    (hp : createFilePath join existsDir fs dir name ".gsas".toList = (.ok path, fs')) (k : ℕ) (hk : 10 * k < intensity.length) :
    ∃ text full, (gsasWriter g join existsDir fs tth intensity name mode err dir).2 path = some text ∧ gsasReader text = .ok full ∧ full.length = intensity.length ∧
      ∃ fs'' part, Spec.Crash (gsasSteps g join existsDir fs tth intensity name mode err dir).2 fs fs'' ∧ fs'' path = some part ∧ gsasReader part = .ok (full.take (10 * k)) := by
  obtain ⟨s, hs, hs0, hs1, -, hfit, -, -⟩ := scaleOf_spec intensity hv.some_points hv.nonneg
  have hl := stdLines g name tth intensity mode err s hs hm
  obtain ⟨w1, w2⟩ := writer_ok g join existsDir fs fs' tth intensity name mode err dir path _ hv hp hl
  have hi : ∀ i ∈ intensity, 0 ≤ i * s ∧ i * s ≤ 999999 := fun i hi => ⟨mul_nonneg (hv.nonneg i hi) hs0.le, hfit i hi⟩
  have ht := title_oneLine (g s) name (hg s) hn
  have hr := read_std _ (tthHeader tth).1 (tthHeader tth).2 s intensity hv.some_points hi ht
  refine ⟨_, _, w2, hr, by simp, ?_⟩
  suffices h : ∃ part, part <+: joinCrLf (padLast ([padRight 80 (("Angular Profile".toList ++ ": ".toList ++ name ++ " scale=".toList ++ g s).take 80),
      padRight 80 (bankLine intensity.length ((intensity.length + 9) / 10) (tthHeader tth).1 (tthHeader tth).2 "STD".toList)] ++ (chunks 10 (intensity.map (stdRec s))).map List.flatten)) ∧
      gsasReader part = .ok (((List.range intensity.length).map (Spec.stdPoint (centi (some (fixed 5 (tthHeader tth).1))) (centi ((tthHeader tth).2.map (fixed 5))) (fun j => fixed 0 (intensity.getD j 0 * s)))).take (10 * k)) by
    obtain ⟨part, h1, h2⟩ := h
    obtain ⟨fs'', h3, h4⟩ := crash_of_part g join existsDir fs fs' tth intensity name mode err dir path part _ hv hp hl h1
    exact ⟨fs'', part, h3, h4, h2⟩
  exact whole_std _ _ _ s intensity hv.some_points hi ht _ _ rfl hr k hk

/-- Worse, a number can be read wrong: whenever the last intensity of an STD file is at least one after scaling and rounding, a crash can leave a
file from which `gsas_reader` returns the full number of points, all but the last as written, and the last intensity a tenth of what it was
(without the fraction). -/
theorem C232_wrong_value_refuted (g : ℚ → Text) (join : Text → Text → Text) (existsDir : Text → Bool) (fs fs' : Fs) (tth init : List ℚ) (a : ℚ) (name : Text) (mode : Option String)
    (err : Option (List ℚ)) (dir : Option Text) (path : Text) (hv : Spec.Valid tth (init ++ [a]) err) (hm : err = none ∨ mode = some "STD")
    (hg : ∀ q, Spec.OneLine (g q)) (hn : Spec.OneLine name)
    (hp : createFilePath join existsDir fs dir name ".gsas".toList = (.ok path, fs')) :
    ∃ text pre x w w', ∃ v : ℕ, (gsasWriter g join existsDir fs tth (init ++ [a]) name mode err dir).2 path = some text ∧ gsasReader text = .ok (pre ++ [(x, some (v : ℚ), w)]) ∧
      ∃ fs'' part, Spec.Crash (gsasSteps g join existsDir fs tth (init ++ [a]) name mode err dir).2 fs fs'' ∧ fs'' path = some part ∧
        gsasReader part = .ok (pre ++ [(x, some ((v / 10 : ℕ) : ℚ), w')]) ∧ (1 ≤ v → v / 10 ≠ v) := by
  obtain ⟨s, hs, hs0, hs1, -, hfit, -, -⟩ := scaleOf_spec (init ++ [a]) hv.some_points hv.nonneg
  have hl := stdLines g name tth (init ++ [a]) mode err s hs hm
  obtain ⟨w1, w2⟩ := writer_ok g join existsDir fs fs' tth (init ++ [a]) name mode err dir path _ hv hp hl
  have hi : ∀ i ∈ init ++ [a], 0 ≤ i * s ∧ i * s ≤ 999999 := fun i hi => ⟨mul_nonneg (hv.nonneg i hi) hs0.le, hfit i hi⟩
  have ht := title_oneLine (g s) name (hg s) hn
  have hr := read_std _ (tthHeader tth).1 (tthHeader tth).2 s (init ++ [a]) hv.some_points hi ht
  obtain ⟨part, h1, h2⟩ := stop_std _ (tthHeader tth).1 (tthHeader tth).2 s init a hi ht _ rfl
  obtain ⟨fs'', h3, h4⟩ := crash_of_part g join existsDir fs fs' tth (init ++ [a]) name mode err dir path part _ hv hp hl h1
  have hlen : (init ++ [a]).length = init.length + 1 := by simp
  have h0 := (hi a (by simp)).1
  have hva : fixed 0 ((init ++ [a]).getD init.length 0 * s) = (((roundEven (a * s)).toNat : ℕ) : ℚ) := by
    have hz : (init ++ [a]).getD init.length 0 = a := by rw [List.getD_eq_getElem?_getD]; simp
    have h5 : (((roundEven (a * s)).toNat : ℤ) : ℚ) = ((roundEven (a * s) : ℤ) : ℚ) := by rw [Int.toNat_of_nonneg (roundEven_nonneg _ h0)]
    rw [hz]
    unfold fixed
    rw [pow_zero, mul_one, div_one, ← h5, Int.cast_natCast]
  have hpre : (List.range init.length).map (Spec.stdPoint (centi (some (fixed 5 (tthHeader tth).1))) (centi ((tthHeader tth).2.map (fixed 5))) (fun j => fixed 0 ((init ++ [a]).getD j 0 * s))) =
      (List.range init.length).map (Spec.stdPoint (centi (some (fixed 5 (tthHeader tth).1))) (centi ((tthHeader tth).2.map (fixed 5)))
        (fun j => if j < init.length then fixed 0 (init.getD j 0 * s) else (((roundEven (a * s)).toNat / 10 : ℕ) : ℚ))) := by
    apply List.map_congr_left
    intro j hj
    have hj := List.mem_range.1 hj
    have : (init ++ [a]).getD j 0 = init.getD j 0 := by
      rw [List.getD_eq_getElem?_getD, List.getD_eq_getElem?_getD, List.getElem?_append_left hj]
    unfold Spec.stdPoint
    simp only [this, if_pos hj]
  have hr' : ∀ (t : Text) (y : ℕ → ℚ), gsasReader t = .ok ((List.range (init ++ [a]).length).map (Spec.stdPoint (centi (some (fixed 5 (tthHeader tth).1))) (centi ((tthHeader tth).2.map (fixed 5))) y)) →
      gsasReader t = .ok ((List.range init.length).map (Spec.stdPoint (centi (some (fixed 5 (tthHeader tth).1))) (centi ((tthHeader tth).2.map (fixed 5))) y) ++
        [(xAt (centi (some (fixed 5 (tthHeader tth).1))) (centi ((tthHeader tth).2.map (fixed 5))) init.length, some (y init.length), some (if y init.length = 0 then 0 else 1 / y init.length))]) := by
    intro t y h
    rw [h, hlen, List.range_succ, List.map_append]
    rfl
  have k1 := hr' _ _ hr
  have k2 := hr' _ _ h2
  rw [← hpre] at k2
  simp only [lt_irrefl, if_false] at k2
  simp only [hva] at k1
  exact ⟨_, _, _, _, _, (roundEven (a * s)).toNat, w2, k1, fs'', part, h3, h4, k2, by omega⟩

theorem fmtF10_length (w : ℕ) (hw : 20 ≤ w) (q : ℚ) (hq : |q| ≤ 99999999) : (fmtF w 10 (some q)).length = w := by
  unfold fmtF padLeft
  simp only [List.length_append, List.length_replicate]
  have : (fmtFixed 10 q).length ≤ 20 := by
    have h0 := abs_nonneg q
    have h1 : roundEven (|q| * 10 ^ 10) ≤ 99999999 * 10 ^ 10 := roundEven_le _ _ (by push_cast; nlinarith)
    have h2 := roundEven_nonneg (|q| * 10 ^ 10) (by positivity)
    have h4 : (roundEven (|q| * 10 ^ 10)).toNat / 10 ^ 10 < 10 ^ 8 := by omega
    have h5 := digits_length 8 _ (by norm_num) h4
    unfold fmtFixed
    simp only [List.length_append, if_neg (show ¬ (10 = 0) by norm_num), List.length_cons, padNat_length]
    have h6 : (if q < 0 then ['-'] else ([] : Text)).length ≤ 1 := by split <;> simp
    omega
  omega

theorem fxyeRec_length (s x y e : ℚ) (b1 : |x * s| ≤ 99999999) (b2 : |y * s| ≤ 99999999) (b3 : |e * s| ≤ 99999999) : (padRight 80 (fxyeRec s x y e)).length = 80 := by
  have h1 := fmtF10_length 22 (by norm_num) _ b1
  have h2 := fmtF10_length 22 (by norm_num) _ b2
  have h3 := fmtF10_length 24 (by norm_num) _ b3
  unfold padRight fxyeRec
  rw [List.length_append, List.length_replicate, List.length_append, List.length_append, h1, h2, h3]

theorem fxyeRec_noNl (s x y e : ℚ) : ∀ c ∈ padRight 80 (fxyeRec s x y e), c ≠ '\r' ∧ c ≠ '\n' := by
  apply padRight_noNl
  intro c hc
  unfold fxyeRec at hc
  rcases List.mem_append.1 hc with h | h
  · rcases List.mem_append.1 h with h | h
    · exact fmtF_noNl _ _ _ c h
    · exact fmtF_noNl _ _ _ c h
  · exact fmtF_noNl _ _ _ c h

/-- An FXYE file left by a crash: the same with one point per line, except that the reader may raise an error at any place. -/
theorem C232_fxye_partial (g : ℚ → Text) (join : Text → Text → Text) (existsDir : Text → Bool) (fs fs' : Fs) (tth intensity e : List ℚ) (name : Text)
    (dir : Option Text) (path : Text) (hv : Spec.Valid tth intensity (some e)) (hx : ∀ a ∈ tth, |a| ≤ 99999999) (he : ∀ a ∈ e, 0 ≤ a ∧ a ≤ 99999999)
    (hg : ∀ q, Spec.OneLine (g q)) (hn : Spec.OneLine name)
    (hp : createFilePath join existsDir fs dir name ".gsas".toList = (.ok path, fs')) :
    ∃ text full, (gsasWriter g join existsDir fs tth intensity name (some "FXYE") (some e) dir).2 path = some text ∧ gsasReader text = .ok full ∧ full.length = intensity.length ∧
      ∀ fs'' part, Spec.Crash (gsasSteps g join existsDir fs tth intensity name (some "FXYE") (some e) dir).2 fs fs'' → fs'' path = some part → fs path ≠ some part →
        (∃ e, gsasReader part = .error e) ∨
        ∃ (m : ℕ) (c : List Point), gsasReader part = .ok (full.take m ++ c) ∧ c.length ≤ 1 ∧ (full.take m ++ c).length ≤ full.length ∧
          part.length + 82 * intensity.length ≤ text.length + 82 * m + 80 := by
  obtain ⟨text, full, ht, hf, hflen, -⟩ := C123_fxye_partial g join existsDir fs fs' tth intensity e name dir path hv he hg hn hp
  obtain ⟨s, hs, hs0, hs1, -, hfit, -, -⟩ := scaleOf_spec intensity hv.some_points hv.nonneg
  obtain ⟨w1, w2⟩ := writer_ok g join existsDir fs fs' tth intensity name (some "FXYE") (some e) dir path _ hv hp (fxyeLines g name tth intensity e s hs)
  refine ⟨text, full, ht, hf, hflen, ?_⟩
  intro fs'' part hc hpart hnew
  have hpre := part_of_crash g join existsDir fs fs'' tth intensity name _ _ dir path _ part (target_of_path _ _ _ _ _ _ _ _ hp) ht hc hpart hnew
  rw [w2] at ht
  injection ht with ht
  have hlen := hv.err_len e rfl
  have hlen2 := hv.tth_len
  have hz : ((tth.zip (intensity.zip e)).map (fun p => padRight 80 (fxyeRec s p.1 p.2.1 p.2.2))).length = intensity.length := by
    rw [List.length_map, List.length_zip, List.length_zip, ← hlen, min_self, hlen2, min_self]
  have hpad : ∀ l ∈ (tth.zip (intensity.zip e)).map (fun p => padRight 80 (fxyeRec s p.1 p.2.1 p.2.2)), padRight 80 l = l := by
    intro l hl
    obtain ⟨p, _, rfl⟩ := List.mem_map.1 hl
    exact padRight_idem _ _
  have hnl : ∀ l ∈ (tth.zip (intensity.zip e)).map (fun p => padRight 80 (fxyeRec s p.1 p.2.1 p.2.2)), ∀ c ∈ l, c ≠ '\r' ∧ c ≠ '\n' := by
    intro l hl
    obtain ⟨p, _, rfl⟩ := List.mem_map.1 hl
    exact fxyeRec_noNl _ _ _ _
  have h80 : ∀ l ∈ (tth.zip (intensity.zip e)).map (fun p => padRight 80 (fxyeRec s p.1 p.2.1 p.2.2)), l.length = 80 := by
    intro l hl
    obtain ⟨p, hp', rfl⟩ := List.mem_map.1 hl
    obtain ⟨h1, h2⟩ := List.of_mem_zip hp'
    obtain ⟨h3, h4⟩ := List.of_mem_zip h2
    obtain ⟨h5, h6⟩ := he _ h4
    apply fxyeRec_length
    · rw [abs_mul, abs_of_pos hs0]
      have := hx _ h1
      have := abs_nonneg p.1
      nlinarith
    · rw [abs_of_nonneg (mul_nonneg (hv.nonneg _ h3) hs0.le)]
      linarith [hfit _ h3]
    · rw [abs_of_nonneg (mul_nonneg h5 hs0.le)]
      nlinarith
  have htl := title_oneLine (g s) name (hg s) hn
  clear w1 w2 hc hpart hnew
  generalize (tth.zip (intensity.zip e)).map (fun p => padRight 80 (fxyeRec s p.1 p.2.1 p.2.2)) = data at *
  generalize ("Angular Profile".toList ++ ": ".toList ++ name ++ " scale=".toList ++ g s).take 80 = title at *
  generalize tthHeader tth = th at *
  rw [padLast_id _ ?_, joinCrLf_crlf _ (by simp)] at ht
  · have := cut_fxye title intensity.length th.1 th.2 data htl hnl h80 text full ht.symm hf part hpre
    rw [hz] at this
    exact this
  · intro a ha
    rcases List.mem_append.1 ha with h | h
    · rcases List.mem_cons.1 h with rfl | h
      · exact padRight_idem _ _
      · rw [List.mem_singleton.1 h]; exact padRight_idem _ _
    · exact hpad a h

/-- The hypotheses are met: twelve points in STD mode over an existing file. -/
example : let I : List ℚ := [4, 5, 0, 7, 8, 9, 1, 2, 3, 4, 55, 1234]
    Spec.Valid (List.replicate 12 1) I none ∧ (∀ q, Spec.OneLine ((fun _ => "1".toList : ℚ → Text) q)) ∧ Spec.OneLine "x".toList ∧ 10 * 1 < I.length ∧
    createFilePath (· ++ ·) (fun _ => true) (fun p => if p = "x.gsas".toList then some "old".toList else none) none "x".toList ".gsas".toList = (.ok "x.gsas".toList, fun p => if p = "x.gsas".toList then none else if p = "x.gsas".toList then some "old".toList else none) := by
  refine ⟨⟨by decide, by decide, by decide +kernel, by simp⟩, ?_, ?_, by decide, ?_⟩
  · intro q
    show ∀ c ∈ "1".toList, _
    decide
  · show ∀ c ∈ "x".toList, _
    decide
  · rfl

/-- The hypotheses of the ESD and FXYE parts are met. -/
example : Spec.Valid [1, 2, 3] [4, 5, 1234567] (some [1, 2, 3]) ∧ (∀ a ∈ ([4, 5, 1234567] : List ℚ), a ≤ 99999999) ∧ (∀ a ∈ ([1, 2, 3] : List ℚ), 0 ≤ a ∧ a ≤ 99999999) := by
  refine ⟨⟨by decide, by decide, by decide +kernel, by simp⟩, by decide +kernel, by decide +kernel⟩

end Verif.Io
