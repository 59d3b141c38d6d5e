/- C251: what `skbeam.__version__` says (skbeam/__init__.py 45, skbeam/_version.py).  Strings are lists of characters. -/
import Verif.Np
import Mathlib.Data.Nat.Digits.Defs
import Mathlib.Data.List.Sort
import Mathlib.Data.List.Lex
import Mathlib.Tactic.IntervalCases

namespace Verif.Version
open Verif

abbrev Str := List Char

/-! ### Model -/

/-- `"%d" % n` of a whole number. -/
def dec (n : ℕ) : Str := if n = 0 then ['0'] else ((Nat.digits 10 n).map (fun d => Char.ofNat (48 + d))).reverse

/-- `int(s)` of a string of the digits 0-9. -/
def parseInt (s : Str) : ℕ := s.foldl (fun a c => 10 * a + (c.toNat - 48)) 0

/-- `s.strip()` for the characters of `p` (for blanks: the ASCII blanks of `Char.isWhitespace`). -/
def stripIf (p : Char → Bool) (s : Str) : Str := ((s.dropWhile p).reverse.dropWhile p).reverse

/-- The part before and the part after the last hyphen. -/
def splitLast (s : Str) : Option (Str × Str) :=
  let r := s.reverse
  match r.dropWhile (· ≠ '-') with
  | [] => none
  | _ :: t => some (t.reverse, (r.takeWhile (· ≠ '-')).reverse)

/-- A digit of [0-9a-f]. -/
def isHex (c : Char) : Bool := c.isDigit || (decide ('a' ≤ c) && decide (c ≤ 'f'))

/-- `s.split(",")`. -/
def splitComma : Str → List Str
  | [] => [[]]
  | c :: t =>
    if c = ',' then [] :: splitComma t
    else match splitComma t with
      | [] => [[c]]
      | h :: r => (c :: h) :: r

/-- `re.search(r"^(.+)-(\d+)-g([0-9a-f]+)$", s)`, _version.py 225: the last two groups contain no hyphen, so they stand behind the last two
hyphens.  `\d` is taken for the digits 0-9, `.` for any character (the output of git describe is one line). -/
def parseDescribe (s : Str) : Option (Str × Str × Str) := do
  let (a1, g) ← splitLast s
  let (a, n) ← splitLast a1
  match g with
  | 'g' :: h => if a ≠ [] ∧ n ≠ [] ∧ n.all Char.isDigit ∧ h ≠ [] ∧ h.all isHex then some (a, n, h) else none
  | _ => none

/-- What is read of the surroundings: the keywords expanded by git archive (_version.py 17-24), whether the root directory has an entry .git, what
`run_command` returns for the three git commands (None if one fails; it strips the output), and the name of the root directory. -/
structure Env where
  refnames : Str
  full : Str
  gitDir : Bool
  describe : Option Str
  head : Option Str
  count : Option ℕ
  dirname : Str

/-- The dictionary returned by `get_versions`; the texts of the error messages are left out. -/
structure Info where
  version : Str
  full : Option Str
  dirty : Option Bool
  error : Bool
deriving DecidableEq

/-- `pieces` without error: closest-tag, distance, short, dirty. -/
structure Pieces where
  tag : Option Str
  distance : ℕ
  short : Str
  dirty : Bool

/-- _version.py 38. -/
def tagPrefix : Str := ['v']

/-- `git_versions_from_keywords`, _version.py 135-176; `none` is NotThisMethod.  The sets are lists here: only the first match is used. -/
def fromKeywords (refnames0 full0 : Str) : Option Info :=
  let refnames := stripIf Char.isWhitespace refnames0
  if "$Format".toList.isPrefixOf refnames then none
  else
    let refs := (splitComma (stripIf (fun c => c == '(' || c == ')') refnames)).map (stripIf Char.isWhitespace)
    let tags0 := (refs.filter (fun r => "tag: ".toList.isPrefixOf r)).map (fun r => r.drop 5)
    let tags := if tags0 = [] then refs.filter (fun r => r.any Char.isDigit) else tags0
    match (tags.insertionSort (· ≤ ·)).find? (fun r => tagPrefix.isPrefixOf r) with
    | some r => some ⟨r.drop tagPrefix.length, some (stripIf Char.isWhitespace full0), some false, false⟩
    | none => some ⟨"0+unknown".toList, some (stripIf Char.isWhitespace full0), some false, true⟩

/-- `git_pieces_from_vcs`, _version.py 180-253.  Outer `none`: NotThisMethod; `.ok none`: pieces["error"] is set; the TypeError is `int(None)`. -/
def fromVcs (env : Env) : Option (Py (Option Pieces)) :=
  if env.gitDir = false then none
  else match env.describe, env.head with
  | none, _ => none
  | _, none => none
  | some d, some full =>
    let dirty := "-dirty".toList.isSuffixOf d
    let d := if dirty then d.take (d.length - 6) else d
    if d.contains '-' then
      match parseDescribe d with
      | none => some (.ok none)
      | some (a, n, h) => if tagPrefix.isPrefixOf a then some (.ok (some ⟨some (a.drop tagPrefix.length), parseInt n, h, dirty⟩)) else some (.ok none)
    else match env.count with
      | none => some (.error .typeError)
      | some n => some (.ok (some ⟨none, n, full.take 7, dirty⟩))

/-- `plus_or_dot`, _version.py 256-259. -/
def plusOrDot (tag : Str) : Str := if tag.contains '+' then ['.'] else ['+']

/-- `render_pep440_post`, _version.py 301-324. -/
def renderPost (p : Pieces) : Str :=
  match p.tag with
  | some (c :: t) =>
    if p.distance ≠ 0 ∨ p.dirty then
      (c :: t) ++ ".post".toList ++ dec p.distance ++ (if p.dirty then ".dev0".toList else []) ++ plusOrDot (c :: t) ++ 'g' :: p.short
    else c :: t
  | _ => "0.post".toList ++ dec p.distance ++ (if p.dirty then ".dev0".toList else []) ++ "+g".toList ++ p.short

/-- `versions_from_parentdir`, _version.py 96-107, with the configured prefix "None". -/
def fromParent (dirname : Str) : Option Info :=
  if "None".toList.isPrefixOf dirname then some ⟨dirname.drop 4, none, some false, false⟩ else none

/-- `get_versions`, _version.py 414-455, with `render` (384-411) in the configured style pep440-post; `__file__` is defined. -/
def getVersions (env : Env) : Py Info :=
  match fromKeywords env.refnames env.full with
  | some i => .ok i
  | none =>
    match fromVcs env with
    | some (.error e) => .error e
    | some (.ok none) => .ok ⟨"unknown".toList, env.head, none, true⟩
    | some (.ok (some p)) => .ok ⟨renderPost p, env.head, some p.dirty, false⟩
    | none =>
      match fromParent env.dirname with
      | some i => .ok i
      | none => .ok ⟨"0+unknown".toList, none, none, true⟩

/-! ### Specification -/

/-- A state of the working copy as `git describe --tags --dirty --always --long` sees it: the closest tag if any, the number of commits since (or in all),
the abbreviated commit number, and whether tracked files are changed. -/
structure Spec.State where
  tag : Option Str
  distance : ℕ
  hex : Str
  dirty : Bool

/-- TAG-NUM-gHEX, or HEX without a tag. -/
def Spec.commit (n : ℕ) (hex : Str) : Option Str → Str
  | some t => t ++ '-' :: dec n ++ "-g".toList ++ hex
  | none => hex

/-- The output of git describe: TAG-NUM-gHEX[-dirty] or HEX[-dirty]. -/
def Spec.State.describe (s : Spec.State) : Str := Spec.commit s.distance s.hex s.tag ++ (if s.dirty then "-dirty".toList else [])

/-- A commit number as git abbreviates it. -/
def Spec.State.Good (s : Spec.State) (full : Str) : Prop := s.hex ≠ [] ∧ (∀ c ∈ s.hex, isHex c) ∧ (s.tag = none → s.hex = full.take 7)

/-- A checked-out source tree in state s. -/
def Spec.Checkout (env : Env) (s : Spec.State) (full : Str) : Prop :=
  env.refnames = "$Format:%d$".toList ∧ env.gitDir = true ∧ env.describe = some s.describe ∧ env.head = some full ∧
    (s.tag = none → env.count = some s.distance) ∧ s.Good full

/-- The version documented for the style pep440-post: TAG[.postDISTANCE[.dev0]+gHEX], with the tag 0 if there is none. -/
def Spec.version (tag : Str) (distance : ℕ) (hex : Str) (dirty : Bool) : Str :=
  tag ++ ".post".toList ++ dec distance ++ (if dirty then ".dev0".toList else []) ++ "+g".toList ++ hex

/-- The refs of a commit as git archive writes them for %d. -/
def Spec.decorate : List Str → Str
  | [] => []
  | r :: rest => " (".toList ++ r ++ rest.flatMap (fun q => ", ".toList ++ q) ++ [')']

/-- A name without blanks, commas or parentheses at its ends, and without commas. -/
def Spec.Name (r : Str) : Prop := r ≠ [] ∧ ',' ∉ r ∧ (∀ c, r.head? = some c ∨ r.getLast? = some c → c.isWhitespace = false ∧ c ≠ '(' ∧ c ≠ ')')

/-! ### Lists of characters -/

theorem split_unique (p : Char → Prop) (A A' : Str) (b b' : Char) (B B' : Str) (hA : ∀ c ∈ A, p c) (hA' : ∀ c ∈ A', p c) (hb : ¬ p b) (hb' : ¬ p b')
    (h : A ++ b :: B = A' ++ b' :: B') : A = A' ∧ b = b' ∧ B = B' := by
  induction A generalizing A' with
  | nil =>
    cases A' with
    | nil => simpa using h
    | cons c t =>
      simp only [List.nil_append, List.cons_append, List.cons.injEq] at h
      exact absurd (hA' c (by simp)) (h.1 ▸ hb)
  | cons c t ih =>
    cases A' with
    | nil =>
      simp only [List.nil_append, List.cons_append, List.cons.injEq] at h
      exact absurd (hA c (by simp)) (h.1 ▸ hb')
    | cons c' t' =>
      simp only [List.cons_append, List.cons.injEq] at h
      obtain ⟨rfl, h⟩ := h
      obtain ⟨rfl, h2⟩ := ih t' (fun x hx => hA x (by simp [hx])) (fun x hx => hA' x (by simp [hx])) h
      exact ⟨rfl, h2⟩

theorem digit_toNat (d : ℕ) (hd : d < 10) : (Char.ofNat (48 + d)).toNat - 48 = d ∧ (Char.ofNat (48 + d)).isDigit = true := by
  interval_cases d <;> decide

theorem parseInt_rev (l : List ℕ) (hl : ∀ d ∈ l, d < 10) : parseInt ((l.map (fun d => Char.ofNat (48 + d))).reverse) = Nat.ofDigits 10 l := by
  unfold parseInt
  induction l with
  | nil => rfl
  | cons d t ih =>
    rw [List.map_cons, List.reverse_cons, List.foldl_append, ih (fun x hx => hl x (by simp [hx]))]
    simp only [List.foldl_cons, List.foldl_nil, (digit_toNat d (hl d (by simp))).1, Nat.ofDigits_cons]
    omega

theorem parseInt_dec (n : ℕ) : parseInt (dec n) = n := by
  unfold dec
  split_ifs with h
  · subst h; rfl
  · rw [parseInt_rev _ (fun d hd => Nat.digits_lt_base (by norm_num) hd), Nat.ofDigits_digits]

theorem dec_digits (n : ℕ) : ∀ c ∈ dec n, c.isDigit = true := by
  unfold dec
  split_ifs with h
  · decide
  · intro c hc
    rw [List.mem_reverse, List.mem_map] at hc
    obtain ⟨d, hd, rfl⟩ := hc
    exact (digit_toNat d (Nat.digits_lt_base (by norm_num) hd)).2

theorem dec_ne (n : ℕ) : dec n ≠ [] := by
  unfold dec
  split_ifs with h
  · simp
  · simp [Nat.digits_ne_nil_iff_ne_zero.2 h]

theorem dec_inj {n m : ℕ} (h : dec n = dec m) : n = m := by rw [← parseInt_dec n, h, parseInt_dec]

theorem digit_ne {c : Char} (h : c.isDigit = true) (x : Char) (hx : x.isDigit = false) : c ≠ x := by
  rintro rfl
  rw [h] at hx
  exact absurd hx (by simp)

theorem hex_ne {c : Char} (h : isHex c = true) (x : Char) (hx : isHex x = false) : c ≠ x := by
  rintro rfl
  rw [h] at hx
  exact absurd hx (by simp)

theorem splitLast_eq (a b : Str) (hb : '-' ∉ b) : splitLast (a ++ '-' :: b) = some (a, b) := by
  have hb' : ∀ c ∈ b.reverse, decide (c ≠ '-') = true := by
    intro c hc
    rw [List.mem_reverse] at hc
    simp only [ne_eq, decide_eq_true_eq]
    rintro rfl
    exact hb hc
  unfold splitLast
  simp only [List.reverse_append, List.reverse_cons, List.append_assoc, List.singleton_append]
  rw [List.dropWhile_append_of_pos hb', List.takeWhile_append_of_pos hb']
  simp

theorem parse_spec (t h : Str) (n : ℕ) (ht : t ≠ []) (hh : h ≠ []) (hx : ∀ c ∈ h, isHex c = true) :
    parseDescribe (t ++ '-' :: dec n ++ "-g".toList ++ h) = some (t, dec n, h) := by
  have e : t ++ '-' :: dec n ++ "-g".toList ++ h = (t ++ '-' :: dec n) ++ '-' :: ('g' :: h) := by simp
  have n1 : '-' ∉ 'g' :: h := by
    intro hc
    rcases List.mem_cons.1 hc with hc | hc
    · exact absurd hc (by decide)
    · exact hex_ne (hx _ hc) '-' (by decide) rfl
  have n2 : '-' ∉ dec n := fun hc => digit_ne (dec_digits n _ hc) '-' (by decide) rfl
  unfold parseDescribe
  rw [e, splitLast_eq _ _ n1]
  simp only [Option.bind_eq_bind, Option.bind_some]
  rw [splitLast_eq _ _ n2]
  simp only [Option.bind_some]
  rw [if_pos ⟨ht, dec_ne n, List.all_eq_true.2 (dec_digits n), hh, List.all_eq_true.2 hx⟩]

theorem not_dirty (a h : Str) (hh : h ≠ []) (hx : ∀ c ∈ h, isHex c = true) : "-dirty".toList.isSuffixOf (a ++ h) = false := by
  rw [Bool.eq_false_iff, ne_eq, List.isSuffixOf_iff_suffix]
  intro hs
  have h1 : (a ++ h).getLast? = some 'y' := by
    obtain ⟨u, hu⟩ := hs
    rw [← hu]
    simp
  rw [List.getLast?_append_of_ne_nil _ hh] at h1
  exact hex_ne (hx 'y' (List.mem_of_getLast? h1)) 'y' (by decide) rfl

theorem is_dirty (a : Str) : "-dirty".toList.isSuffixOf (a ++ "-dirty".toList) = true ∧ (a ++ "-dirty".toList).take ((a ++ "-dirty".toList).length - 6) = a := by
  refine ⟨List.isSuffixOf_iff_suffix.2 (List.suffix_append _ _), ?_⟩
  have : (a ++ "-dirty".toList).length - 6 = a.length := by simp
  rw [this, List.take_left]

/-! ### A checked-out source tree -/

theorem unexpanded (full : Str) : fromKeywords "$Format:%d$".toList full = none := by
  unfold fromKeywords
  have : "$Format".toList.isPrefixOf (stripIf Char.isWhitespace "$Format:%d$".toList) = true := by decide +kernel
  simp only [this, if_true]

theorem vcs_spec (env : Env) (s : Spec.State) (full : Str) (h : Spec.Checkout env s full) (ht : ∀ t, s.tag = some t → t ≠ []) :
    fromVcs env = match s.tag with
      | some t => if tagPrefix.isPrefixOf t then some (.ok (some ⟨some (t.drop 1), s.distance, s.hex, s.dirty⟩)) else some (.ok none)
      | none => some (.ok (some ⟨none, s.distance, s.hex, s.dirty⟩)) := by
  obtain ⟨-, h2, h3, h4, h5, h6, h7, h8⟩ := h
  unfold fromVcs
  rw [h2, h3, h4]
  simp only [Bool.true_eq_false, if_false]
  obtain ⟨tag, dist, hex, dirty⟩ := s
  simp only at h5 h6 h7 h8 ht ⊢
  obtain ⟨d, hd⟩ : ∃ d : Str, d = Spec.commit dist hex tag := ⟨_, rfl⟩
  have hdesc : (⟨tag, dist, hex, dirty⟩ : Spec.State).describe = d ++ (if dirty then "-dirty".toList else []) := by
    rw [hd]
    rfl
  have hdirt : "-dirty".toList.isSuffixOf (d ++ (if dirty then "-dirty".toList else [])) = dirty ∧
      (if dirty = true then (d ++ (if dirty then "-dirty".toList else [])).take ((d ++ (if dirty then "-dirty".toList else [])).length - 6)
        else d ++ (if dirty then "-dirty".toList else [])) = d := by
    cases dirty with
    | true =>
      simp only [if_true]
      exact is_dirty d
    | false =>
      simp only [Bool.false_eq_true, if_false, List.append_nil]
      refine ⟨?_, trivial⟩
      rw [hd]
      cases tag with
      | none => exact not_dirty [] hex h6 h7
      | some t => exact not_dirty _ hex h6 h7
  rw [hdesc, hdirt.1, hdirt.2]
  cases tag with
  | none =>
    have : d.contains '-' = false := by
      rw [hd, Bool.eq_false_iff, ne_eq, List.contains_iff_mem]
      exact fun hc => hex_ne (h7 _ hc) '-' (by decide) rfl
    rw [this]
    simp only [Bool.false_eq_true, if_false]
    rw [h5 rfl, ← h8 rfl]
  | some t =>
    have : d.contains '-' = true := by
      rw [hd, List.contains_iff_mem]
      simp [Spec.commit]
    rw [this, hd]
    simp only [if_true, Spec.commit]
    rw [parse_spec t hex dist (ht t rfl) h6 h7]
    simp only [parseInt_dec]
    rfl

/-- C251: the version of a source tree checked out n commits after the tag v1.2 (any tag, hyphens included): 1.2 at the tag itself, and 1.2.postN[.dev0]+gHEX
otherwise or with changed files. -/
theorem C251_checkout (env : Env) (t : Str) (n : ℕ) (hex full : Str) (dirty : Bool) (ht : t ≠ [])
    (h : Spec.Checkout env ⟨some ('v' :: t), n, hex, dirty⟩ full) :
    getVersions env = .ok ⟨if n = 0 ∧ dirty = false then t else if '+' ∈ t then t ++ ".post".toList ++ dec n ++ (if dirty then ".dev0".toList else []) ++ ".g".toList ++ hex
      else Spec.version t n hex dirty, some full, some dirty, false⟩ := by
  unfold getVersions
  rw [h.1, unexpanded]
  simp only
  rw [vcs_spec env _ full h (by simp), h.2.2.2.1]
  have hp : tagPrefix.isPrefixOf ('v' :: t) = true := by simp [tagPrefix]
  simp only [hp, if_true, List.drop_succ_cons, List.drop_zero]
  congr 2
  unfold renderPost
  obtain ⟨c, u, rfl⟩ := List.exists_cons_of_ne_nil ht
  simp only
  by_cases h0 : n = 0 ∧ dirty = false
  · rw [if_pos h0, if_neg (by simp [h0])]
  · rw [if_neg h0, if_pos (by
      by_contra hc
      push Not at hc
      exact h0 ⟨hc.1, by simpa using hc.2⟩)]
    by_cases hc : '+' ∈ c :: u
    · have e : plusOrDot (c :: u) = ['.'] := if_pos (List.contains_iff_mem.2 hc)
      rw [if_pos hc, e]
      simp
    · have e : plusOrDot (c :: u) = ['+'] := if_neg (by rw [List.contains_iff_mem]; exact hc)
      rw [if_neg hc, e]
      unfold Spec.version
      simp

/-- C251: without any tag the version is 0.postN[.dev0]+gHEX, N counting all commits; with a closest tag that does not begin with v it is "unknown", with an error. -/
theorem C251_untagged (env : Env) (s : Spec.State) (full : Str) (h : Spec.Checkout env s full) :
    (s.tag = none → getVersions env = .ok ⟨Spec.version ['0'] s.distance s.hex s.dirty, some full, some s.dirty, false⟩) ∧
    (∀ t, s.tag = some t → t ≠ [] → t.head? ≠ some 'v' → getVersions env = .ok ⟨"unknown".toList, some full, none, true⟩) := by
  constructor
  · intro hs
    unfold getVersions
    rw [h.1, unexpanded]
    simp only
    rw [vcs_spec env _ full h (by simp [hs]), h.2.2.2.1, hs]
    simp only
    unfold renderPost Spec.version
    simp
  · intro t hs hne hv
    unfold getVersions
    rw [h.1, unexpanded]
    simp only
    rw [vcs_spec env _ full h (by rw [hs]; rintro _ ⟨⟩; exact hne), h.2.2.2.1, hs]
    obtain ⟨c, u, rfl⟩ := List.exists_cons_of_ne_nil hne
    have hp : tagPrefix.isPrefixOf (c :: u) = false := by
      simp only [tagPrefix, List.isPrefixOf]
      have : c ≠ 'v' := by simpa using hv
      simp [Ne.symm this]
    simp only [hp, Bool.false_eq_true, if_false]

theorem version_inj (t t' h h' : Str) (n n' : ℕ) (d d' : Bool) (ht : '+' ∉ t) (ht' : '+' ∉ t') (e : Spec.version t n h d = Spec.version t' n' h' d') :
    t = t' ∧ n = n' ∧ h = h' ∧ d = d' := by
  have hplus : ∀ (t : Str) (n : ℕ) (d : Bool), '+' ∉ t → ∀ c ∈ t ++ ".post".toList ++ dec n ++ (if d then ".dev0".toList else []), c ≠ '+' := by
    intro t n d ht c hc
    simp only [List.mem_append] at hc
    rcases hc with ((hc | hc) | hc) | hc
    · rintro rfl; exact ht hc
    · revert c; decide
    · exact digit_ne (dec_digits n c hc) '+' (by decide)
    · cases d
      · simp at hc
      · simp only [if_true] at hc
        revert c; decide
  have e1 : ∀ (t : Str) (n : ℕ) (h : Str) (d : Bool), Spec.version t n h d = (t ++ ".post".toList ++ dec n ++ (if d then ".dev0".toList else [])) ++ '+' :: ('g' :: h) := by
    intro t n h d
    unfold Spec.version
    simp
  rw [e1, e1] at e
  obtain ⟨e2, -, e3⟩ := split_unique (· ≠ '+') _ _ _ _ _ _ (hplus t n d ht) (hplus t' n' d' ht') (by simp) (by simp) e
  have e3 : h = h' := by simpa using e3
  have e4 : (if d then ".dev0".toList else []).reverse ++ ((dec n).reverse ++ 't' :: ("sop.".toList ++ t.reverse)) =
      (if d' then ".dev0".toList else []).reverse ++ ((dec n').reverse ++ 't' :: ("sop.".toList ++ t'.reverse)) := by
    have := congrArg List.reverse e2
    simpa using this
  have hdig : ∀ n, ∀ c ∈ (dec n).reverse, c.isDigit = true := fun n c hc => dec_digits n c (List.mem_reverse.1 hc)
  have hdev : ∀ X : Str, (".dev0".toList).reverse ++ X = ['0'] ++ 'v' :: ("ed.".toList ++ X) := by intro X; rfl
  have dd : d = d' := by
    cases d <;> cases d'
    · rfl
    · simp only [Bool.false_eq_true, if_false, if_true, List.reverse_nil, List.nil_append] at e4
      rw [hdev] at e4
      have := (split_unique (fun c => c.isDigit = true) _ _ _ _ _ _ (hdig n) (by decide) (by decide) (by decide) e4).2.1
      exact absurd this (by decide)
    · simp only [Bool.false_eq_true, if_false, if_true, List.reverse_nil, List.nil_append] at e4
      rw [hdev] at e4
      have := (split_unique (fun c => c.isDigit = true) _ _ _ _ _ _ (by decide) (hdig n') (by decide) (by decide) e4).2.1
      exact absurd this (by decide)
    · rfl
  subst dd
  obtain ⟨e5, -, e6⟩ := split_unique (fun c => c.isDigit = true) _ _ _ _ _ _ (hdig n) (hdig n') (by decide) (by decide) (List.append_cancel_left e4)
  exact ⟨List.reverse_injective (List.append_cancel_left e6), dec_inj (List.reverse_injective e5), e3, rfl⟩

/-- C251: the version tells which code is running: of two checked-out trees with tags that are versions (v..., without +), the same version means the same closest
tag, the same number of commits since, both changed or both unchanged, and (unless both are unchanged at the tag) the same commit. -/
theorem C251_identifies (env env' : Env) (t t' : Str) (n n' : ℕ) (hex hex' full full' : Str) (d d' : Bool) (ht : t ≠ []) (ht' : t' ≠ []) (hp : '+' ∉ t) (hp' : '+' ∉ t')
    (h : Spec.Checkout env ⟨some ('v' :: t), n, hex, d⟩ full) (h' : Spec.Checkout env' ⟨some ('v' :: t'), n', hex', d'⟩ full') (i i' : Info)
    (hi : getVersions env = .ok i) (hi' : getVersions env' = .ok i') (e : i.version = i'.version) :
    t = t' ∧ n = n' ∧ d = d' ∧ ((n = 0 ∧ d = false) ∨ hex = hex') := by
  rw [C251_checkout env t n hex full d ht h] at hi
  rw [C251_checkout env' t' n' hex' full' d' ht' h'] at hi'
  rw [← Except.ok.inj hi, ← Except.ok.inj hi'] at e
  simp only [if_neg hp, if_neg hp'] at e
  have hver : ∀ t n h d, '+' ∈ Spec.version t n h d := by
    intro t n h d
    unfold Spec.version
    simp
  by_cases c : n = 0 ∧ d = false <;> by_cases c' : n' = 0 ∧ d' = false
  · rw [if_pos c, if_pos c'] at e
    exact ⟨e, c.1.trans c'.1.symm, c.2.trans c'.2.symm, Or.inl c⟩
  · rw [if_pos c, if_neg c'] at e
    exact absurd (e ▸ hver _ _ _ _) hp
  · rw [if_neg c, if_pos c'] at e
    exact absurd (e ▸ hver _ _ _ _) hp'
  · rw [if_neg c, if_neg c'] at e
    obtain ⟨a, b, x, y⟩ := version_inj _ _ _ _ _ _ _ _ hp hp' e
    exact ⟨a, b, y, Or.inr x⟩

/-- C251: importing the package does not fail for want of a version: the only exception is a git that can describe the commit, finds no tag, and cannot count the commits. -/
theorem C251_total_partial (env : Env) (hc : env.count ≠ none) : ∃ i, getVersions env = .ok i := by
  have key : ∀ e, fromVcs env ≠ some (.error e) := by
    intro e
    unfold fromVcs
    obtain ⟨n, hn⟩ := Option.ne_none_iff_exists'.1 hc
    rw [hn]
    simp only
    repeat' split
    all_goals simp
  unfold getVersions
  split
  · exact ⟨_, rfl⟩
  · split
    · rename_i e he
      exact absurd he (key e)
    · exact ⟨_, rfl⟩
    · exact ⟨_, rfl⟩
    · split
      · exact ⟨_, rfl⟩
      · exact ⟨_, rfl⟩

/-- C251, where the claim fails: in a tree without tags whose commits git cannot count (`git rev-list HEAD --count` fails, say for want of a parent commit),
importing the package raises TypeError. -/
theorem C251_import_refuted (env : Env) (hex full : Str) (dirty : Bool) (h1 : env.refnames = "$Format:%d$".toList) (h2 : env.gitDir = true)
    (h3 : env.describe = some (Spec.State.describe ⟨none, 0, hex, dirty⟩)) (hx : ∀ c ∈ hex, isHex c) (h4 : env.head = some full) (h5 : env.count = none) :
    getVersions env = .error .typeError := by
  have hn : '-' ∉ hex := fun hm => absurd (hx _ hm) (by decide)
  unfold getVersions
  rw [h1, unexpanded]
  have : fromVcs env = some (.error .typeError) := by
    have hs : "-dirty".toList.isSuffixOf (hex ++ if dirty then "-dirty".toList else []) = dirty := by
      cases dirty with
      | true => simp
      | false =>
        simp only [Bool.false_eq_true, if_false, List.append_nil]
        rw [Bool.eq_false_iff]
        intro hc
        rw [List.isSuffixOf_iff_suffix] at hc
        exact hn (hc.subset (by simp))
    unfold fromVcs
    rw [h2, h3, h4, h5]
    simp only [Spec.State.describe, Spec.commit, hs]
    have e : (if dirty = true then (hex ++ if dirty then "-dirty".toList else []).take ((hex ++ if dirty then "-dirty".toList else []).length - 6)
        else (hex ++ if dirty then "-dirty".toList else [])) = hex := by
      cases dirty <;> simp
    rw [e]
    simp [hn]
  simp only [this]

example : getVersions ⟨"$Format:%d$".toList, "$Format:%H$".toList, true, some "3eb1198".toList, some "3eb1198000".toList, none, "x".toList⟩ = .error .typeError :=
  C251_import_refuted _ "3eb1198".toList "3eb1198000".toList false rfl rfl (by decide) (by decide) rfl rfl

/-! ### An archive -/

theorem split_one (a : Str) (h : ',' ∉ a) : splitComma a = [a] := by
  induction a with
  | nil => rfl
  | cons c t ih =>
    simp only [List.mem_cons, not_or] at h
    unfold splitComma
    rw [if_neg (Ne.symm h.1), ih h.2]

theorem split_cons (a b : Str) (h : ',' ∉ a) : splitComma (a ++ ',' :: b) = a :: splitComma b := by
  induction a with
  | nil =>
    rw [List.nil_append]
    conv_lhs => unfold splitComma
    rw [if_pos rfl]
  | cons c t ih =>
    simp only [List.mem_cons, not_or] at h
    rw [List.cons_append]
    conv_lhs => unfold splitComma
    rw [if_neg (Ne.symm h.1), ih h.2]

theorem strip_wrap (p : Char → Bool) (A s B : Str) (hA : ∀ c ∈ A, p c = true) (hB : ∀ c ∈ B, p c = true) (hne : s ≠ [])
    (h1 : ∀ c, s.head? = some c → p c = false) (h2 : ∀ c, s.getLast? = some c → p c = false) : stripIf p (A ++ s ++ B) = s := by
  have hd : ∀ (l m : Str), l ≠ [] → (∀ c, l.head? = some c → p c = false) → (l ++ m).dropWhile p = l ++ m := by
    intro l m hl hp
    obtain ⟨c, t, rfl⟩ := List.exists_cons_of_ne_nil hl
    rw [List.cons_append, List.dropWhile_cons_of_neg]
    rw [hp c rfl]
    simp
  unfold stripIf
  rw [List.append_assoc, List.dropWhile_append_of_pos hA, hd s B hne h1, List.reverse_append,
    List.dropWhile_append_of_pos (by intro c hc; exact hB c (List.mem_reverse.1 hc))]
  have := hd s.reverse [] (by simpa using hne) (by intro c hc; rw [List.head?_reverse] at hc; exact h2 c hc)
  rw [List.append_nil] at this
  rw [this, List.reverse_reverse]

theorem refs_split (r : Str) (rest : List Str) (h : ∀ q ∈ r :: rest, ',' ∉ q) :
    splitComma (r ++ rest.flatMap (fun q => ", ".toList ++ q)) = r :: rest.map (fun q => ' ' :: q) := by
  induction rest generalizing r with
  | nil => simpa using split_one r (h r (by simp))
  | cons q t ih =>
    have e : r ++ (q :: t).flatMap (fun q => ", ".toList ++ q) = r ++ ',' :: ((' ' :: q) ++ t.flatMap (fun q => ", ".toList ++ q)) := by simp
    have hq : ∀ x ∈ (' ' :: q) :: t, ',' ∉ x := by
      intro x hx
      rcases List.mem_cons.1 hx with rfl | hx
      · simpa using h q (by simp)
      · exact h x (by simp [hx])
    rw [e, split_cons _ _ (h r (by simp)), ih _ hq]
    simp

theorem ends (r : Str) (rest : List Str) (h : ∀ q ∈ r :: rest, Spec.Name q) :
    r ++ rest.flatMap (fun q => ", ".toList ++ q) ≠ [] ∧
    ∀ c, (r ++ rest.flatMap (fun q => ", ".toList ++ q)).head? = some c ∨ (r ++ rest.flatMap (fun q => ", ".toList ++ q)).getLast? = some c →
      c.isWhitespace = false ∧ c ≠ '(' ∧ c ≠ ')' := by
  have hr := h r (by simp)
  refine ⟨by simp [hr.1], ?_⟩
  rintro c (hc | hc)
  · rw [List.head?_append_of_ne_nil _ hr.1] at hc
    exact hr.2.2 c (Or.inl hc)
  · rcases List.eq_nil_or_concat rest with rfl | ⟨l, q, rfl⟩
    · simp only [List.flatMap_nil, List.append_nil] at hc
      exact hr.2.2 c (Or.inr hc)
    · have hq := h q (by simp)
      have e : r ++ (l ++ [q]).flatMap (fun q => ", ".toList ++ q) = (r ++ l.flatMap (fun q => ", ".toList ++ q) ++ ", ".toList) ++ q := by simp
      rw [List.concat_eq_append, e, List.getLast?_append_of_ne_nil _ hq.1] at hc
      exact hq.2.2 c (Or.inr hc)

/-- The refs written by git archive are read back. -/
theorem refs_read (r : Str) (rest : List Str) (h : ∀ q ∈ r :: rest, Spec.Name q) :
    stripIf Char.isWhitespace (Spec.decorate (r :: rest)) = '(' :: (r ++ rest.flatMap (fun q => ", ".toList ++ q)) ++ [')'] ∧
    (splitComma (stripIf (fun c => c == '(' || c == ')') ('(' :: (r ++ rest.flatMap (fun q => ", ".toList ++ q)) ++ [')']))).map (stripIf Char.isWhitespace) = r :: rest := by
  obtain ⟨e1, e2⟩ := ends r rest h
  obtain ⟨s, hs⟩ : ∃ s, s = r ++ rest.flatMap (fun q => ", ".toList ++ q) := ⟨_, rfl⟩
  rw [← hs] at e1 e2 ⊢
  constructor
  · have e : Spec.decorate (r :: rest) = [' '] ++ ('(' :: s ++ [')']) ++ [] := by
      unfold Spec.decorate
      rw [hs]
      simp
    rw [e]
    apply strip_wrap
    · decide
    · simp
    · simp
    · intro c hc
      simp only [List.cons_append, List.head?_cons, Option.some.injEq] at hc
      subst hc
      decide
    · intro c hc
      rw [List.getLast?_append_of_ne_nil _ (by simp)] at hc
      simp only [List.getLast?_singleton, Option.some.injEq] at hc
      subst hc
      decide
  · have e : '(' :: s ++ [')'] = ['('] ++ s ++ [')'] := rfl
    rw [e, strip_wrap _ _ _ _ (by decide) (by decide) e1 (by
      intro c hc
      have := e2 c (Or.inl hc)
      simp [this.2.1, this.2.2]) (by
      intro c hc
      have := e2 c (Or.inr hc)
      simp [this.2.1, this.2.2]), hs, refs_split r rest (fun q hq => (h q hq).2.1)]
    have hst : ∀ (A : Str) (q : Str), (∀ c ∈ A, c.isWhitespace = true) → Spec.Name q → stripIf Char.isWhitespace (A ++ q) = q := by
      intro A q hA hq
      have := strip_wrap Char.isWhitespace A q [] hA (by simp) hq.1 (fun c hc => (hq.2.2 c (Or.inl hc)).1) (fun c hc => (hq.2.2 c (Or.inr hc)).1)
      simpa using this
    rw [List.map_cons, List.map_map]
    congr 1
    · exact hst [] r (by simp) (h r (by simp))
    · conv_rhs => rw [← List.map_id rest]
      apply List.map_congr_left
      intro q hq
      exact hst [' '] q (by decide) (h q (by simp [hq]))

/-- An archive whose keywords list these refs and this commit. -/
def Spec.Archive (env : Env) (refs : List Str) (full : Str) : Prop :=
  refs ≠ [] ∧ (∀ q ∈ refs, Spec.Name q) ∧ env.refnames = Spec.decorate refs ∧ env.full = full ∧ full ≠ [] ∧ (∀ c ∈ full, isHex c = true)

theorem archive_core (env : Env) (refs : List Str) (full : Str) (h : Spec.Archive env refs full) :
    getVersions env = .ok (
      let tags0 := (refs.filter (fun r => "tag: ".toList.isPrefixOf r)).map (fun r => r.drop 5)
      let tags := if tags0 = [] then refs.filter (fun r => r.any Char.isDigit) else tags0
      match (tags.insertionSort (· ≤ ·)).find? (fun r => tagPrefix.isPrefixOf r) with
      | some r => ⟨r.drop tagPrefix.length, some full, some false, false⟩
      | none => ⟨"0+unknown".toList, some full, some false, true⟩) := by
  obtain ⟨hne, hn, h1, h2, h3, h4⟩ := h
  obtain ⟨r, rest, rfl⟩ := List.exists_cons_of_ne_nil hne
  obtain ⟨e1, e2⟩ := refs_read r rest hn
  have hw : ∀ c, isHex c = true → c.isWhitespace = false := by
    intro c hc
    by_contra hx
    have : c = ' ' ∨ c = '\t' ∨ c = '\r' ∨ c = '\n' := by
      unfold Char.isWhitespace at hx
      have hx2 : ¬c = ' ' → ¬c = '\t' → ¬c = '\r' → c = '\n' := by simpa using hx
      tauto
    rcases this with rfl | rfl | rfl | rfl <;> revert hc <;> decide
  have e3 : stripIf Char.isWhitespace full = full := by
    have := strip_wrap Char.isWhitespace [] full [] (by simp) (by simp) h3 (fun c hc => hw c (h4 c (List.mem_of_head? hc))) (fun c hc => hw c (h4 c (List.mem_of_getLast? hc)))
    simpa using this
  have e4 : "$Format".toList.isPrefixOf ('(' :: (r ++ rest.flatMap (fun q => ", ".toList ++ q)) ++ [')']) = false := by
    simp [List.isPrefixOf]
  unfold getVersions fromKeywords
  simp only [h1, h2, e1, e2, e3, e4, Bool.false_eq_true, if_false]
  generalize List.find? _ _ = X
  cases X <;> rfl

/-- The tags among the refs. -/
def Spec.tags (refs : List Str) : List Str := refs.filterMap (fun r => if "tag: ".toList <+: r then some (r.drop 5) else none)

theorem tags_eq (refs : List Str) : (refs.filter (fun r => "tag: ".toList.isPrefixOf r)).map (fun r => r.drop 5) = Spec.tags refs := by
  unfold Spec.tags
  induction refs with
  | nil => rfl
  | cons r t ih =>
    by_cases h : "tag: ".toList <+: r
    · rw [List.filter_cons_of_pos (List.isPrefixOf_iff_prefix.2 h), List.map_cons, ih, List.filterMap_cons, if_pos h]
    · rw [List.filter_cons_of_neg (by rw [List.isPrefixOf_iff_prefix]; exact h), ih, List.filterMap_cons, if_neg h]

theorem find_least (l : List Str) (hv : ∃ r, 'v' :: r ∈ l) :
    ∃ r, (l.insertionSort (· ≤ ·)).find? (fun r => tagPrefix.isPrefixOf r) = some ('v' :: r) ∧ 'v' :: r ∈ l ∧ ∀ q, 'v' :: q ∈ l → 'v' :: r ≤ 'v' :: q := by
  have hp : ∀ x : Str, tagPrefix.isPrefixOf x = true ↔ ∃ r, x = 'v' :: r := by
    intro x
    rw [List.isPrefixOf_iff_prefix]
    unfold tagPrefix
    constructor
    · rintro ⟨r, rfl⟩; exact ⟨r, rfl⟩
    · rintro ⟨r, rfl⟩; exact ⟨r, rfl⟩
  have hsorted := List.pairwise_insertionSort (fun a b : Str => a ≤ b) l
  obtain ⟨m, hm⟩ : ∃ m, m = l.insertionSort (fun a b => a ≤ b) := ⟨_, rfl⟩
  have hmem : ∀ x, x ∈ m ↔ x ∈ l := by
    intro x
    rw [hm]
    exact List.mem_insertionSort _
  rw [← hm] at hsorted ⊢
  have key : ∀ m : List Str, m.Pairwise (· ≤ ·) → (∃ r, 'v' :: r ∈ m) →
      ∃ r, m.find? (fun r => tagPrefix.isPrefixOf r) = some ('v' :: r) ∧ 'v' :: r ∈ m ∧ ∀ q, 'v' :: q ∈ m → 'v' :: r ≤ 'v' :: q := by
    intro m
    induction m with
    | nil => rintro _ ⟨r, hr⟩; simp at hr
    | cons x t ih =>
      intro hs he
      rw [List.pairwise_cons] at hs
      by_cases hx : tagPrefix.isPrefixOf x = true
      · obtain ⟨r, rfl⟩ := (hp x).1 hx
        refine ⟨r, List.find?_cons_of_pos hx, by simp, ?_⟩
        intro q hq
        rcases List.mem_cons.1 hq with hq | hq
        · rw [hq]
          exact List.le_refl _
        · exact hs.1 _ hq
      · have hx' : ∀ r, x ≠ 'v' :: r := fun r e => hx ((hp x).2 ⟨r, e⟩)
        obtain ⟨r0, hr0⟩ := he
        obtain ⟨r, h1, h2, h3⟩ := ih hs.2 ⟨r0, by
          rcases List.mem_cons.1 hr0 with e | e
          · exact absurd e.symm (hx' r0)
          · exact e⟩
        refine ⟨r, by rw [List.find?_cons_of_neg hx]; exact h1, by simp [h2], ?_⟩
        intro q hq
        rcases List.mem_cons.1 hq with e | e
        · exact absurd e.symm (hx' q)
        · exact h3 q e
  obtain ⟨r0, hr0⟩ := hv
  obtain ⟨r, h1, h2, h3⟩ := key m hsorted ⟨r0, (hmem _).2 hr0⟩
  exact ⟨r, h1, (hmem _).1 h2, fun q hq => h3 q ((hmem _).2 hq)⟩

/-- C251: an archive (git archive, release tarball) of a commit with a tag v... reports the first of these tags in the order of the characters, whatever the order in
which git lists the refs. -/
theorem C251_archive (env : Env) (refs : List Str) (full : Str) (h : Spec.Archive env refs full) (hv : ∃ t, 'v' :: t ∈ Spec.tags refs) :
    ∃ t, getVersions env = .ok ⟨t, some full, some false, false⟩ ∧ 'v' :: t ∈ Spec.tags refs ∧ ∀ q, 'v' :: q ∈ Spec.tags refs → 'v' :: t ≤ 'v' :: q := by
  obtain ⟨t, h1, h2, h3⟩ := find_least (Spec.tags refs) hv
  refine ⟨t, ?_, h2, h3⟩
  have hne : Spec.tags refs ≠ [] := List.ne_nil_of_mem h2
  rw [archive_core env refs full h, tags_eq]
  simp only [if_neg hne]
  rw [h1]
  rfl

/-- C251: the archive of a commit with one tag v... and the unchanged source tree checked out there report the same version and commit. -/
theorem C251_archive_checkout (env env' : Env) (refs : List Str) (t : Str) (hex full : Str) (ht : t ≠ []) (hone : ∀ q, 'v' :: q ∈ Spec.tags refs ↔ q = t)
    (h : Spec.Archive env refs full) (h' : Spec.Checkout env' ⟨some ('v' :: t), 0, hex, false⟩ full) : getVersions env = getVersions env' := by
  obtain ⟨r, h1, h2, -⟩ := C251_archive env refs full h ⟨t, (hone t).2 rfl⟩
  rw [h1, C251_checkout env' t 0 hex full false ht h', (hone r).1 h2]
  simp

/-- C251, where the claim fails: the archive of a commit without a tag, at the tip of a branch v2 (any name beginning with v that contains a digit), reports a version 2
and no error, as if it were a release. -/
theorem C251_branch_refuted (env : Env) (b : Str) (full : Str) (hb : ∃ c ∈ b, c.isDigit = true) (h : Spec.Archive env ['v' :: b] full) :
    getVersions env = .ok ⟨b, some full, some false, false⟩ := by
  have hd : ('v' :: b).any Char.isDigit = true := by
    obtain ⟨c, hc, hc'⟩ := hb
    exact List.any_eq_true.2 ⟨c, by simp [hc], hc'⟩
  rw [archive_core env _ full h]
  have e1 : ([('v' :: b : Str)].filter (fun r => "tag: ".toList.isPrefixOf r)) = [] := by
    rw [List.filter_cons_of_neg (by simp [List.isPrefixOf])]
    rfl
  have e2 : ([('v' :: b : Str)].filter (fun r => r.any Char.isDigit)) = ['v' :: b] := by
    rw [List.filter_cons_of_pos (p := fun r : Str => r.any Char.isDigit) hd]
    rfl
  simp only [e1, e2, List.map_nil, if_true, List.insertionSort_cons, List.insertionSort_nil, List.orderedInsert_nil]
  have e3 : tagPrefix.isPrefixOf ('v' :: b) = true := by simp [tagPrefix]
  rw [List.find?_cons_of_pos e3]
  rfl

/-- C251, what holds: an archive of a commit without tags says 0+unknown, with an error, if no branch at this commit has a name with v in front and a digit. -/
theorem C251_unknown_partial (env : Env) (refs : List Str) (full : Str) (h : Spec.Archive env refs full) (ht : Spec.tags refs = [])
    (hb : ∀ r ∈ refs, r.head? = some 'v' → ∀ c ∈ r, c.isDigit = false) :
    getVersions env = .ok ⟨"0+unknown".toList, some full, some false, true⟩ := by
  rw [archive_core env _ full h, tags_eq, ht]
  simp only [if_true]
  have : ((refs.filter (fun r => r.any Char.isDigit)).insertionSort (· ≤ ·)).find? (fun r => tagPrefix.isPrefixOf r) = none := by
    rw [List.find?_eq_none]
    intro x hx hp
    rw [List.mem_insertionSort, List.mem_filter] at hx
    obtain ⟨r, rfl⟩ : ∃ r, x = 'v' :: r := by
      rw [List.isPrefixOf_iff_prefix] at hp
      obtain ⟨r, rfl⟩ := hp
      exact ⟨r, rfl⟩
    obtain ⟨c, hc, hc'⟩ := List.any_eq_true.1 hx.2
    rw [hb _ hx.1 rfl c hc] at hc'
    exact absurd hc' (by simp)
  rw [this]

/-! ### The hypotheses are met -/

/-- Five commits after v0.1-rc2, with changes. -/
def tree : Env := ⟨"$Format:%d$".toList, "$Format:%H$".toList, true, some "v0.1-rc2-5-g1a2b3c4-dirty".toList, some "1a2b3c4d5e6f".toList, none, "scikit-beam".toList⟩

example : Spec.Checkout tree ⟨some "v0.1-rc2".toList, 5, "1a2b3c4".toList, true⟩ "1a2b3c4d5e6f".toList := by
  refine ⟨rfl, rfl, ?_, rfl, by simp, by decide, by decide, by simp⟩
  show some _ = some _
  decide +kernel

example : getVersions tree = .ok ⟨"0.1-rc2.post5.dev0+g1a2b3c4".toList, some "1a2b3c4d5e6f".toList, some true, false⟩ := by decide +kernel

/-- A tarball of the release v0.0.26. -/
def tarball : Env := ⟨" (HEAD -> main, tag: v0.0.26, origin/main)".toList, "1a2b3c4d5e6f".toList, false, none, none, none, "scikit-beam".toList⟩

example : Spec.Archive tarball ["HEAD -> main".toList, "tag: v0.0.26".toList, "origin/main".toList] "1a2b3c4d5e6f".toList := by
  refine ⟨by simp, ?_, by decide +kernel, rfl, by decide, by decide⟩
  intro q hq
  simp only [List.mem_cons, List.not_mem_nil, or_false] at hq
  rcases hq with rfl | rfl | rfl <;> exact ⟨by decide, by decide, by rintro c (h | h) <;> · simp at h; subst h; decide⟩

example : Spec.tags ["HEAD -> main".toList, "tag: v0.0.26".toList, "origin/main".toList] = ["v0.0.26".toList] := by decide +kernel

/-- A tarball of a branch. -/
example : Spec.Archive ⟨" (v2)".toList, "1a2b".toList, false, none, none, none, "x".toList⟩ ["v2".toList] "1a2b".toList := by
  refine ⟨by simp, ?_, by decide +kernel, rfl, by decide, by decide⟩
  intro q hq
  simp only [List.mem_singleton] at hq
  subst hq
  exact ⟨by decide, by decide, by rintro c (h | h) <;> · simp at h; subst h; decide⟩

end Verif.Version
