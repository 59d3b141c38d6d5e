/- Properties C157–C160: AmiraMesh files and Fit2D masks. -/
import Verif.Amira.Model
import Verif.Io.Props

namespace Verif.Amira
open Verif Verif.Io

/-! ## C157 reading -/

theorem readAfter_prefix (file : Text) (pre post : List Text) (h : readLines file = pre ++ post) (hm : marker ∉ pre) :
    readAfter file pre.length = .running pre post := by
  have key : ∀ n ≤ pre.length, readAfter file n = .running (pre.take n) (pre.drop n ++ post) := by
    intro n hn
    induction n with
    | zero => simp [readAfter, h]
    | succ n ih =>
      have hlt : n < pre.length := hn
      rw [readAfter, ih (by omega), List.drop_eq_getElem_cons hlt, List.cons_append, readStep,
        if_neg (fun (e : pre[n] = marker) => hm (e ▸ List.getElem_mem hlt)), List.take_append_getElem hlt]
  simpa using key pre.length le_rfl

/-- C157: a file with the line "# Data section follows" is split there: the header is everything up to and including it, the
data are everything after the line that follows it (nothing, if there is none). -/
theorem C157_split_partial (file : Text) (pre rest : List Text)
    (h : readLines file = pre ++ "# Data section follows\n".toList :: rest) (hm : "# Data section follows\n".toList ∉ pre) :
    ∃ n, readAfter file n = .done (pre ++ ["# Data section follows\n".toList]) rest.tail.flatten := by
  refine ⟨pre.length + 1, ?_⟩
  rw [readAfter, readAfter_prefix file pre _ h hm, readStep, if_pos (show "# Data section follows\n".toList = marker from rfl), List.drop_one]

/-- C157 without the marker (a file cut short in the header, or any other text): the loop never ends, and the list of
header lines grows with every round. -/
theorem C157_no_marker_refuted (file : Text) (hm : "# Data section follows\n".toList ∉ readLines file) :
    ∀ n, ∃ header rest, readAfter file n = .running header rest ∧ header.length = n := by
  change marker ∉ readLines file at hm
  have key : ∀ n, ∃ header rest, readAfter file n = .running header rest ∧ header.length = n ∧ ∀ l ∈ rest, l ≠ marker := by
    intro n
    induction n with
    | zero => exact ⟨[], _, rfl, rfl, fun l hl e => hm (e ▸ hl)⟩
    | succ n ih =>
      obtain ⟨hd, rest, h1, h2, h3⟩ := ih
      rw [readAfter, h1]
      cases rest with
      | nil => exact ⟨_, _, rfl, by simp [h2], by simp⟩
      | cons l t =>
        rw [readStep, if_neg (h3 l (by simp))]
        exact ⟨_, _, rfl, by simp [h2], fun x hx => h3 x (by simp [hx])⟩
  intro n
  obtain ⟨a, b, h1, h2, _⟩ := key n
  exact ⟨a, b, h1, h2⟩

example : readAfter "# Avizo\n# Data section follows\n@1\nabc\nd".toList 2 = .done ["# Avizo\n".toList, marker] "abc\nd".toList := by decide +kernel
example : marker ∉ readLines "# Avizo\n# Data section follows".toList := by decide +kernel

/-! ## C158 loading -/

/-- C158 is false for every file that can be read at all: cleaning the header calls `str.translate` with two arguments,
which raises TypeError under Python 3, so no AmiraMesh file can be loaded. -/
theorem C158_load_refuted {α : Type} (zero : α) (conv : Text → Text → Py (List α)) (file : Text) (n : ℕ) (header : List Text) (data : Text)
    (h : readAfter file n = .done header data) : loadAfterRead zero conv header data = .error .typeError := by
  have key : ∀ n, (∃ hd rest, readAfter file n = .running hd rest) ∨ ∃ hd d, readAfter file n = .done hd d ∧ marker ∈ hd := by
    intro n
    induction n with
    | zero => exact Or.inl ⟨_, _, rfl⟩
    | succ n ih =>
      rw [readAfter]
      rcases ih with ⟨hd, rest, e⟩ | ⟨hd, d, e, hm⟩
      · rw [e]
        cases rest with
        | nil => exact Or.inl ⟨_, _, rfl⟩
        | cons l t =>
          rw [readStep]
          by_cases hl : l = marker
          · rw [if_pos hl]; exact Or.inr ⟨_, _, rfl, by simp [hl]⟩
          · rw [if_neg hl]; exact Or.inl ⟨_, _, rfl⟩
      · rw [e]; exact Or.inr ⟨_, _, rfl, hm⟩
  rcases key n with ⟨hd, rest, e⟩ | ⟨hd, d, e, hm⟩
  · rw [e] at h; simp at h
  · rw [e] at h
    injection h with h1 h2
    subst h1
    unfold loadAfterRead cleanHeader
    rw [if_neg]
    · rfl
    · rw [List.all_eq_true]
      intro g
      exact absurd (g marker hm) (by decide +kernel)

/-- Converting the data fails as well with the default flip_z=True, whatever the file holds: two ellipses in one index. -/
theorem C158_flip_refuted {α : Type} (zero : α) (conv : Text → Text → Py (List α)) (data : Text) (md : Md) :
    ∀ r, toNumpy zero conv data md true ≠ .ok r := by
  intro r
  unfold toNumpy
  cases md.dims with
  | none => simp
  | some d =>
    obtain ⟨nx, ny, nz⟩ := d
    simp only
    split
    · cases md.dataType with
      | none => simp
      | some t =>
        simp only [bind, Except.bind]
        cases conv data t with
        | error e => simp
        | ok v =>
          simp only
          split <;> simp
    · split <;> simp

/-- C158, what holds: little-endian data converted with flip_z=False have the shape (z, y, x) of the header, and as many
values as that, the ones of the file first (zeros if there are too few). -/
theorem C158_shape_partial {α : Type} (zero : α) (conv : Text → Text → Py (List α)) (data : Text) (md : Md) (nx ny nz : ℕ) (t : Text) (vals : List α)
    (hd : md.dims = some ((nx : ℤ), (ny : ℤ), (nz : ℤ))) (hf : md.format = kw "BINARY-LITTLE-ENDIAN") (ht : md.dataType = some t) (hc : conv data t = .ok vals) :
    ∃ a, toNumpy zero conv data md false = .ok ((nz, ny, nx), a) ∧ a.length = nz * ny * nx ∧
      ∀ i < nz * ny * nx, a[i]? = some (vals.getD i zero) := by
  unfold toNumpy
  rw [hd]
  simp only
  rw [if_pos hf, ht]
  simp only [hc, bind, Except.bind]
  rw [if_neg (by omega)]
  refine ⟨_, rfl, ?_, ?_⟩
  · simp only [Int.toNat_natCast, resize, List.length_append, List.length_take, List.length_replicate]; omega
  · intro i hi
    simp only [Int.toNat_natCast, resize]
    rw [List.getD_eq_getElem?_getD]
    by_cases h : i < vals.length
    · rw [List.getElem?_append_left (by rw [List.length_take]; omega), List.getElem?_take, if_pos hi, List.getElem?_eq_getElem h]; rfl
    · rw [List.getElem?_append_right (by rw [List.length_take]; omega), List.getElem?_replicate, List.length_take,
        if_pos (by omega), List.getElem?_eq_none (by omega)]; rfl

/-- C158: a negative number of voxels raises ValueError. -/
theorem C158_negative {α : Type} (zero : α) (conv : Text → Text → Py (List α)) (data : Text) (md : Md) (nx ny nz : ℤ) (t : Text) (vals : List α) (flip : Bool)
    (hd : md.dims = some (nx, ny, nz)) (hf : md.format = kw "BINARY-LITTLE-ENDIAN") (ht : md.dataType = some t) (hc : conv data t = .ok vals)
    (hneg : nx < 0 ∨ ny < 0 ∨ nz < 0) : toNumpy zero conv data md flip = .error .valueError := by
  unfold toNumpy
  rw [hd]
  simp only
  rw [if_pos hf, ht]
  simp only [hc, bind, Except.bind]
  rw [if_pos hneg]

/-! ## C159 metadata -/

/-- The words that mark a line. -/
def Spec.keywords : List Text := ["define", "Content", "CoordType", "BoundingBox", "Units", "Coordinates"].map String.toList

/-- No line holds a keyword. -/
def Spec.Plain (ls : List (List Text)) : Prop := ∀ l ∈ ls, ∀ w ∈ Spec.keywords, w ∉ l

theorem mdLine_plain (md : Md) (l : List Text) (h : ∀ w ∈ Spec.keywords, w ∉ l) : mdLine md l = .ok md := by
  have h1 := h (kw "define") (by simp [Spec.keywords, kw])
  have h2 := h (kw "Content") (by simp [Spec.keywords, kw])
  have h3 := h (kw "CoordType") (by simp [Spec.keywords, kw])
  have h4 := h (kw "BoundingBox") (by simp [Spec.keywords, kw])
  have h5 := h (kw "Units") (by simp [Spec.keywords, kw])
  have h6 := h (kw "Coordinates") (by simp [Spec.keywords, kw])
  unfold mdLine
  rw [if_neg h1, if_neg h2, if_neg h3, if_neg h4, if_neg h5, if_neg h6]

theorem mdLoop_append (ls ms : List (List Text)) (md : Md) : mdLoop md (ls ++ ms) = (mdLoop md ls).bind (fun m => mdLoop m ms) := by
  induction ls generalizing md with
  | nil => rfl
  | cons l t ih =>
    simp only [List.cons_append, mdLoop, bind, Except.bind]
    cases mdLine md l with
    | error e => rfl
    | ok m => simp only [ih]; rfl

theorem mdLoop_plain (ls : List (List Text)) (md : Md) (h : Spec.Plain ls) : mdLoop md ls = .ok md := by
  induction ls generalizing md with
  | nil => rfl
  | cons l t ih =>
    simp only [mdLoop, bind, Except.bind, mdLine_plain md l (h l (by simp))]
    exact ih md (fun l hl => h l (by simp [hl]))

/-- Size of a voxel: extent divided by the number of steps, 0 for a single layer. -/
def Spec.voxel (lo hi : ℚ) (n : ℕ) : ℚ := if n ≤ 1 then 0 else (hi - lo) / (n - 1)

/-- What is reported about the voxels: one number if the three sizes agree within one per cent of the first, otherwise the
three sizes in the order z, y, x. -/
def Spec.resolution (rx ry rz : ℚ) : Resolution :=
  if |ry - rx| < |rx| / 100 ∧ |rz - rx| < |rx| / 100 then .isotropic (some rx) else .anisotropic (some rz) (some ry) (some rx)

theorem parseInt_digits (n : ℕ) : parseInt (digits n) = .ok (n : ℤ) := by
  unfold parseInt
  have hs : strip (digits n) = digits n := by simpa using strip_pad 0 0 (digits n) (digits_ne_nil n) (digits_nonspace n)
  rw [hs]
  have h1 := natOf_digits n
  cases hd : digits n with
  | nil => exact absurd hd (digits_ne_nil n)
  | cons c t =>
    have hc : IsDigit c := digits_isDigit n c (by simp [hd])
    rw [hd] at h1
    have hne : c ≠ '-' := by rintro rfl; exact absurd hc (by unfold IsDigit; decide)
    split
    · simp at *
    · rename_i heq; injection heq with e _; exact absurd e hne
    · rename_i heq; rw [h1]

theorem within_iff (a b : ℚ) (hb : b ≠ 0) : within (some a) (some b) = true ↔ |a - b| < |b| / 100 := by
  have hpos : 0 < |b| := abs_pos.2 hb
  have : |a - b| = |a / b - 1| * |b| := by rw [← abs_mul]; congr 1; field_simp
  unfold within
  simp only [Bool.and_eq_true, decide_eq_true_eq]
  have e : |b| / 100 = 1 / 100 * |b| := by ring
  rw [this, e, mul_lt_mul_iff_left₀ hpos, abs_lt]
  constructor
  · rintro ⟨h1, h2⟩; constructor <;> linarith
  · rintro ⟨h1, h2⟩; constructor <;> linarith

theorem voxel_eq (lo hi : ℚ) (n : ℕ) : voxel (some lo) (some hi) n = some (Spec.voxel lo hi n) := by
  unfold voxel Spec.voxel subN
  by_cases h : n ≤ 1
  · rw [if_neg (by omega), if_pos h]
  · rw [if_pos (by omega), if_neg h]; push_cast; rfl

theorem resolve_eq (rx ry rz : ℚ) (h : rx ≠ 0) : resolve (some rx) (some ry) (some rz) = .ok (Spec.resolution rx ry rz) := by
  unfold resolve Spec.resolution
  rw [if_neg (by simpa using h)]
  by_cases hw : |ry - rx| < |rx| / 100 ∧ |rz - rx| < |rx| / 100
  · rw [if_pos hw, if_pos]
    rw [Bool.and_eq_true, within_iff _ _ h, within_iff _ _ h]; exact hw
  · rw [if_neg hw, if_neg]
    rw [Bool.and_eq_true, within_iff _ _ h, within_iff _ _ h]; exact hw

theorem mdLine_define (md : Md) (w : Text) (nx ny nz : ℕ) (hw : w ≠ kw "define") :
    mdLine md [kw "define", w, digits nx, digits ny, digits nz] = .ok { md with dims := some (nx, ny, nz) } := by
  unfold mdLine
  rw [if_pos (by simp)]
  simp only [List.idxOf_cons_self, word, bind, Except.bind, List.getElem?_cons_succ, List.getElem?_cons_zero, parseInt_digits]

theorem mdLine_content (md : Md) (c t : Text) (more : List Text) (h : kw "define" ∉ c :: t :: more) :
    mdLine md (kw "Content" :: c :: t :: more) = .ok { md with dataType := some t } := by
  unfold mdLine
  rw [if_neg (by rw [List.mem_cons, not_or]; exact ⟨by decide, h⟩), if_pos (by simp)]
  simp only [List.idxOf_cons_self, word, bind, Except.bind, List.getElem?_cons_succ, List.getElem?_cons_zero]

theorem mdLine_coordType (md : Md) (t : Text) (h1 : kw "define" ≠ t) (h2 : kw "Content" ≠ t) :
    mdLine md [kw "CoordType", t] = .ok { md with coordType := some t } := by
  unfold mdLine
  rw [if_neg (by simp only [List.mem_cons, List.not_mem_nil, or_false, not_or]; exact ⟨by decide, h1⟩),
    if_neg (by simp only [List.mem_cons, List.not_mem_nil, or_false, not_or]; exact ⟨by decide, h2⟩), if_pos (by simp)]
  simp only [List.idxOf_cons_self, word, bind, Except.bind, List.getElem?_cons_succ, List.getElem?_cons_zero]

theorem mdLine_units (md : Md) (b : Text) (h : ∀ w ∈ Spec.keywords, w ∉ [b]) : mdLine md [kw "Units", b] = .ok { md with units := some (kw "pixels") } := by
  have hk : ∀ s ∈ ["define", "Content", "CoordType", "BoundingBox"], kw s ∉ [kw "Units", b] := by
    intro s hs
    have h0 := h (kw s) (by
      simp only [List.mem_cons, List.not_mem_nil, or_false] at hs
      rcases hs with rfl | rfl | rfl | rfl <;> simp [Spec.keywords, kw])
    rw [List.mem_cons, not_or]
    refine ⟨?_, h0⟩
    simp only [List.mem_cons, List.not_mem_nil, or_false] at hs
    rcases hs with rfl | rfl | rfl | rfl <;> decide
  unfold mdLine
  rw [if_neg (hk _ (by simp)), if_neg (hk _ (by simp)), if_neg (hk _ (by simp)), if_neg (hk _ (by simp)), if_pos (by simp)]
  simp only [List.idxOf_cons_self, word, List.getElem?_cons_succ, List.getElem?_cons_zero, List.getElem?_nil]

theorem mdLine_coordinates (md : Md) (u : Text) (h : ∀ w ∈ Spec.keywords, w ∉ [u]) : mdLine md [kw "Coordinates", u] = .ok { md with coordinates := some u } := by
  have hk : ∀ s ∈ ["define", "Content", "CoordType", "BoundingBox", "Units"], kw s ∉ [kw "Coordinates", u] := by
    intro s hs
    have h0 := h (kw s) (by
      simp only [List.mem_cons, List.not_mem_nil, or_false] at hs
      rcases hs with rfl | rfl | rfl | rfl | rfl <;> simp [Spec.keywords, kw])
    rw [List.mem_cons, not_or]
    refine ⟨?_, h0⟩
    simp only [List.mem_cons, List.not_mem_nil, or_false] at hs
    rcases hs with rfl | rfl | rfl | rfl | rfl <;> decide
  unfold mdLine
  rw [if_neg (hk _ (by simp)), if_neg (hk _ (by simp)), if_neg (hk _ (by simp)), if_neg (hk _ (by simp)), if_neg (hk _ (by simp)), if_pos (by simp)]
  simp only [List.idxOf_cons_self, word, bind, Except.bind, List.getElem?_cons_succ, List.getElem?_cons_zero]

/-- Six words that stand for six numbers. -/
def Spec.SixNumbers (ws : List Text) (q : List ℚ) : Prop := List.Forall₂ (fun w x => parseFloat w = .ok (some x)) ws q ∧ ws.length = 6

theorem mdLine_box (md : Md) (ws : List Text) (x0 x1 y0 y1 z0 z1 : ℚ) (hb : Spec.SixNumbers ws [x0, x1, y0, y1, z0, z1])
    (h : ∀ w ∈ Spec.keywords, w ∉ ws) (nx ny nz : ℕ) (hd : md.dims = some ((nx : ℤ), (ny : ℤ), (nz : ℤ))) :
    mdLine md (kw "BoundingBox" :: ws) = (resolve (some (Spec.voxel x0 x1 nx)) (some (Spec.voxel y0 y1 ny)) (some (Spec.voxel z0 z1 nz))).map
      (fun r => { md with box := some ⟨some x0, some x1, some y0, some y1, some z0, some z1⟩, resolution := some r }) := by
  obtain ⟨hf, _⟩ := hb
  rcases hf with _ | ⟨p1, hf⟩; rcases hf with _ | ⟨p2, hf⟩; rcases hf with _ | ⟨p3, hf⟩
  rcases hf with _ | ⟨p4, hf⟩; rcases hf with _ | ⟨p5, hf⟩; rcases hf with _ | ⟨p6, hf⟩; cases hf
  rename_i w1 w2 w3 w4 w5 w6 _
  have hk : ∀ s ∈ ["define", "Content", "CoordType"], kw s ∉ kw "BoundingBox" :: [w1, w2, w3, w4, w5, w6] := by
    intro s hs
    have h0 := h (kw s) (by
      simp only [List.mem_cons, List.not_mem_nil, or_false] at hs
      rcases hs with rfl | rfl | rfl <;> simp [Spec.keywords, kw])
    rw [List.mem_cons, not_or]
    refine ⟨?_, h0⟩
    simp only [List.mem_cons, List.not_mem_nil, or_false] at hs
    rcases hs with rfl | rfl | rfl <;> decide
  unfold mdLine
  rw [if_neg (hk _ (by simp)), if_neg (hk _ (by simp)), if_neg (hk _ (by simp)), if_pos (by simp)]
  simp only [List.idxOf_cons_self, word, bind, Except.bind, List.getElem?_cons_succ, List.getElem?_cons_zero, p1, p2, p3, p4, p5, p6, hd, voxel_eq]
  cases resolve (some (Spec.voxel x0 x1 nx)) (some (Spec.voxel y0 y1 ny)) (some (Spec.voxel z0 z1 nz)) <;> rfl

/-- The header documented in io/tests/smpl_avizo_header.txt, cleaned, with any lines without keywords in between. -/
def Spec.standardHeader (first : List Text) (A B C D E F : List (List Text)) (lat u brace : Text) (nx ny nz : ℕ) (content t : Text) (more box : List Text) (ct : Text) : List (List Text) :=
  (first :: A) ++ ([[kw "define", lat, digits nx, digits ny, digits nz]] ++ (B ++ ([[kw "Units", brace], [kw "Coordinates", u]] ++
    (C ++ ([kw "Content" :: content :: t :: more] ++ (D ++ ([kw "BoundingBox" :: box] ++ (E ++ ([[kw "CoordType", ct]] ++ F)))))))))

/-- Assumptions on the words of such a header. -/
def Spec.Words (first : List Text) (A B C D E F : List (List Text)) (lat u brace content t : Text) (more box : List Text) (ct : Text) : Prop :=
  Spec.Plain (first :: A) ∧ Spec.Plain B ∧ Spec.Plain C ∧ Spec.Plain D ∧ Spec.Plain E ∧ Spec.Plain F ∧
  Spec.Plain [[lat], [u], [brace], content :: t :: more, box, [ct]]

theorem loop_standard (md : Md) (first : List Text) (A B C D E F : List (List Text)) (lat u brace : Text) (nx ny nz : ℕ) (content t : Text) (more box : List Text) (ct : Text)
    (hw : Spec.Words first A B C D E F lat u brace content t more box ct) (x0 x1 y0 y1 z0 z1 : ℚ) (hb : Spec.SixNumbers box [x0, x1, y0, y1, z0, z1]) :
    mdLoop md (Spec.standardHeader first A B C D E F lat u brace nx ny nz content t more box ct) =
      (resolve (some (Spec.voxel x0 x1 nx)) (some (Spec.voxel y0 y1 ny)) (some (Spec.voxel z0 z1 nz))).map (fun r =>
        { md with dims := some (nx, ny, nz), units := some (kw "pixels"), coordinates := some u, dataType := some t,
                  box := some ⟨some x0, some x1, some y0, some y1, some z0, some z1⟩, resolution := some r, coordType := some ct }) := by
  obtain ⟨hA, hB, hC, hD, hE, hF, hP⟩ := hw
  have hm : ∀ s, s ∈ ["define", "Content"] → kw s ∈ Spec.keywords := by
    intro s hs
    simp only [List.mem_cons, List.not_mem_nil, or_false] at hs
    rcases hs with rfl | rfl <;> simp [Spec.keywords, kw]
  have single : ∀ (m m' : Md) (l : List Text), mdLine m l = .ok m' → mdLoop m [l] = .ok m' := by
    intro m m' l h
    simp only [mdLoop, h, bind, Except.bind]
  unfold Spec.standardHeader
  rw [mdLoop_append, mdLoop_plain _ _ hA, Except.bind, mdLoop_append,
    single _ _ _ (mdLine_define md lat nx ny nz (fun e => hP [lat] (by simp) (kw "define") (hm _ (by simp)) (by simp [e]))), Except.bind,
    mdLoop_append, mdLoop_plain _ _ hB, Except.bind, mdLoop_append]
  have hu : ∀ m : Md, mdLoop m [[kw "Units", brace], [kw "Coordinates", u]] = .ok { m with units := some (kw "pixels"), coordinates := some u } := by
    intro m
    simp only [mdLoop, bind, Except.bind, mdLine_units m brace (fun w hw' => hP [brace] (by simp) w hw')]
    rw [mdLine_coordinates _ u (fun w hw' => hP [u] (by simp) w hw')]
  rw [hu, Except.bind, mdLoop_append, mdLoop_plain _ _ hC, Except.bind, mdLoop_append,
    single _ _ _ (mdLine_content _ content t more (hP _ (by simp) _ (hm _ (by simp)))), Except.bind, mdLoop_append, mdLoop_plain _ _ hD, Except.bind, mdLoop_append]
  have hbox : ∀ m : Md, m.dims = some ((nx : ℤ), (ny : ℤ), (nz : ℤ)) → mdLoop m [kw "BoundingBox" :: box] =
      (resolve (some (Spec.voxel x0 x1 nx)) (some (Spec.voxel y0 y1 ny)) (some (Spec.voxel z0 z1 nz))).map
      (fun r => { m with box := some ⟨some x0, some x1, some y0, some y1, some z0, some z1⟩, resolution := some r }) := by
    intro m hd
    simp only [mdLoop, bind, Except.bind]
    rw [mdLine_box m box x0 x1 y0 y1 z0 z1 hb (hP _ (by simp)) nx ny nz hd]
    cases resolve (some (Spec.voxel x0 x1 nx)) (some (Spec.voxel y0 y1 ny)) (some (Spec.voxel z0 z1 nz)) <;> rfl
  rw [hbox _ rfl]
  cases resolve (some (Spec.voxel x0 x1 nx)) (some (Spec.voxel y0 y1 ny)) (some (Spec.voxel z0 z1 nz)) with
  | error e => rfl
  | ok r =>
    simp only [Except.map, Except.bind]
    rw [mdLoop_append, mdLoop_plain _ _ hE, Except.bind, mdLoop_append,
      single _ _ _ (mdLine_coordType _ ct (fun e => hP [ct] (by simp) (kw "define") (hm _ (by simp)) (by simp [e])) (fun e => hP [ct] (by simp) (kw "Content") (hm _ (by simp)) (by simp [e]))),
      Except.bind, mdLoop_plain _ _ hF]

/-- C159: from the documented header the dictionary gets the software, format and version of the first line, the numbers of
voxels, the type, the bounding box, the coordinate type and the size of the voxels. -/
theorem C159_metadata_partial (c s f v : Text) (hf : f ≠ kw "3D") (A B C D E F : List (List Text)) (lat u brace : Text) (nx ny nz : ℕ) (content t : Text) (more box : List Text) (ct : Text)
    (hw : Spec.Words [c, s, f, v] A B C D E F lat u brace content t more box ct) (x0 x1 y0 y1 z0 z1 : ℚ) (hb : Spec.SixNumbers box [x0, x1, y0, y1, z0, z1])
    (hn : 2 ≤ nx) (hx : x0 ≠ x1) :
    ∃ md, createMd (Spec.standardHeader [c, s, f, v] A B C D E F lat u brace nx ny nz content t more box ct) = .ok md ∧
      md.software = s ∧ md.format = f ∧ md.version = v ∧ md.dims = some ((nx : ℤ), (ny : ℤ), (nz : ℤ)) ∧ md.dataType = some t ∧ md.coordType = some ct ∧
      md.box = some ⟨some x0, some x1, some y0, some y1, some z0, some z1⟩ ∧
      md.resolution = some (Spec.resolution (Spec.voxel x0 x1 nx) (Spec.voxel y0 y1 ny) (Spec.voxel z0 z1 nz)) ∧
      md.coordinates = some u ∧ md.units = some "pixels".toList := by
  have hr : Spec.voxel x0 x1 nx ≠ 0 := by
    unfold Spec.voxel
    rw [if_neg (by omega)]
    have : (nx : ℚ) - 1 ≠ 0 := by
      have : (2 : ℚ) ≤ nx := by exact_mod_cast hn
      linarith
    exact div_ne_zero (sub_ne_zero.2 (Ne.symm hx)) this
  have h0 : mdFirst (Spec.standardHeader [c, s, f, v] A B C D E F lat u brace nx ny nz content t more box ct) = .ok { software := s, format := f, version := v } := by
    simp only [mdFirst, Spec.standardHeader, List.cons_append, bind, Except.bind, word, List.getElem?_cons_succ, List.getElem?_cons_zero, if_neg hf]
  unfold createMd
  simp only [h0, bind, Except.bind]
  rw [loop_standard _ _ A B C D E F lat u brace nx ny nz content t more box ct hw x0 x1 y0 y1 z0 z1 hb, resolve_eq _ _ _ hr]
  exact ⟨_, rfl, rfl, rfl, rfl, rfl, rfl, rfl, rfl, rfl, rfl, rfl⟩

/-- C159: as `C159_metadata_partial` for the longer first line `# AmiraMesh 3D BINARY-LITTLE-ENDIAN 2.1`, whose third word is "3D". -/
theorem C159_metadata_3d_partial (c s f v : Text) (A B C D E F : List (List Text)) (lat u brace : Text) (nx ny nz : ℕ) (content t : Text) (more box : List Text) (ct : Text)
    (hw : Spec.Words [c, s, kw "3D", f, v] A B C D E F lat u brace content t more box ct) (x0 x1 y0 y1 z0 z1 : ℚ) (hb : Spec.SixNumbers box [x0, x1, y0, y1, z0, z1])
    (hn : 2 ≤ nx) (hx : x0 ≠ x1) :
    ∃ md, createMd (Spec.standardHeader [c, s, kw "3D", f, v] A B C D E F lat u brace nx ny nz content t more box ct) = .ok md ∧
      md.software = s ∧ md.format = f ∧ md.version = v ∧ md.dims = some ((nx : ℤ), (ny : ℤ), (nz : ℤ)) ∧ md.dataType = some t ∧ md.coordType = some ct ∧
      md.box = some ⟨some x0, some x1, some y0, some y1, some z0, some z1⟩ ∧
      md.resolution = some (Spec.resolution (Spec.voxel x0 x1 nx) (Spec.voxel y0 y1 ny) (Spec.voxel z0 z1 nz)) ∧
      md.coordinates = some u ∧ md.units = some "pixels".toList := by
  have hr : Spec.voxel x0 x1 nx ≠ 0 := by
    unfold Spec.voxel
    rw [if_neg (by omega)]
    have : (nx : ℚ) - 1 ≠ 0 := by
      have : (2 : ℚ) ≤ nx := by exact_mod_cast hn
      linarith
    exact div_ne_zero (sub_ne_zero.2 (Ne.symm hx)) this
  have h0 : mdFirst (Spec.standardHeader [c, s, kw "3D", f, v] A B C D E F lat u brace nx ny nz content t more box ct) = .ok { software := s, format := f, version := v } := by
    simp only [mdFirst, Spec.standardHeader, List.cons_append, bind, Except.bind, word, List.getElem?_cons_succ, List.getElem?_cons_zero, if_true]
  unfold createMd
  simp only [h0, bind, Except.bind]
  rw [loop_standard _ _ A B C D E F lat u brace nx ny nz content t more box ct hw x0 x1 y0 y1 z0 z1 hb, resolve_eq _ _ _ hr]
  exact ⟨_, rfl, rfl, rfl, rfl, rfl, rfl, rfl, rfl, rfl, rfl, rfl⟩

/-- C159 is false for volumes that are a single voxel wide: dividing by the size 0 raises ZeroDivisionError. -/
theorem C159_single_layer_refuted (c s f v : Text) (hf : f ≠ kw "3D") (A B C D E F : List (List Text)) (lat u brace : Text) (ny nz : ℕ) (content t : Text) (more box : List Text) (ct : Text)
    (hw : Spec.Words [c, s, f, v] A B C D E F lat u brace content t more box ct) (x0 x1 y0 y1 z0 z1 : ℚ) (hb : Spec.SixNumbers box [x0, x1, y0, y1, z0, z1]) :
    createMd (Spec.standardHeader [c, s, f, v] A B C D E F lat u brace 1 ny nz content t more box ct) = .error .zeroDivision := by
  have h0 : mdFirst (Spec.standardHeader [c, s, f, v] A B C D E F lat u brace 1 ny nz content t more box ct) = .ok { software := s, format := f, version := v } := by
    simp only [mdFirst, Spec.standardHeader, List.cons_append, bind, Except.bind, word, List.getElem?_cons_succ, List.getElem?_cons_zero, if_neg hf]
  unfold createMd
  simp only [h0, bind, Except.bind]
  rw [loop_standard _ _ A B C D E F lat u brace 1 ny nz content t more box ct hw x0 x1 y0 y1 z0 z1 hb]
  have : Spec.voxel x0 x1 1 = 0 := by simp [Spec.voxel]
  rw [this]
  rfl

/-- C159 is false for the unit of length: the documented header states it in the line `Coordinates`, but the entry "units"
is "pixels" whatever is stated there. -/
theorem C159_units_refuted (c s f v : Text) (hf : f ≠ kw "3D") (A B C D E F : List (List Text)) (lat u brace : Text) (nx ny nz : ℕ) (content t : Text) (more box : List Text) (ct : Text)
    (hw : Spec.Words [c, s, f, v] A B C D E F lat u brace content t more box ct) (x0 x1 y0 y1 z0 z1 : ℚ) (hb : Spec.SixNumbers box [x0, x1, y0, y1, z0, z1])
    (hn : 2 ≤ nx) (hx : x0 ≠ x1) (hu : u ≠ "pixels".toList) :
    ∃ md, createMd (Spec.standardHeader [c, s, f, v] A B C D E F lat u brace nx ny nz content t more box ct) = .ok md ∧ md.units ≠ some u := by
  obtain ⟨md, h, _, _, _, _, _, _, _, _, _, hun⟩ := C159_metadata_partial c s f v hf A B C D E F lat u brace nx ny nz content t more box ct hw x0 x1 y0 y1 z0 z1 hb hn hx
  refine ⟨md, h, ?_⟩
  rw [hun]
  simpa using fun e => hu e.symm

/-- The header of io/tests/smpl_avizo_header.txt. -/
example : Spec.Words (["#", "Avizo", "BINARY-LITTLE-ENDIAN", "2.1"].map kw) [[], []] [[], [kw "Parameters", kw "{"]] [[kw "}"], [kw "Colormap", kw "labels.am"]] [] []
    [[kw "}"], [], [kw "Lattice", kw "{", kw "ushort", kw "Labels", kw "}", kw "@1(HxByteRLE44262998)"], [], [kw "#", kw "Data", kw "section", kw "follows"]]
    (kw "Lattice") (kw "m") (kw "{") (kw "426x426x121") (kw "ushort") [kw "uniform", kw "coordinates"]
    (["1417.5", "5880", "1407", "5869.5", "5649", "6909"].map kw) (kw "uniform") := by
  unfold Spec.Words Spec.Plain
  decide +kernel

example : Spec.SixNumbers (["1417.5", "5880", "1407", "5869.5", "5649", "6909"].map kw) [2835 / 2, 5880, 1407, 11739 / 2, 5649, 6909] := by
  refine ⟨?_, rfl⟩
  simp only [List.map_cons, List.map_nil]
  refine .cons ?_ (.cons ?_ (.cons ?_ (.cons ?_ (.cons ?_ (.cons ?_ .nil))))) <;> decide +kernel

/-! ## C160 Fit2D masks -/

/-- C160: a boolean mask comes back unchanged from the file `dir/name.msk`; no other file changes. -/
theorem C160_round_trip_partial (enc : List (List Bool) → Text) (dec : Text → Option (List (List Bool))) (hed : ∀ a, dec (enc a) = some a)
    (join : Text → Text → Text) (existsDir : Text → Bool) (fs : Fs) (a : List (List Bool)) (name : Text) (dir : Option Text)
    (hd : ∀ d, dir = some d → existsDir d = true) (path : Text)
    (hp : path = (match dir with | none => name | some d => join d name) ++ ".msk".toList) :
    ∃ fs', fit2dSave enc join existsDir fs (.bool a) name dir = (.ok (), fs') ∧ readFit2d dec fs' path = .ok a ∧ ∀ q, q ≠ path → fs' q = fs q := by
  have hc : createFilePath join existsDir fs dir name ".msk".toList = (.ok path, fun q => if q = path then none else fs q) := by
    cases dir with
    | none => rw [hp]; rfl
    | some d => unfold createFilePath; simp only [hd d rfl, if_true, hp]
  have hnn : a.map (fun r => (r.map not).map not) = a := by
    conv_rhs => rw [← List.map_id a]
    apply List.map_congr_left
    intro r _
    rw [List.map_map]
    conv_rhs => rw [id, ← List.map_id r]
    apply List.map_congr_left
    intro b _
    cases b <;> rfl
  refine ⟨_, by unfold fit2dSave; rw [hc], ?_, ?_⟩
  · unfold readFit2d
    simp only [if_true, hed, MaskArr.invert, MaskArr.bits, List.map_map]
    exact congrArg Except.ok hnn
  · intro q hq
    simp only [if_neg hq]

/-- C160 is false for masks given as integers 0 and 1 (or any numbers ≥ 0): the complement is never 0, and the mask that
is read back is False everywhere. -/
theorem C160_integer_mask_refuted (enc : List (List Bool) → Text) (dec : Text → Option (List (List Bool))) (hed : ∀ a, dec (enc a) = some a)
    (join : Text → Text → Text) (existsDir : Text → Bool) (fs : Fs) (a : List (List ℤ)) (hnn : ∀ r ∈ a, ∀ x ∈ r, 0 ≤ x) (name : Text) :
    ∃ fs', fit2dSave enc join existsDir fs (.int a) name none = (.ok (), fs') ∧
      readFit2d dec fs' (name ++ ".msk".toList) = .ok (a.map (fun r => r.map (fun _ => false))) := by
  refine ⟨_, rfl, ?_⟩
  unfold readFit2d
  simp only [if_true, hed, MaskArr.invert, MaskArr.bits, List.map_map]
  refine congrArg Except.ok ?_
  apply List.map_congr_left
  intro r hr
  simp only [Function.comp, List.map_map]
  apply List.map_congr_left
  intro x hx
  have := hnn r hr x hx
  simp only [Function.comp]
  rw [decide_eq_true (by omega)]
  rfl

/-- C160: a directory that does not exist is refused before anything is written; a missing file cannot be read. -/
theorem C160_errors (enc : List (List Bool) → Text) (dec : Text → Option (List (List Bool))) (join : Text → Text → Text) (existsDir : Text → Bool) (fs : Fs)
    (m : MaskArr) (name d path : Text) (hd : existsDir d = false) (hp : fs path = none) :
    fit2dSave enc join existsDir fs m name (some d) = (.error .valueError, fs) ∧ readFit2d dec fs path = .error .fileNotFound := by
  constructor
  · unfold fit2dSave createFilePath
    simp [hd]
  · unfold readFit2d
    rw [hp]

end Verif.Amira
