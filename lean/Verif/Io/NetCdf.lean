/- Model of skbeam/io/net_cdf_io.py and its properties (C174). -/
import Verif.Np

namespace Verif.Io.NetCdf
open Verif

/-- What is read of a netCDF file: the global attributes, the variable "VOLUME" with its `scale_factor` attribute (`none`:
not there), its values in file order and the length of its first axis. -/
structure Var where
  scale : Option ℚ
  data : List ℚ
  slices : ℕ

structure File where
  volume : Option Var
  /-- global attributes that are numbers -/
  attrs : List (String × ℚ)

/-- `md_dict[k]`. -/
def lookup (k : String) : List (String × ℚ) → Option ℚ
  | [] => none
  | (k', v) :: d => if k' = k then some v else lookup k d

/-- `data /= data.scale_factor if data.scale_factor != 1.0 else 1.0`; net_cdf_io.py 72.  `none` is the inf or nan of a
division by zero.  The automatic scaling of the netCDF4 package is left out: `data` are the values the variable yields, and
they are taken to be an array. -/
def scaled (v : Var) : Py (List (Option ℚ)) :=
  match v.scale with
  | none => .error .attributeError
  | some s => .ok (v.data.map (fun x => if s = 0 then none else some (x / s)))

/-- The test of net_cdf_io.py 78 (Python's `and` stops at the first False). -/
def isotropic (md : List (String × ℚ)) (slices : ℕ) : Py Bool :=
  match lookup "x_pixel_size" md, lookup "y_pixel_size" md with
  | some x, some y =>
    if x = y then
      match lookup "z_pixel_size" md with
      | none => .error .keyError
      | some z => .ok (decide (z = 0 ∧ 1 < slices))
    else .ok false
  | _, _ => .error .keyError

/-- `load_netCDF`; net_cdf_io.py 68-80: the metadata, the entry "voxel_size" if it is added, and the data. -/
def load (f : File) : Py (List (String × ℚ) × Option ℚ × List (Option ℚ)) := do
  match f.volume with
  | none => .error .keyError
  | some v =>
    let data ← scaled v
    let iso ← isotropic f.attrs v.slices
    .ok (f.attrs, if iso then lookup "x_pixel_size" f.attrs else none, data)

/-- C174: the returned values are those of the file divided by its scale factor, value by value. -/
theorem C174_scaled (f : File) (md vox data) (h : load f = .ok (md, vox, data)) :
    md = f.attrs ∧ ∃ v s, f.volume = some v ∧ v.scale = some s ∧
      (s ≠ 0 → data.length = v.data.length ∧ ∀ (i : ℕ) x, v.data[i]? = some x → data[i]? = some (some (x / s))) := by
  unfold load at h
  cases hv : f.volume with
  | none => rw [hv] at h; cases h
  | some v =>
    rw [hv] at h
    simp only [bind, Except.bind] at h
    cases hs : v.scale with
    | none => rw [scaled, hs] at h; cases h
    | some s =>
      rw [scaled, hs] at h
      simp only at h
      cases hi : isotropic f.attrs v.slices with
      | error e => rw [hi] at h; cases h
      | ok b =>
        rw [hi] at h
        cases h
        refine ⟨rfl, v, s, rfl, hs, fun h0 => ⟨by simp, fun i x hx => ?_⟩⟩
        rw [List.getElem?_map, hx, Option.map_some, if_neg h0]

theorem lookup_iff (k : String) (d : List (String × ℚ)) (h : (d.map Prod.fst).Nodup) (w : ℚ) :
    lookup k d = some w ↔ (k, w) ∈ d := by
  induction d with
  | nil => simp [lookup]
  | cons a d ih =>
    obtain ⟨k', v⟩ := a
    rw [List.map_cons, List.nodup_cons] at h
    simp only [lookup, List.mem_cons, Prod.mk.injEq]
    by_cases hk : k' = k
    · subst hk
      have hn : (k', w) ∉ d := fun hm => h.1 (List.mem_map.2 ⟨_, hm, rfl⟩)
      simp [hn, eq_comm]
    · rw [if_neg hk, ih h.2]
      simp [Ne.symm hk]

theorem voxel_lookup (f : File) (md vox data) (h : load f = .ok (md, vox, data)) (w : ℚ) :
    vox = some w ↔ lookup "x_pixel_size" f.attrs = some w ∧ lookup "y_pixel_size" f.attrs = some w ∧
      lookup "z_pixel_size" f.attrs = some 0 ∧ ∃ v, f.volume = some v ∧ 1 < v.slices := by
  unfold load at h
  cases hv : f.volume with
  | none => rw [hv] at h; cases h
  | some v =>
    rw [hv] at h
    simp only [bind, Except.bind] at h
    cases hs : scaled v with
    | error e => rw [hs] at h; cases h
    | ok d =>
      rw [hs] at h
      simp only at h
      unfold isotropic at h
      cases hx : lookup "x_pixel_size" f.attrs with
      | none => rw [hx] at h; cases h
      | some x =>
        cases hy : lookup "y_pixel_size" f.attrs with
        | none => rw [hx, hy] at h; cases h
        | some y =>
          rw [hx, hy] at h
          simp only at h
          by_cases hxy : x = y
          · rw [if_pos hxy] at h
            cases hz : lookup "z_pixel_size" f.attrs with
            | none => rw [hz] at h; cases h
            | some z =>
              rw [hz] at h
              simp only at h
              subst hxy
              by_cases hc : z = 0 ∧ 1 < v.slices
              · cases h
                simp [hc]
              · cases h
                simp only [hc, decide_false, Bool.false_eq_true, if_false, Option.some.injEq, false_iff, reduceCtorEq, not_and]
                rintro rfl _ h0 ⟨v', hv', hsl⟩
                rw [← hv'] at hsl
                exact hc ⟨h0, hsl⟩
          · rw [if_neg hxy] at h
            cases h
            simp only [Bool.false_eq_true, if_false, false_iff, reduceCtorEq, Option.some.injEq, not_and]
            rintro rfl rfl
            exact absurd rfl hxy

/-- C174: with the attribute names of the file distinct, as they are in a netCDF file, "voxel_size" is added exactly for a
volume of more than one slice whose recorded x and y pixel sizes agree and whose z pixel size was left at 0, and then it is
that size. -/
theorem C174_voxel_size (f : File) (hk : (f.attrs.map Prod.fst).Nodup) (md vox data) (h : load f = .ok (md, vox, data)) (w : ℚ) :
    vox = some w ↔ ("x_pixel_size", w) ∈ f.attrs ∧ ("y_pixel_size", w) ∈ f.attrs ∧
      ("z_pixel_size", 0) ∈ f.attrs ∧ ∃ v, f.volume = some v ∧ 1 < v.slices := by
  rw [voxel_lookup f md vox data h w, lookup_iff _ _ hk, lookup_iff _ _ hk, lookup_iff _ _ hk]

/-- C174: a file without a volume, or without a recorded x or y pixel size, is refused. -/
theorem C174_missing (f : File) (md vox data) (h : load f = .ok (md, vox, data)) :
    f.volume ≠ none ∧ (∃ x, ("x_pixel_size", x) ∈ f.attrs) ∧ ∃ y, ("y_pixel_size", y) ∈ f.attrs := by
  have hl : ∀ (k : String) (d : List (String × ℚ)) (w : ℚ), lookup k d = some w → (k, w) ∈ d := by
    intro k d w hw
    induction d with
    | nil => simp [lookup] at hw
    | cons a d ih =>
      obtain ⟨k', v⟩ := a
      simp only [lookup] at hw
      split_ifs at hw with hk
      · subst hk; simp at hw; simp [hw]
      · exact List.mem_cons_of_mem _ (ih hw)
  unfold load at h
  cases hv : f.volume with
  | none => rw [hv] at h; cases h
  | some v =>
    rw [hv] at h
    simp only [bind, Except.bind] at h
    cases hs : scaled v with
    | error e => rw [hs] at h; cases h
    | ok d =>
      rw [hs] at h
      simp only at h
      unfold isotropic at h
      cases hx : lookup "x_pixel_size" f.attrs with
      | none => rw [hx] at h; cases h
      | some x =>
        cases hy : lookup "y_pixel_size" f.attrs with
        | none => rw [hx, hy] at h; cases h
        | some y => exact ⟨by simp, ⟨x, hl _ _ _ hx⟩, y, hl _ _ _ hy⟩

/-- C174 is false in one clause: without a scale factor the documentation promises the value 1; the call raises
AttributeError. -/
theorem C174_no_scale_refuted (v : Var) (hv : v.scale = none) (attrs : List (String × ℚ)) : load ⟨some v, attrs⟩ = .error .attributeError := by
  unfold load scaled
  simp only [hv]
  rfl

/-- What holds: a recorded factor of 1 leaves the values unchanged. -/
theorem C174_scale_one_partial (f : File) (v : Var) (hf : f.volume = some v) (hv : v.scale = some 1) (md vox data) (h : load f = .ok (md, vox, data)) :
    data = v.data.map some := by
  obtain ⟨_, v', s, h1, h2, h3⟩ := C174_scaled f md vox data h
  rw [hf] at h1
  cases h1
  rw [hv] at h2
  cases h2
  obtain ⟨hl, hd⟩ := h3 one_ne_zero
  apply List.ext_getElem?
  intro i
  rw [List.getElem?_map]
  cases hx : v.data[i]? with
  | none =>
    rw [List.getElem?_eq_none_iff] at hx
    rw [List.getElem?_eq_none (by rw [hl]; exact hx)]; rfl
  | some x => rw [hd i x hx, div_one]; rfl

example : load ⟨some ⟨some 2, [4, 6], 3⟩, [("x_pixel_size", 5), ("y_pixel_size", 5), ("z_pixel_size", 0)]⟩ =
    .ok ([("x_pixel_size", 5), ("y_pixel_size", 5), ("z_pixel_size", 0)], some 5, [some 2, some 3]) := by decide +kernel

end Verif.Io.NetCdf
