/- Integer images.  NumPy computes with arrays of a fixed-width integer type in that type: the result of an operation is
the representable number that differs from the true result by a multiple of 2^bits.  The other files of this project model
images with exact numbers; here the functions of scikit-beam that compute in the type of the image (`imgs - ref`,
`np.histogram(weights=...)`, `np.correlate`, the borders of the Savitzky-Golay filter, the sums of frames in `xsvs`, `np.ptp`)
are modelled for integer images. -/
import Verif.Utils.Model
import Mathlib.Data.Int.ModEq
import Mathlib.Tactic.Linarith
import Mathlib.Tactic.Ring
import Mathlib.Tactic.Positivity

namespace Verif.Wrap
open Verif

/-- A NumPy integer type: `uint8`, `int8`, `uint16`, ... -/
structure IntType where
  signed : Bool
  bits : ℕ
  pos : 0 < bits

/-- Smallest representable number. -/
def IntType.lo (t : IntType) : ℤ := if t.signed then -2 ^ (t.bits - 1) else 0
/-- Largest representable number. -/
def IntType.hi (t : IntType) : ℤ := if t.signed then 2 ^ (t.bits - 1) - 1 else 2 ^ t.bits - 1

/-- The number is representable. -/
def IntType.Holds (t : IntType) (z : ℤ) : Prop := t.lo ≤ z ∧ z ≤ t.hi

/-- What NumPy stores for the exact result `z`. -/
def IntType.wrap (t : IntType) (z : ℤ) : ℤ := (z - t.lo) % 2 ^ t.bits + t.lo

/-- `np.uint8`, `np.uint16`, ... -/
def uint (b : ℕ) (h : 0 < b := by decide) : IntType := ⟨false, b, h⟩
/-- `np.int8`, `np.int16`, ... -/
def sint (b : ℕ) (h : 0 < b := by decide) : IntType := ⟨true, b, h⟩

theorem hi_eq (t : IntType) : t.hi = t.lo + 2 ^ t.bits - 1 := by
  unfold IntType.hi IntType.lo
  obtain ⟨s, b, h⟩ := t
  obtain ⟨m, rfl⟩ : ∃ m, b = m + 1 := ⟨b - 1, by omega⟩
  cases s
  · simp
  · simp [pow_succ]; ring

theorem pow_pos' (t : IntType) : (0 : ℤ) < 2 ^ t.bits := by positivity

theorem wrap_holds (t : IntType) (z : ℤ) : t.Holds (t.wrap z) := by
  have h1 := Int.emod_nonneg (z - t.lo) (pow_pos' t).ne'
  have h2 := Int.emod_lt_of_pos (z - t.lo) (pow_pos' t)
  have h3 := hi_eq t
  unfold IntType.Holds IntType.wrap
  constructor <;> linarith

theorem wrap_modEq (t : IntType) (z : ℤ) : t.wrap z ≡ z [ZMOD 2 ^ t.bits] := by
  have : t.wrap z ≡ (z - t.lo) + t.lo [ZMOD 2 ^ t.bits] := (Int.mod_modEq _ _).add_right _
  simpa using this

/-- Two representable numbers that differ by a multiple of 2^bits are equal. -/
theorem holds_unique (t : IntType) (a b : ℤ) (ha : t.Holds a) (hb : t.Holds b) (h : a ≡ b [ZMOD 2 ^ t.bits]) : a = b := by
  have h3 := hi_eq t
  unfold IntType.Holds at ha hb
  have := Int.ModEq.dvd h
  have hlt : |b - a| < 2 ^ t.bits := by rw [abs_lt]; constructor <;> linarith
  have := Int.eq_zero_of_abs_lt_dvd this hlt
  linarith

/-- The stored number is the only representable one that differs from the exact result by a multiple of 2^bits. -/
theorem wrap_iff (t : IntType) (z r : ℤ) : t.wrap z = r ↔ t.Holds r ∧ r ≡ z [ZMOD 2 ^ t.bits] := by
  constructor
  · rintro rfl; exact ⟨wrap_holds t z, wrap_modEq t z⟩
  · rintro ⟨h, h2⟩
    exact holds_unique t _ _ (wrap_holds t z) h ((wrap_modEq t z).trans h2.symm)

theorem wrap_of_holds (t : IntType) (z : ℤ) (h : t.Holds z) : t.wrap z = z := (wrap_iff t z z).2 ⟨h, Int.ModEq.refl _⟩

theorem wrap_eq_self (t : IntType) (z : ℤ) : t.wrap z = z ↔ t.Holds z :=
  ⟨fun h => h ▸ wrap_holds t z, wrap_of_holds t z⟩

theorem wrap_congr (t : IntType) (a b : ℤ) (h : a ≡ b [ZMOD 2 ^ t.bits]) : t.wrap a = t.wrap b :=
  (wrap_iff t a _).2 ⟨wrap_holds t b, (wrap_modEq t b).trans h.symm⟩

theorem wrap_uint (b : ℕ) (h : 0 < b) (z : ℤ) : (uint b h).wrap z = z % 2 ^ b := by simp [IntType.wrap, uint, IntType.lo]

/-! ### Arithmetic on integer images -/

/-- An image of integer type `t` with `P` pixels. -/
structure IImg (t : IntType) (P : ℕ) where
  px : Fin P → ℤ

/-- `imgs - ref_imge` (skbeam/core/utils.py:453): pixel by pixel, in the type of the image. -/
instance (t : IntType) (P : ℕ) : Sub (IImg t P) := ⟨fun a b => ⟨fun p => t.wrap (a.px p - b.px p)⟩⟩

/-- `np.histogram(a=x, bins=edges, weights=y)` for integer weights of type `t` (skbeam/core/utils.py:558): the cumulative
sums at the edges are kept in an array of the type of the weights (`cum_n = np.zeros(bin_edges.shape, weights.dtype)`), and
so are their differences.  (NumPy works block by block; since the stored numbers only count modulo 2^bits this is the same
as wrapping the whole sum.) -/
def cumLeftI (t : IntType) (s : List (ℚ × ℤ)) (e : ℚ) : ℤ := t.wrap ((s.filter (fun p => p.1 < e)).map Prod.snd).sum
/-- see `cumLeftI`; side `right`. -/
def cumRightI (t : IntType) (s : List (ℚ × ℤ)) (e : ℚ) : ℤ := t.wrap ((s.filter (fun p => p.1 ≤ e)).map Prod.snd).sum
/-- Cumulative weights at the edges, as in `Np.cumAt`. -/
def cumAtI (t : IntType) (s : List (ℚ × ℤ)) : List ℚ → List ℤ
  | [] => []
  | [e] => [cumRightI t s e]
  | e :: r => cumLeftI t s e :: cumAtI t s r
/-- `np.diff` in the integer type. -/
def diffI (t : IntType) : List ℤ → List ℤ
  | a :: b :: r => t.wrap (b - a) :: diffI t (b :: r)
  | _ => []
/-- see `cumLeftI`. -/
def histogramI (t : IntType) (s : List (ℚ × ℤ)) (edges : List ℚ) : Py (List ℤ) :=
  if edges.IsChain (· ≤ ·) then .ok (diffI t (cumAtI t s edges)) else .error .valueError

/-- `bin_1D`, skbeam/core/utils.py:520-563, for integer `y`; as `Utils.bin1D`, with the sums of `histogramI`.  The counts
are unweighted (64-bit) and exact. -/
def bin1DI (t : IntType) (x : List ℚ) (y : List ℤ) (nx : Option ℤ) (mn mx : Option ℚ) : Py (List ℚ × List ℤ × List ℚ) := do
  let lo ← match mn with
    | some a => .ok a
    | none => match x.min? with | some a => .ok a | none => .error .valueError
  let hi ← match mx with
    | some b => .ok b
    | none => match x.max? with | some b => .ok b | none => .error .valueError
  let n : ℤ := match nx with | some n => n | none => pyInt (hi - lo)
  if n + 1 < 0 then .error .valueError
  else if n + 1 = 0 then .error .indexError
  else if x.length ≠ y.length then .error .valueError
  else do
    let bins := Np.linspace lo hi (n.toNat + 1)
    let val ← histogramI t (x.zip y) bins
    let count ← Np.histogram (x.map (fun v => (v, 1))) bins
    return (bins, val, count)

/-- The masked pixels of an integer image, skbeam/core/roi.py:458-461; as `Roi.masked`. -/
def maskedI (mask : Option (List ℤ)) (px : List (ℚ × ℤ)) : List (ℚ × ℤ) :=
  match mask with
  | none => px
  | some m => ((px.zip m).filter (fun (p : (ℚ × ℤ) × ℤ) => decide (p.2 = 1))).map Prod.fst

/-- `circular_average`, skbeam/core/roi.py:413-469, for an integer image; as `Roi.circularAverage`.  `sums / counts` (465) is
true division of the (wrapped) sums. -/
def circularAverageI (t : IntType) (radial : List ℚ) (img : List ℤ) (mask : Option (List ℤ)) (threshold : ℚ) (nx : ℤ) (mn mx : Option ℚ) :
    Py (List ℚ × List ℚ) :=
  let px := maskedI mask (radial.zip img)
  match bin1DI t (px.map Prod.fst) (px.map Prod.snd) (some nx) mn mx with
  | .error e => .error e
  | .ok (edges, sums, counts) =>
    let keep := (((Utils.binEdgesToCenters edges).zip (sums.zip counts)).filter (fun p => decide (threshold < p.2.2)))
    .ok (keep.map Prod.fst, keep.map (fun p => (p.2.1 : ℚ) / p.2.2))

end Verif.Wrap
