/- C217, C218: reference subtraction, bin_1D and circular averages of integer images. -/
import Verif.Wrap.Model
import Verif.Utils.Props
import Verif.Roi.StatProps

namespace Verif.Wrap
open Verif

/-! ## C217 subtract_reference_images on integer images -/

/-- What the subtraction of integer images returns, for every integer type and every sequence of frames and flags whose
first frame is a reference: for each measured frame, in order, every pixel is the one representable number that differs
from (frame minus latest reference before it) by a multiple of 2^bits. -/
theorem C217_differences (t : IntType) (P : ℕ) (imgs : List (IImg t P)) (refs : List Bool) (hlen : imgs.length = refs.length)
    (h0 : refs[0]? = some true) :
    ∃ out, Utils.subtractReferenceImages imgs refs = .ok out ∧
      List.Forall₂ (fun i (o : IImg t P) => ∃ j x y, Utils.LatestRef refs i j ∧ imgs[i]? = some x ∧ imgs[j]? = some y ∧
        ∀ p, t.lo ≤ o.px p ∧ o.px p ≤ t.hi ∧ o.px p ≡ x.px p - y.px p [ZMOD 2 ^ t.bits]) (Utils.measured refs) out := by
  obtain ⟨out, h1, h2⟩ := Utils.C04_subtract imgs refs hlen h0
  refine ⟨out, h1, h2.imp ?_⟩
  rintro i o ⟨j, x, y, a, b, c, rfl⟩
  refine ⟨j, x, y, a, b, c, fun p => ?_⟩
  have h := wrap_holds t (x.px p - y.px p)
  exact ⟨h.1, h.2, wrap_modEq t _⟩

/-- C217, the part that holds: when no pixel of any measured frame is further from the reference than the integer type can
say, the corrected images are the differences.  Missing: differences outside the type, see `C217_dim_refuted`. -/
theorem C217_exact_partial (t : IntType) (P : ℕ) (imgs : List (IImg t P)) (refs : List Bool) (hlen : imgs.length = refs.length)
    (h0 : refs[0]? = some true)
    (hfit : ∀ i j x y, Utils.LatestRef refs i j → imgs[i]? = some x → imgs[j]? = some y → ∀ p, t.lo ≤ x.px p - y.px p ∧ x.px p - y.px p ≤ t.hi) :
    ∃ out, Utils.subtractReferenceImages imgs refs = .ok out ∧
      List.Forall₂ (fun i (o : IImg t P) => ∃ j x y, Utils.LatestRef refs i j ∧ imgs[i]? = some x ∧ imgs[j]? = some y ∧
        ∀ p, o.px p = x.px p - y.px p) (Utils.measured refs) out := by
  obtain ⟨out, h1, h2⟩ := Utils.C04_subtract imgs refs hlen h0
  refine ⟨out, h1, h2.imp ?_⟩
  rintro i o ⟨j, x, y, a, b, c, rfl⟩
  exact ⟨j, x, y, a, b, c, fun p => wrap_of_holds t _ (hfit i j x y a b c p)⟩

/-- C217 is false for unsigned images: for every width, every pixel that is dimmer than in the reference comes out
brighter than it was, by 2^bits minus the reference. -/
theorem C217_dim_refuted (b : ℕ) (hb : 0 < b) (ref img : ℤ) (h : 0 ≤ img) (hlt : img < ref) (hr : ref < 2 ^ b) :
    ∃ v, Utils.subtractReferenceImages [(⟨fun _ => ref⟩ : IImg (uint b hb) 1), ⟨fun _ => img⟩] [true, false] = .ok [⟨fun _ => v⟩] ∧
      v = img + (2 ^ b - ref) ∧ img < v ∧ v ≠ img - ref := by
  refine ⟨img + (2 ^ b - ref), ?_, rfl, by linarith, ?_⟩
  rotate_left
  · have : (0 : ℤ) < 2 ^ b := by positivity
    intro h; linarith
  have e : (uint b hb).wrap (img - ref) = img + (2 ^ b - ref) := by
    rw [wrap_iff]
    refine ⟨⟨?_, ?_⟩, ?_⟩
    · simp only [IntType.lo, uint]; simp; linarith
    · simp only [IntType.hi, uint]; simp; linarith
    · rw [Int.modEq_iff_dvd]
      exact ⟨-1, by simp only [uint]; ring⟩
  have : ((⟨fun _ => img⟩ : IImg (uint b hb) 1) - ⟨fun _ => ref⟩) = ⟨fun _ => img + (2 ^ b - ref)⟩ := by
    show IImg.mk _ = _
    simp only [e]
  simp [Utils.subtractReferenceImages, Utils.subRefLoop, this]

example : (uint 8).wrap (7 - 10) = 253 := by decide
example : (sint 8).wrap (100 - (-100)) = -56 := by decide
-- the hypotheses of C217_exact_partial
example : ∀ p : Fin 1, (uint 16).lo ≤ ((⟨fun _ => 300⟩ : IImg (uint 16) 1).px p) - 20 ∧ ((⟨fun _ => 300⟩ : IImg (uint 16) 1).px p) - 20 ≤ (uint 16).hi := by decide

/-! ## C218 bin_1D and circular averages of integer images -/

/-- Exact integer weight of the samples with `P`. -/
def sumI (s : List (ℚ × ℤ)) (f : ℚ → Bool) : ℤ := ((s.filter (fun p => f p.1)).map Prod.snd).sum

theorem cast_sum (s : List (ℚ × ℤ)) (f : ℚ → Bool) :
    (((s.map (fun p => (p.1, (p.2 : ℚ)))).filter (fun p => f p.1)).map Prod.snd).sum = (sumI s f : ℚ) := by
  unfold sumI
  induction s with
  | nil => simp
  | cons p s ih =>
    by_cases h : f p.1 = true
    · simp [h, ← ih, Function.comp_def, List.filter_map]
    · simp [h, ← ih, Function.comp_def, List.filter_map]

/-- Exact cumulative sums. -/
def cumZ (s : List (ℚ × ℤ)) : List ℚ → List ℤ
  | [] => []
  | [e] => [sumI s (fun x => decide (x ≤ e))]
  | e :: r => sumI s (fun x => decide (x < e)) :: cumZ s r

def diffZ : List ℤ → List ℤ
  | a :: b :: r => (b - a) :: diffZ (b :: r)
  | _ => []

theorem cumZ_cast (s : List (ℚ × ℤ)) (e : List ℚ) : Np.cumAt (s.map (fun p => (p.1, (p.2 : ℚ)))) e = (cumZ s e).map (fun z : ℤ => (z : ℚ)) := by
  induction e with
  | nil => rfl
  | cons a r ih =>
    cases r with
    | nil => simp only [Np.cumAt, cumZ, List.map_cons, List.map_nil, Np.cumRight]; rw [← cast_sum]
    | cons b r => rw [Np.cumAt, cumZ, List.map_cons, ih, Np.cumLeft, ← cast_sum] <;> simp

theorem cumZ_wrap (t : IntType) (s : List (ℚ × ℤ)) (e : List ℚ) : cumAtI t s e = (cumZ s e).map t.wrap := by
  induction e with
  | nil => rfl
  | cons a r ih =>
    cases r with
    | nil => rfl
    | cons b r => rw [cumAtI, cumZ, List.map_cons, ih] <;> first | rfl | simp

theorem diffZ_cast (l : List ℤ) : Np.diff (l.map (fun z : ℤ => (z : ℚ))) = (diffZ l).map (fun z : ℤ => (z : ℚ)) := by
  induction l with
  | nil => rfl
  | cons a r ih =>
    cases r with
    | nil => rfl
    | cons b r =>
      simp only [List.map_cons, Np.diff, diffZ] at ih ⊢
      rw [ih]; simp

theorem diffZ_wrap (t : IntType) (l : List ℤ) : diffI t (l.map t.wrap) = (diffZ l).map t.wrap := by
  induction l with
  | nil => rfl
  | cons a r ih =>
    cases r with
    | nil => rfl
    | cons b r =>
      simp only [List.map_cons, diffI, diffZ] at ih ⊢
      rw [ih]
      congr 1
      exact wrap_congr t _ _ ((wrap_modEq t b).sub (wrap_modEq t a))

theorem bin1DI_eq (t : IntType) (x : List ℚ) (y : List ℤ) (nx : Option ℤ) (mn mx : Option ℚ) :
    (∃ e, Utils.bin1D x (y.map (fun z : ℤ => (z : ℚ))) nx mn mx = .error e ∧ bin1DI t x y nx mn mx = .error e) ∨
    ∃ bins, ∃ S : List ℤ, ∃ count, Utils.bin1D x (y.map (fun z : ℤ => (z : ℚ))) nx mn mx = .ok (bins, S.map (fun z : ℤ => (z : ℚ)), count) ∧
      bin1DI t x y nx mn mx = .ok (bins, S.map t.wrap, count) := by
  have hz : x.zip (y.map (fun z : ℤ => (z : ℚ))) = (x.zip y).map (fun p => (p.1, (p.2 : ℚ))) := by
    rw [List.zip_map_right]; rfl
  have core : ∀ lo hi : ℚ, ∀ n : ℤ, (∃ e, (if n + 1 < 0 then (.error .valueError : Py (List ℚ × List ℚ × List ℚ))
      else if n + 1 = 0 then .error .indexError
      else if x.length ≠ (y.map (fun z : ℤ => (z : ℚ))).length then .error .valueError
      else do
        let bins := Np.linspace lo hi (n.toNat + 1)
        let val ← Np.histogram (x.zip (y.map (fun z : ℤ => (z : ℚ)))) bins
        let count ← Np.histogram (x.map (fun v => (v, 1))) bins
        return (bins, val, count)) = .error e ∧ (if n + 1 < 0 then (.error .valueError : Py (List ℚ × List ℤ × List ℚ))
      else if n + 1 = 0 then .error .indexError
      else if x.length ≠ y.length then .error .valueError
      else do
        let bins := Np.linspace lo hi (n.toNat + 1)
        let val ← histogramI t (x.zip y) bins
        let count ← Np.histogram (x.map (fun v => (v, 1))) bins
        return (bins, val, count)) = .error e) ∨ ∃ bins, ∃ S : List ℤ, ∃ count, (if n + 1 < 0 then (.error .valueError : Py (List ℚ × List ℚ × List ℚ))
      else if n + 1 = 0 then .error .indexError
      else if x.length ≠ (y.map (fun z : ℤ => (z : ℚ))).length then .error .valueError
      else do
        let bins := Np.linspace lo hi (n.toNat + 1)
        let val ← Np.histogram (x.zip (y.map (fun z : ℤ => (z : ℚ)))) bins
        let count ← Np.histogram (x.map (fun v => (v, 1))) bins
        return (bins, val, count)) = .ok (bins, S.map (fun z : ℤ => (z : ℚ)), count) ∧ (if n + 1 < 0 then (.error .valueError : Py (List ℚ × List ℤ × List ℚ))
      else if n + 1 = 0 then .error .indexError
      else if x.length ≠ y.length then .error .valueError
      else do
        let bins := Np.linspace lo hi (n.toNat + 1)
        let val ← histogramI t (x.zip y) bins
        let count ← Np.histogram (x.map (fun v => (v, 1))) bins
        return (bins, val, count)) = .ok (bins, S.map t.wrap, count) := by
    intro lo hi n
    by_cases h1 : n + 1 < 0
    · left; exact ⟨.valueError, by simp [h1], by simp [h1]⟩
    by_cases h2 : n + 1 = 0
    · left; exact ⟨.indexError, by simp [h2], by simp [h2]⟩
    by_cases h3 : x.length = y.length
    · by_cases h4 : (Np.linspace lo hi (n.toNat + 1)).IsChain (· ≤ ·)
      · right
        refine ⟨Np.linspace lo hi (n.toNat + 1), diffZ (cumZ (x.zip y) (Np.linspace lo hi (n.toNat + 1))),
          Np.diff (Np.cumAt (x.map (fun v => (v, 1))) (Np.linspace lo hi (n.toNat + 1))), ?_, ?_⟩
        rotate_left
        · rw [if_neg h1, if_neg h2, if_neg (by simpa using h3)]
          simp only [histogramI, Np.histogram, h4, if_true, cumZ_wrap, diffZ_wrap]
          rfl
        · rw [if_neg h1, if_neg h2, if_neg (by simpa using h3)]
          simp only [Np.histogram, h4, if_true, hz, cumZ_cast, diffZ_cast]
          rfl
      · left
        refine ⟨.valueError, ?_, ?_⟩
        · rw [if_neg h1, if_neg h2, if_neg (by simpa using h3)]
          simp only [Np.histogram, h4, if_false]; rfl
        · rw [if_neg h1, if_neg h2, if_neg (by simpa using h3)]
          simp only [histogramI, h4, if_false]; rfl
    · left; exact ⟨.valueError, by simp [h1, h2, h3], by simp [h1, h2, h3]⟩
  rcases mn with _ | a <;> rcases mx with _ | b
  · rcases hmn : x.min? with _ | a
    · left; exact ⟨.valueError, by simp [Utils.bin1D, hmn, bind, Except.bind], by simp [bin1DI, hmn, bind, Except.bind]⟩
    rcases hmx : x.max? with _ | b
    · left; exact ⟨.valueError, by simp [Utils.bin1D, hmn, hmx, bind, Except.bind], by simp [bin1DI, hmn, hmx, bind, Except.bind]⟩
    have := core a b (match nx with | some n => n | none => pyInt (b - a))
    unfold Utils.bin1D bin1DI
    rw [hmn, hmx]
    exact this
  · rcases hmn : x.min? with _ | a
    · left; exact ⟨.valueError, by simp [Utils.bin1D, hmn, bind, Except.bind], by simp [bin1DI, hmn, bind, Except.bind]⟩
    have := core a b (match nx with | some n => n | none => pyInt (b - a))
    unfold Utils.bin1D bin1DI
    rw [hmn]
    exact this
  · rcases hmx : x.max? with _ | b
    · left; exact ⟨.valueError, by simp [Utils.bin1D, hmx, bind, Except.bind], by simp [bin1DI, hmx, bind, Except.bind]⟩
    have := core a b (match nx with | some n => n | none => pyInt (b - a))
    unfold Utils.bin1D bin1DI
    rw [hmx]
    exact this
  · exact core a b (match nx with | some n => n | none => pyInt (b - a))

/-- bin_1D of integer data, for every integer type, data and arguments: edges, counts and exceptions are those for exact
numbers; each sum is the one number of the integer type that differs from the exact sum by a multiple of 2^bits. -/
theorem C218_sums (t : IntType) (x : List ℚ) (y : List ℤ) (nx : Option ℤ) (mn mx : Option ℚ) :
    (∀ e, Utils.bin1D x (y.map (fun z : ℤ => (z : ℚ))) nx mn mx = .error e ↔ bin1DI t x y nx mn mx = .error e) ∧
    ∀ bins S' count, bin1DI t x y nx mn mx = .ok (bins, S', count) →
      ∃ S : List ℤ, Utils.bin1D x (y.map (fun z : ℤ => (z : ℚ))) nx mn mx = .ok (bins, S.map (fun z : ℤ => (z : ℚ)), count) ∧
        List.Forall₂ (fun s s' : ℤ => t.lo ≤ s' ∧ s' ≤ t.hi ∧ s' ≡ s [ZMOD 2 ^ t.bits]) S S' := by
  rcases bin1DI_eq t x y nx mn mx with ⟨e, h1, h2⟩ | ⟨bins, S, count, h1, h2⟩
  · rw [h1, h2]
    exact ⟨fun _ => by simp, fun _ _ _ h => by simp at h⟩
  · rw [h1, h2]
    refine ⟨fun _ => by simp, ?_⟩
    intro b S' c h
    simp only [Except.ok.injEq, Prod.mk.injEq] at h
    obtain ⟨rfl, rfl, rfl⟩ := h
    refine ⟨S, rfl, ?_⟩
    rw [List.forall₂_map_right_iff]
    apply List.forall₂_same.2
    intro z _
    exact ⟨(wrap_holds t z).1, (wrap_holds t z).2, wrap_modEq t z⟩

/-- The intensities (exact integers) of the unmasked pixels in bin k. -/
def Spec.binInts (mask : Option (List ℤ)) (radial : List ℚ) (img : List ℤ) (lo w : ℚ) (n k : ℕ) : List ℤ :=
  ((List.range (min radial.length img.length)).filter (fun j => (match mask with
    | none => true
    | some m => decide (m[j]? = some 1)) && decide (Roi.Spec.inBin lo w n k (radial.getD j 0)))).map (fun j => img.getD j 0)

theorem binInts_cast (mask : Option (List ℤ)) (radial : List ℚ) (img : List ℤ) (lo w : ℚ) (n k : ℕ) :
    Roi.Spec.binValues (Roi.Spec.usedPixels mask radial (img.map (fun z : ℤ => (z : ℚ)))) lo w n k =
      (Spec.binInts mask radial img lo w n k).map (fun z : ℤ => (z : ℚ)) := by
  unfold Roi.Spec.binValues Roi.Spec.usedPixels Spec.binInts
  rw [List.filter_map, List.map_map, List.map_map, List.filter_filter, List.length_map]
  have e : (fun j => (img.map (fun z : ℤ => (z : ℚ))).getD j 0) = fun j => ((img.getD j 0 : ℤ) : ℚ) := by
    funext j
    rw [List.getD_eq_getElem?_getD, List.getD_eq_getElem?_getD, List.getElem?_map]
    cases img[j]? <;> simp
  have e' : (Prod.snd ∘ fun j => (radial.getD j (0 : ℚ), (img.map (fun z : ℤ => (z : ℚ))).getD j 0)) = (fun z : ℤ => (z : ℚ)) ∘ (fun j => img.getD j 0) := by
    funext j
    exact congrFun e j
  rw [e']
  congr 1
  apply List.filter_congr
  intro j _
  simp only [Function.comp]
  cases mask <;> exact Bool.and_comm _ _

theorem maskedI_cast (mask : Option (List ℤ)) (radial : List ℚ) (img : List ℤ) :
    (maskedI mask (radial.zip img)).map (fun p => (p.1, (p.2 : ℚ))) = Roi.masked mask (radial.zip (img.map (fun z : ℤ => (z : ℚ)))) := by
  have hz : radial.zip (img.map (fun z : ℤ => (z : ℚ))) = (radial.zip img).map (fun p => (p.1, (p.2 : ℚ))) := by
    rw [List.zip_map_right]; rfl
  rw [hz]
  cases mask with
  | none => rfl
  | some m =>
    simp only [maskedI, Roi.masked]
    rw [List.zip_map_left, List.filter_map, List.map_map, List.map_map]
    rfl

/-- circular_average of an integer image, for every integer type, image, mask and limits: the kept bins and their centres
are those for exact numbers; the value reported for a bin is the representable number that differs from the sum of the
unmasked pixels in the bin by a multiple of 2^bits, divided by their number. -/
theorem C218_average (t : IntType) (radial : List ℚ) (img : List ℤ) (mask : Option (List ℤ)) (threshold : ℚ) (n : ℕ) (hn : 1 ≤ n) (lo hi : ℚ) (hlo : lo ≤ hi) :
    let w := (hi - lo) / n
    let ring := Spec.binInts mask radial img lo w n
    let kept := (List.range n).filter (fun k => decide (threshold < ((ring k).length : ℚ)))
    ∃ stored : ℕ → ℤ, (∀ k, t.lo ≤ stored k ∧ stored k ≤ t.hi ∧ stored k ≡ (ring k).sum [ZMOD 2 ^ t.bits]) ∧
      circularAverageI t radial img mask threshold n (some lo) (some hi) =
        .ok (kept.map (fun (k : ℕ) => lo + (k + 1 / 2) * w), kept.map (fun k => (stored k : ℚ) / ((ring k).length : ℚ))) := by
  intro w ring kept
  refine ⟨fun k => t.wrap (ring k).sum, fun k => ⟨(wrap_holds t _).1, (wrap_holds t _).2, wrap_modEq t _⟩, ?_⟩
  set px := maskedI mask (radial.zip img) with hpx
  obtain ⟨bins, val, count, e, hcent, hvals, hcnts⟩ := Roi.bin1D_content (px.map (fun p => (p.1, (p.2 : ℚ)))) n hn lo hi hlo
  have hused : px.map (fun p => (p.1, (p.2 : ℚ))) = Roi.Spec.usedPixels mask radial (img.map (fun z : ℤ => (z : ℚ))) := by
    rw [hpx, maskedI_cast, Roi.masked_used]
  rw [hused] at hvals hcnts
  simp only [binInts_cast] at hvals hcnts
  rw [List.map_map, List.map_map] at e
  have e1 : px.map (Prod.fst ∘ fun p : ℚ × ℤ => (p.1, (p.2 : ℚ))) = px.map Prod.fst := rfl
  have e2 : px.map (Prod.snd ∘ fun p : ℚ × ℤ => (p.1, (p.2 : ℚ))) = (px.map Prod.snd).map (fun z : ℤ => (z : ℚ)) := by rw [List.map_map]; rfl
  rw [e1, e2] at e
  rcases bin1DI_eq t (px.map Prod.fst) (px.map Prod.snd) (some (n : ℤ)) (some lo) (some hi) with ⟨er, h1, h2⟩ | ⟨b', S, c', h1, h2⟩
  · rw [h1] at e; simp at e
  · rw [h1] at e
    simp only [Except.ok.injEq, Prod.mk.injEq] at e
    obtain ⟨rfl, hS, rfl⟩ := e
    have hS' : S = (List.range n).map (fun k => (ring k).sum) := by
      have inj : Function.Injective (fun z : ℤ => (z : ℚ)) := fun a b h => Int.cast_injective h
      apply List.map_injective_iff.2 inj
      rw [hS, hvals, List.map_map]
      apply List.map_congr_left
      intro k _
      simp only [Function.comp, ring]
      push_cast
      rfl
    have hz : (Utils.binEdgesToCenters b').zip ((S.map t.wrap).zip c') = (List.range n).map (fun (k : ℕ) =>
        (lo + (k + 1 / 2) * w, t.wrap (ring k).sum, ((ring k).length : ℚ))) := by
      rw [hcent, hS', hcnts, List.map_map, List.zip_map', List.zip_map']
      simp [w, ring]
    unfold circularAverageI
    simp only [← hpx]
    rw [h2]
    simp only [hz, List.filter_map, List.map_map]
    rfl

/-- C218, the part that holds: when the sum of the unmasked pixels of every kept bin fits into the integer type, the
circular average of the integer image is that of the exact numbers.  Missing: larger sums, see `C218_ceiling` and
`C218_flat_refuted`. -/
theorem C218_exact_partial (t : IntType) (radial : List ℚ) (img : List ℤ) (mask : Option (List ℤ)) (threshold : ℚ) (ht : 0 ≤ threshold) (n : ℕ) (hn : 1 ≤ n)
    (lo hi : ℚ) (hlo : lo ≤ hi)
    (hfit : ∀ k < n, threshold < ((Spec.binInts mask radial img lo ((hi - lo) / n) n k).length : ℚ) →
      t.lo ≤ (Spec.binInts mask radial img lo ((hi - lo) / n) n k).sum ∧ (Spec.binInts mask radial img lo ((hi - lo) / n) n k).sum ≤ t.hi) :
    circularAverageI t radial img mask threshold n (some lo) (some hi) =
      Roi.circularAverage radial (img.map (fun z : ℤ => (z : ℚ))) mask threshold n (some lo) (some hi) := by
  obtain ⟨stored, hs, e⟩ := C218_average t radial img mask threshold n hn lo hi hlo
  rw [e, (Roi.C34_average radial (img.map (fun z : ℤ => (z : ℚ))) mask threshold ht n hn lo hi hlo).1]
  simp only [binInts_cast, List.length_map]
  congr 2
  apply List.map_congr_left
  intro k hk
  rw [List.mem_filter, List.mem_range] at hk
  have hk2 : threshold < ((Spec.binInts mask radial img lo ((hi - lo) / n) n k).length : ℚ) := by simpa using hk.2
  have h := holds_unique t (stored k) _ ⟨(hs k).1, (hs k).2.1⟩ (hfit k hk.1 hk2) (hs k).2.2
  rw [h]
  push_cast
  rfl

/-- No circular average of an unsigned image reaches 2^bits divided by the number of pixels in the bin, however bright
the image is: a bin of an 8-bit image with 256 pixels or more is always reported below 1. -/
theorem C218_ceiling (b : ℕ) (hb : 0 < b) (radial : List ℚ) (img : List ℤ) (mask : Option (List ℤ)) (threshold : ℚ) (ht : 0 ≤ threshold) (n : ℕ) (hn : 1 ≤ n)
    (lo hi : ℚ) (hlo : lo ≤ hi) :
    ∃ kept : List ℕ, ∃ avg : ℕ → ℚ, circularAverageI (uint b hb) radial img mask threshold n (some lo) (some hi) =
        .ok (kept.map (fun (k : ℕ) => lo + (k + 1 / 2) * ((hi - lo) / n)), kept.map avg) ∧
      ∀ k ∈ kept, 0 ≤ avg k ∧ avg k < 2 ^ b / ((Spec.binInts mask radial img lo ((hi - lo) / n) n k).length : ℚ) := by
  obtain ⟨stored, hs, e⟩ := C218_average (uint b hb) radial img mask threshold n hn lo hi hlo
  refine ⟨_, _, e, ?_⟩
  intro k hk
  have hk2 : threshold < ((Spec.binInts mask radial img lo ((hi - lo) / n) n k).length : ℚ) := by simpa using (List.mem_filter.1 hk).2
  have hpos : (0 : ℚ) < ((Spec.binInts mask radial img lo ((hi - lo) / n) n k).length : ℚ) := by linarith
  obtain ⟨h1, h2, _⟩ := hs k
  simp only [IntType.lo, IntType.hi, uint] at h1 h2
  have a : (0 : ℚ) ≤ (stored k : ℚ) := by exact_mod_cast (by simpa using h1)
  have c : ((stored k : ℤ) : ℚ) < 2 ^ b := by
    have h3 : stored k < 2 ^ b := by simp at h2; omega
    exact_mod_cast h3
  exact ⟨div_nonneg a hpos.le, div_lt_div_of_pos_right c hpos⟩

theorem binInts_replicate (N : ℕ) (r : ℚ) (v : ℤ) (lo w : ℚ) (h : Roi.Spec.inBin lo w 1 0 r) :
    Spec.binInts none (List.replicate N r) (List.replicate N v) lo w 1 0 = List.replicate N v := by
  unfold Spec.binInts
  apply List.ext_getElem?
  intro i
  simp only [List.length_replicate, min_self, Bool.true_and]
  rw [List.filter_eq_self.2]
  · by_cases hi : i < N
    · simp [hi]
    · rw [List.getElem?_eq_none (by simpa using hi), List.getElem?_eq_none (by simpa using hi)]
  · intro j hj
    have : j < N := by simpa using hj
    simp [this, h]

/-- C218 is false for integer images whose ring sums do not fit.  For every width and every flat image: as soon as the
number of pixels in the ring times the common value reaches 2^bits, the reported average is smaller than the value all
pixels have (while for exact numbers it is that value). -/
theorem C218_flat_refuted (b : ℕ) (hb : 0 < b) (N : ℕ) (v : ℤ) (hN : 0 < N) (hv : 2 ^ b ≤ (N : ℤ) * v) :
    ∃ a, circularAverageI (uint b hb) (List.replicate N (1 / 2)) (List.replicate N v) none 0 1 (some 0) (some 1) = .ok ([1 / 2], [a]) ∧
      a < v ∧ Roi.circularAverage (List.replicate N (1 / 2)) (List.replicate N (v : ℚ)) none 0 1 (some 0) (some 1) = .ok ([1 / 2], [(v : ℚ)]) := by
  have hin : Roi.Spec.inBin 0 1 1 0 (1 / 2) := by unfold Roi.Spec.inBin; norm_num
  have hring := binInts_replicate N (1 / 2) v 0 1 hin
  have hNq : (0 : ℚ) < N := by exact_mod_cast hN
  obtain ⟨stored, hs, e⟩ := C218_average (uint b hb) (List.replicate N (1 / 2)) (List.replicate N v) none 0 1 le_rfl 0 1 (by norm_num)
  have f := (Roi.C34_average (List.replicate N (1 / 2)) ((List.replicate N v).map (fun z : ℤ => (z : ℚ))) none 0 le_rfl 1 le_rfl 0 1 (by norm_num)).1
  simp only [binInts_cast] at f
  have hw : ((1 : ℚ) - 0) / ((1 : ℕ) : ℚ) = 1 := by norm_num
  simp only [hw] at e f hs
  rw [List.range_one] at e f
  simp only [List.filter_cons, List.filter_nil, hring, List.length_map, List.length_replicate, hNq, decide_true, if_true, List.map_cons, List.map_nil] at e f
  refine ⟨(stored 0 : ℚ) / N, ?_, ?_, ?_⟩
  · rw [show ((1 : ℤ)) = ((1 : ℕ) : ℤ) by rfl, e]; norm_num
  · obtain ⟨_, h2, _⟩ := hs 0
    rw [div_lt_iff₀ hNq]
    have h3 : stored 0 < v * N := by simp only [IntType.hi, uint] at h2; simp at h2; linarith
    exact_mod_cast h3
  · rw [List.map_replicate] at f
    rw [show ((1 : ℤ)) = ((1 : ℕ) : ℤ) by rfl, f]
    simp only [List.sum_replicate, nsmul_eq_mul]
    rw [mul_div_cancel_left₀ _ hNq.ne']; norm_num

-- 300 pixels of value 200 in an 8-bit image average to 96/300
example : (uint 8).wrap (300 * 200) = 96 := by decide
example : circularAverageI (uint 8) [0, 1, 1, 2, 3, 5] [9, 201, 250, 107, 100, 8] (some [1, 1, 1, 1, 0, 1]) 0 2 (some 0) (some 4) =
  .ok ([1, 3], [68, 107]) := by decide +kernel

end Verif.Wrap
