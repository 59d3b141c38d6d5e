/- C263: how CrossCorrelator finds its regions (skbeam/core/correlation.py 1037-1065). -/
import Verif.Cross.Laws
import Verif.Cross.Props
import Verif.Corr.LabelLemmas
import Verif.Wrap.Model
import Mathlib.Data.Rat.Floor
import Mathlib.Data.List.Sort

namespace Verif.Cross
open Verif Verif.Wrap

/-- `mask[pi, pj].astype(np.uint32)`, correlation.py 1040: whole numbers modulo 2^32, other numbers truncated (negative numbers and numbers
beyond 2^32 that are not of an integer type are undefined in C and not modelled faithfully). -/
def toU32 (x : ℚ) : ℤ := (uint 32).wrap ⌊x⌋

/-- `np.where(mask != 0)`, correlation.py 1037. -/
def marked (H W : ℕ) (mask : ℕ → ℕ → ℚ) : List (ℕ × ℕ) := (positions H W).filter (fun p => decide (mask p.1 p.2 ≠ 0))

/-- `1 + np.where(np.not_equal(bind[1:], bind[:-1]))[0]`, correlation.py 1050. -/
def changes (b : List ℤ) : List ℕ :=
  ((List.range (b.length - 1)).filter (fun k => decide (b[k + 1]? ≠ b[k]?))).map (1 + ·)

/-- `idpos`, correlation.py 1049-1052. -/
def idpos (b : List ℤ) : List ℕ := 0 :: (changes b ++ [b.length])

/-- `l[idpos[i]:idpos[i+1]]` for all i, correlation.py 1059-1064. -/
def slices {α : Type} (l : List α) (pos : List ℕ) : List (List α) := List.zipWith (fun s e => (l.take e).drop s) pos pos.tail

/-- The pixels of the regions, correlation.py 1037-1065: `order = np.argsort(bind)` is `sort`; `min()` of a region without pixels (a mask of
zeros) raises ValueError. -/
def regionsOf (sort : List (ℕ × ℕ) → List (ℕ × ℕ)) (H W : ℕ) (mask : ℕ → ℕ → ℚ) : Py (List (List (ℕ × ℕ))) :=
  let l := sort (marked H W mask)
  let S := slices l (idpos (l.map (fun p => toU32 (mask p.1 p.2))))
  if S.any List.isEmpty then .error .valueError else .ok S

/-- `CrossCorrelator(shape, mask)(img1, img2)`, correlation.py 984-1229, from the mask as given. -/
def correlateFrom (sort : List (ℕ × ℕ) → List (ℕ × ℕ)) (nrm : Norm) (H W : ℕ) (mask : ℕ → ℕ → ℚ) (a b : Img) : Py (List (ℕ → ℕ → Option ℚ)) :=
  match regionsOf sort H W mask with
  | .error e => .error e
  | .ok S => .ok (S.map (fun s => correlateRegion nrm s a b))

/-! ### Specification -/

/-- What is used of `np.argsort`: the pixels in an order of rising ids, pixels of one id in any order. -/
def Spec.SortsBy (key : ℕ × ℕ → ℤ) (sort : List (ℕ × ℕ) → List (ℕ × ℕ)) : Prop :=
  ∀ l, (sort l).Perm l ∧ (sort l).Pairwise (fun p q => key p ≤ key q)

/-! ### Splitting a sorted list -/

/-- The runs of equal keys. -/
def runs {α : Type} (f : α → ℤ) : List α → List (List α)
  | [] => [[]]
  | [a] => [[a]]
  | a :: b :: l => if f a = f b then (match runs f (b :: l) with | g :: gs => (a :: g) :: gs | [] => [[a]]) else [a] :: runs f (b :: l)

theorem changes_cons (a b : ℤ) (l : List ℤ) :
    changes (a :: b :: l) = (if b ≠ a then [1] else []) ++ (changes (b :: l)).map (1 + ·) := by
  unfold changes
  simp only [List.length_cons, Nat.add_sub_cancel]
  rw [List.range_succ_eq_map, List.filter_cons]
  have e : (List.filter (fun k => decide ((a :: b :: l)[k + 1]? ≠ (a :: b :: l)[k]?)) (List.map Nat.succ (List.range l.length))) =
      ((List.range l.length).filter (fun k => decide ((b :: l)[k + 1]? ≠ (b :: l)[k]?))).map Nat.succ := by
    rw [List.filter_map]; rfl
  rw [e]
  have e2 : ∀ L : List ℕ, (L.map Nat.succ).map (1 + ·) = (L.map (1 + ·)).map (1 + ·) := by
    intro L; rw [List.map_map, List.map_map]; apply List.map_congr_left; intro k _; simp [Nat.add_comm]
  by_cases h : b = a
  · subst h; simp; intro k _ _; omega
  · simp [h]; intro k _ _; omega

theorem slices_shift {α : Type} (a : α) (l : List α) (pos : List ℕ) : slices (a :: l) (pos.map (1 + ·)) = slices l pos := by
  unfold slices
  rw [← List.map_tail, List.zipWith_map]
  congr 1
  funext s e
  rw [Nat.add_comm 1 e, Nat.add_comm 1 s, List.take_succ_cons, List.drop_succ_cons]

theorem slices_idpos {α : Type} (f : α → ℤ) (l : List α) : slices l (idpos (l.map f)) = runs f l := by
  induction l with
  | nil => simp [idpos, changes, slices, runs]
  | cons a l ih =>
    cases l with
    | nil => simp [idpos, changes, slices, runs]
    | cons b l =>
      have hp : ∃ p q, idpos ((b :: l).map f) = 0 :: p :: q := by
        unfold idpos
        cases h : changes ((b :: l).map f) with
        | nil => exact ⟨_, _, rfl⟩
        | cons x y => exact ⟨_, _, rfl⟩
      obtain ⟨p, q, hpq⟩ := hp
      have hid : idpos ((a :: b :: l).map f) = if f a = f b then 0 :: ((p :: q).map (1 + ·)) else 0 :: ((idpos ((b :: l).map f)).map (1 + ·)) := by
        have h0 : changes ((b :: l).map f) ++ [((b :: l).map f).length] = p :: q := by
          unfold idpos at hpq; exact (List.cons.inj hpq).2
        have hlen : ((a :: b :: l).map f).length = 1 + ((b :: l).map f).length := by simp; omega
        have hc : changes ((a :: b :: l).map f) = (if f b ≠ f a then [1] else []) ++ (changes ((b :: l).map f)).map (1 + ·) := changes_cons _ _ _
        unfold idpos
        rw [hc, hlen]
        by_cases h : f a = f b
        · rw [if_pos h, if_neg (by simp [h]), List.nil_append, ← h0, List.map_append]; rfl
        · rw [if_neg h, if_pos (fun e => h e.symm)]
          simp only [List.map_cons, List.map_append, List.cons_append, List.nil_append, List.map_nil, Nat.add_zero]
      rw [hid]
      by_cases h : f a = f b
      · rw [if_pos h]
        simp only [runs, if_pos h]
        rw [← ih, hpq]
        have e : slices (a :: b :: l) (0 :: (p :: q).map (1 + ·)) = ((a :: b :: l).take (1 + p)) :: slices (a :: b :: l) ((p :: q).map (1 + ·)) := by
          simp [slices]
        rw [e, slices_shift]
        have e2 : slices (b :: l) (0 :: p :: q) = ((b :: l).take p) :: slices (b :: l) (p :: q) := by simp [slices]
        rw [e2, Nat.add_comm 1 p, List.take_succ_cons]
      · rw [if_neg h]
        simp only [runs, if_neg h]
        rw [← ih, hpq]
        have e : slices (a :: b :: l) (0 :: (0 :: p :: q).map (1 + ·)) = [a] :: slices (a :: b :: l) ((0 :: p :: q).map (1 + ·)) := by
          simp [slices]
        rw [e, slices_shift]

/-- The keys of a sorted list, each once. -/
def keys {α : Type} (f : α → ℤ) : List α → List ℤ
  | [] => []
  | [a] => [f a]
  | a :: b :: l => if f a = f b then keys f (b :: l) else f a :: keys f (b :: l)

theorem keys_spec {α : Type} (f : α → ℤ) (l : List α) (hs : l.Pairwise (fun p q => f p ≤ f q)) :
    (keys f l).Pairwise (· < ·) ∧ (∀ z, z ∈ keys f l ↔ ∃ p ∈ l, f p = z) ∧
    (l ≠ [] → runs f l = (keys f l).map (fun z => l.filter (fun p => decide (f p = z)))) ∧
    ∀ a r, l = a :: r → ∃ t, keys f l = f a :: t := by
  induction l with
  | nil => simp [keys]
  | cons a l ih =>
    cases l with
    | nil => simp [keys, runs, eq_comm]
    | cons b l =>
      obtain ⟨h1, h2, h3, h4⟩ := ih hs.of_cons
      have hab : f a ≤ f b := (List.pairwise_cons.1 hs).1 b (by simp)
      have hle : ∀ p ∈ b :: l, f b ≤ f p := by
        intro p hp
        rcases List.mem_cons.1 hp with rfl | hp
        · exact le_rfl
        · exact (List.pairwise_cons.1 hs.of_cons).1 p hp
      obtain ⟨t, ht⟩ := h4 b l rfl
      have h3 := h3 (by simp)
      by_cases h : f a = f b
      · have hk : keys f (a :: b :: l) = keys f (b :: l) := by simp [keys, h]
        rw [hk]
        refine ⟨h1, fun z => ?_, fun _ => ?_, fun a' r e => ?_⟩
        · rw [h2]
          constructor
          · rintro ⟨p, hp, e⟩; exact ⟨p, List.mem_cons_of_mem _ hp, e⟩
          · rintro ⟨p, hp, e⟩
            rcases List.mem_cons.1 hp with rfl | hp
            · exact ⟨b, by simp, h ▸ e⟩
            · exact ⟨p, hp, e⟩
        · simp only [runs, if_pos h]
          rw [h3, ht]
          simp only [List.map_cons]
          have hne : ∀ z ∈ t, f b < z := by
            rw [ht] at h1; exact (List.pairwise_cons.1 h1).1
          rw [List.filter_cons (x := a), if_pos (by simpa using h)]
          congr 1
          apply List.map_congr_left
          intro z hz
          have := hne z hz
          rw [List.filter_cons (x := a), if_neg (by simp; omega)]
        · cases e; exact ⟨t, by rw [ht, h]⟩
      · have hk : keys f (a :: b :: l) = f a :: keys f (b :: l) := by simp [keys, h]
        have hlt : f a < f b := lt_of_le_of_ne hab h
        have hk2 : ∀ z ∈ keys f (b :: l), f a < z := by
          intro z hz
          obtain ⟨p, hp, rfl⟩ := (h2 z).1 hz
          exact lt_of_lt_of_le hlt (hle p hp)
        rw [hk]
        refine ⟨List.pairwise_cons.2 ⟨hk2, h1⟩, fun z => ?_, fun _ => ?_, fun a' r e => ?_⟩
        · rw [List.mem_cons, h2]
          simp only [List.mem_cons (b := a), exists_eq_or_imp]
          exact or_congr eq_comm Iff.rfl
        · simp only [runs, if_neg h, List.map_cons]
          rw [h3]
          congr 1
          · rw [List.filter_cons, if_pos (by simp)]
            congr 1
            symm
            rw [List.filter_eq_nil_iff]
            intro p hp
            have := hle p hp
            simp; omega
          · apply List.map_congr_left
            intro z hz
            have := hk2 z hz
            rw [List.filter_cons (x := a), if_neg (by simp; omega)]
        · cases e; exact ⟨_, rfl⟩

theorem strict_ext (l m : List ℤ) (hl : l.Pairwise (· < ·)) (hm : m.Pairwise (· < ·)) (h : ∀ z, z ∈ l ↔ z ∈ m) : l = m := by
  have hp : l.Perm m := (List.perm_ext_iff_of_nodup (hl.imp (fun h => ne_of_lt h)) (hm.imp (fun h => ne_of_lt h))).2 h
  exact hp.eq_of_pairwise (fun a b _ _ h1 h2 => absurd h1 (lt_asymm h2)) hl hm

/-- The regions, for any mask: one per value of the converted ids, in rising order. -/
theorem regions_general (H W : ℕ) (mask : ℕ → ℕ → ℚ) (sort : List (ℕ × ℕ) → List (ℕ × ℕ))
    (hs : Spec.SortsBy (fun p => toU32 (mask p.1 p.2)) sort) :
    (marked H W mask = [] → regionsOf sort H W mask = .error .valueError) ∧
    (marked H W mask ≠ [] → regionsOf sort H W mask =
      .ok ((Corr.unique ((marked H W mask).map (fun p => toU32 (mask p.1 p.2)))).map
        (fun z => (sort (marked H W mask)).filter (fun p => decide (toU32 (mask p.1 p.2) = z))))) := by
  obtain ⟨hp, hw⟩ := hs (marked H W mask)
  unfold regionsOf
  simp only [slices_idpos]
  obtain ⟨h1, h2, h3, h4⟩ := keys_spec (fun p : ℕ × ℕ => toU32 (mask p.1 p.2)) _ hw
  constructor
  · intro h
    rw [h] at hp ⊢
    rw [List.perm_nil.1 hp]
    simp [runs]
  · intro h
    have hne : sort (marked H W mask) ≠ [] := by
      intro e; rw [e] at hp; exact h (List.nil_perm.1 hp)
    rw [h3 hne]
    have hk : keys (fun p : ℕ × ℕ => toU32 (mask p.1 p.2)) (sort (marked H W mask)) = Corr.unique ((marked H W mask).map (fun p => toU32 (mask p.1 p.2))) := by
      apply strict_ext _ _ h1 (Corr.sorted_unique _)
      intro z
      rw [h2, Corr.mem_unique, List.mem_map]
      constructor
      · rintro ⟨p, hp', e⟩; exact ⟨p, hp.mem_iff.1 hp', e⟩
      · rintro ⟨p, hp', e⟩; exact ⟨p, hp.mem_iff.2 hp', e⟩
    rw [if_neg]
    · rw [hk]
    · rw [Bool.not_eq_true, List.any_eq_false]
      intro g hg
      obtain ⟨z, hz, rfl⟩ := List.mem_map.1 hg
      obtain ⟨p, hp', e⟩ := (h2 z).1 hz
      rw [List.isEmpty_iff]
      intro he
      rw [List.filter_eq_nil_iff] at he
      exact he p hp' (by simpa using e)

/-! ## C263 -/

/-- C263: with whole ids from 0 to 2^32 - 1 there is one correlation per id other than 0, in rising order, of the pixels with that id,
in whatever order the sort leaves the pixels of an id. -/
theorem C263_regions_partial (H W : ℕ) (mask : ℕ → ℕ → ℤ) (sort : List (ℕ × ℕ) → List (ℕ × ℕ))
    (hs : Spec.SortsBy (fun p => toU32 (mask p.1 p.2)) sort) (hm : ∀ i j, 0 ≤ mask i j ∧ mask i j < 2 ^ 32)
    (hx : ∃ i < H, ∃ j < W, mask i j ≠ 0) (nrm : Norm) (a b : Img) :
    correlateFrom sort nrm H W (fun i j => (mask i j : ℚ)) a b = .ok (correlate nrm H W mask a b) := by
  have hid : ∀ i j, toU32 (mask i j : ℚ) = mask i j := by
    intro i j
    unfold toU32
    rw [Int.floor_intCast, wrap_uint]
    exact Int.emod_eq_of_lt (hm i j).1 (hm i j).2
  have hne : marked H W (fun i j => (mask i j : ℚ)) ≠ [] := by
    obtain ⟨i, hi, j, hj, h⟩ := hx
    apply List.ne_nil_of_mem (a := (i, j))
    unfold marked
    rw [List.mem_filter, mem_positions]
    exact ⟨⟨hi, hj⟩, by simpa using h⟩
  have hr := (regions_general H W (fun i j => (mask i j : ℚ)) sort hs).2 hne
  unfold correlateFrom
  rw [hr]
  simp only [hid, List.map_map]
  unfold correlate
  have hids : Corr.unique ((marked H W (fun i j => (mask i j : ℚ))).map (fun p => mask p.1 p.2)) = ids H W mask := by
    unfold ids marked
    apply strict_ext _ _ (Corr.sorted_unique _) (Corr.sorted_unique _)
    intro z
    rw [Corr.mem_unique, Corr.mem_unique]
    simp only [List.mem_map, List.mem_filter, decide_eq_true_eq, ne_eq, Int.cast_eq_zero]
    constructor
    · rintro ⟨p, ⟨hp, h0⟩, rfl⟩; exact ⟨⟨p, hp, rfl⟩, h0⟩
    · rintro ⟨⟨p, hp, rfl⟩, h0⟩; exact ⟨p, ⟨hp, h0⟩, rfl⟩
  rw [hids]
  congr 1
  apply List.map_congr_left
  intro z hz
  have hz0 : z ≠ 0 := by
    unfold ids at hz
    rw [Corr.mem_unique, List.mem_filter] at hz
    simpa using hz.2
  simp only [Function.comp]
  apply region_perm
  refine ((hs _).1.filter _).trans ?_
  unfold marked region
  rw [List.filter_filter]
  apply List.Perm.of_eq
  apply List.filter_congr
  intro p _
  rw [Bool.eq_iff_iff]
  simp only [Bool.and_eq_true, decide_eq_true_eq, ne_eq, Int.cast_eq_zero]
  constructor
  · exact fun h => h.1
  · exact fun h => ⟨h, h ▸ hz0⟩

/-- C263: a mask without any id raises ValueError. -/
theorem C263_empty (H W : ℕ) (mask : ℕ → ℕ → ℚ) (sort : List (ℕ × ℕ) → List (ℕ × ℕ))
    (hs : Spec.SortsBy (fun p => toU32 (mask p.1 p.2)) sort) (h : ∀ i < H, ∀ j < W, mask i j = 0) (nrm : Norm) (a b : Img) :
    correlateFrom sort nrm H W mask a b = .error .valueError := by
  unfold correlateFrom
  rw [(regions_general H W mask sort hs).1]
  unfold marked
  rw [List.filter_eq_nil_iff]
  intro p hp
  have := (mem_positions H W p).1 hp
  simp [h p.1 this.1 p.2 this.2]

/-- C263, where the claim fails: two ids that are equal after the conversion make one region of both. -/
theorem C263_merged_refuted (x y : ℚ) (hx : x ≠ 0) (hy : y ≠ 0) (h : toU32 x = toU32 y) (sort : List (ℕ × ℕ) → List (ℕ × ℕ))
    (hs : Spec.SortsBy (fun p => toU32 ((fun _ j => if j = 0 then x else y : ℕ → ℕ → ℚ) p.1 p.2)) sort) :
    ∃ S, regionsOf sort 1 2 (fun _ j => if j = 0 then x else y) = .ok [S] ∧ S.Perm [(0, 0), (0, 1)] := by
  have hm : marked 1 2 (fun _ j => if j = 0 then x else y) = [(0, 0), (0, 1)] := by
    simp [marked, positions, List.range_succ, hx, hy]
  have hr := (regions_general 1 2 (fun _ j => if j = 0 then x else y) sort hs).2 (by rw [hm]; simp)
  rw [hm] at hr
  have hall : ∀ p : ℕ × ℕ, toU32 (if p.2 = 0 then x else y) = toU32 y := by
    intro p; split_ifs <;> [exact h; rfl]
  simp only [hall] at hr
  refine ⟨sort [(0, 0), (0, 1)], ?_, (hs _).1⟩
  rw [hr]
  simp [Corr.unique, Corr.insU]

/-- C263, where the claim fails: the ids 1.2 and 1.7, and the ids 1 and 2^32 + 1. -/
theorem C263_ids_refuted : toU32 (6 / 5) = toU32 (17 / 10) ∧ toU32 1 = toU32 (2 ^ 32 + 1) := by decide +kernel

/-- A sort. -/
example (key : ℕ × ℕ → ℤ) : Spec.SortsBy key (fun l => l.insertionSort (fun p q => key p ≤ key q)) := by
  have : Std.Total (fun p q : ℕ × ℕ => key p ≤ key q) := ⟨fun a b => le_total _ _⟩
  have : IsTrans (ℕ × ℕ) (fun p q : ℕ × ℕ => key p ≤ key q) := ⟨fun a b c h1 h2 => le_trans h1 h2⟩
  intro l
  exact ⟨List.perm_insertionSort _ l, List.pairwise_insertionSort _ l⟩

end Verif.Cross
