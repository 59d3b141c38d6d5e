/- Properties C41-C45 and C88: gridding of scattered points. -/
import Verif.Grid.Lemmas
import Verif.Grid.ClearLemmas

namespace Verif.Grid
open Verif

/-- Zeroed accumulators. -/
def zeroed : Priv := fun _ _ => ⟨0, 0, 0⟩

/-! ## C41 -/

/-- C41: starting from zeroed accumulators, for every assignment of points to threads and every order of events, each
voxel's occupancy, sum and sum of squares are those of the intensities of exactly the points lying in it. -/
theorem C41_voxel_sums (g : Grid) (hg : Spec.Proper g) (T : ℕ) (hT : 1 ≤ T) (data : List Pt) (ev : List (ℕ × Pt))
    (hev : Spec.Schedules T data ev) (i j k : ℕ) (hi : i < g.x.n) (hj : j < g.y.n) (hk : k < g.z.n) :
    let vs := Spec.values g i j k data
    out id g T zeroed ev (flat g i j k) = ⟨vs.length, vs.sum, (vs.map (fun v => v * v)).sum⟩ := by
  intro vs
  rw [out_id g T hT zeroed ev hev.2]
  have h0 : ((List.range T).map (fun t => zeroed t (flat g i j k))).sum = 0 := by
    have : (fun t => zeroed t (flat g i j k)) = fun _ => (0 : Acc) := rfl
    rw [this]; simp
  have h1 : (ev.map (fun e => pt g (flat g i j k) e.2)).sum = (data.map (pt g (flat g i j k))).sum := by
    have := (hev.1.map (pt g (flat g i j k))).sum_eq
    rw [← this, List.map_map]; rfl
  rw [h0, zero_add, h1, sum_pt g hg data i j k hi hj hk]

/-- C41: voxels do not overlap and the flat index distinguishes them, so no point is counted twice. -/
theorem C41_voxels_disjoint (g : Grid) (hg : Spec.Proper g) (p : Pt) (i j k i' j' k' : ℕ)
    (h : Spec.inVoxel g i j k p) (h' : Spec.inVoxel g i' j' k' p) : i = i' ∧ j = j' ∧ k = k' := by
  obtain ⟨⟨hx, hx'⟩, ⟨hy, hy'⟩, hz, hz'⟩ := hg
  have key : ∀ (a : Axis) (x : ℚ) (u w : ℕ), a.lo < a.hi → 0 < a.n → Spec.inBin a u x → Spec.inBin a w x → u ≤ w := by
    intro a x u w h1 h2 h3 h4
    have hn : (0 : ℚ) < a.n := by exact_mod_cast h2
    have hd : 0 < (a.hi - a.lo) / a.n := div_pos (by linarith) hn
    unfold Spec.inBin at h3 h4
    have : (u : ℚ) * ((a.hi - a.lo) / a.n) < (w + 1) * ((a.hi - a.lo) / a.n) := by linarith [h3.1, h4.2]
    have := lt_of_mul_lt_mul_right this hd.le
    have h5 : (u : ℚ) < (w + 1 : ℕ) := by push_cast; exact this
    have : u < w + 1 := by exact_mod_cast h5
    omega
  exact ⟨le_antisymm (key _ _ _ _ hx hx' h.1 h'.1) (key _ _ _ _ hx hx' h'.1 h.1),
    le_antisymm (key _ _ _ _ hy hy' h.2.1 h'.2.1) (key _ _ _ _ hy hy' h'.2.1 h.2.1),
    le_antisymm (key _ _ _ _ hz hz' h.2.2 h'.2.2) (key _ _ _ _ hz hz' h'.2.2 h.2.2)⟩

/-- Non-vacuity: 2×1×2 voxels, two threads, one NaN, one point outside. -/
def demoGrid : Grid := ⟨⟨0, 2, 2⟩, ⟨0, 1, 1⟩, ⟨-1, 1, 2⟩⟩
/-- see `demoGrid` -/
def demoData : List Pt := [⟨0, 0, 0, some 5⟩, ⟨1, 1/2, -1/2, some 7⟩, ⟨3/2, 0, -1, some 2⟩, ⟨1, 0, 0, none⟩, ⟨2, 0, 0, some 9⟩]
/-- see `demoGrid` -/
def demoEv : List (ℕ × Pt) := [(1, ⟨1, 1/2, -1/2, some 7⟩), (0, ⟨0, 0, 0, some 5⟩), (1, ⟨1, 0, 0, none⟩), (0, ⟨3/2, 0, -1, some 2⟩),
  (0, ⟨2, 0, 0, some 9⟩)]
example : Spec.Proper demoGrid := by unfold Spec.Proper demoGrid; norm_num
example : Spec.Schedules 2 demoData demoEv := ⟨by decide +kernel, by decide⟩
example : (List.range demoGrid.size).map (out id demoGrid 2 zeroed demoEv) =
    [⟨0, 0, 0⟩, ⟨1, 5, 25⟩, ⟨2, 9, 53⟩, ⟨0, 0, 0⟩] := by decide +kernel

/-! ## C42 -/

/-- C42 is false: with two threads, for every grid size and whatever `malloc` returned, there is a schedule of the
clearing loops in which both threads finish, no store goes out of bounds, and yet *no* cell of thread 1 has been
cleared (the loop counter is shared). -/
theorem C42_uncleared_refuted (size : ℕ) (j : ℕ) (mem : ℕ → ℕ → ℕ → ℚ) :
    ∃ sched : List ℕ, (∀ t ∈ sched, t < 2) ∧
      let s := (Clr.start j mem).run size sched
      s.pc 0 = .done ∧ s.pc 1 = .done ∧ s.oob = false ∧ ∀ k c, s.mem 1 k c = mem 1 k c := by
  refine ⟨[0, 1] ++ List.replicate (6 * size + 1) 0 ++ [1], ?_, ?_⟩
  · intro t ht
    simp only [List.mem_append, List.mem_cons, List.not_mem_nil, or_false, List.mem_replicate] at ht
    omega
  · have e0 : ∃ s0 : Clr, (Clr.start j mem).run size [0, 1] = s0 ∧ s0.pc 0 = .test ∧ s0.pc 1 = .test ∧ s0.j = 0 ∧
        s0.mem = mem ∧ s0.oob = false := by
      refine ⟨_, rfl, ?_, ?_, ?_, ?_, ?_⟩ <;> simp [Clr.run, Clr.step, Clr.start]
    obtain ⟨s0, h0, h1, h2, h3, h4, h5⟩ := e0
    obtain ⟨a1, a2, a3, a4, a5⟩ := clr_whole size 0 s0 h1 h3
    have e : (Clr.start j mem).run size ([0, 1] ++ List.replicate (6 * size + 1) 0 ++ [1]) =
        (s0.run size (List.replicate (6 * size + 1) 0)).step size 1 := by
      rw [← h0]; simp only [Clr.run, List.foldl_append, List.foldl_cons, List.foldl_nil]
    simp only [e]
    set r := s0.run size (List.replicate (6 * size + 1) 0)
    have b1 : r.pc 1 = .test := by rw [a3 1 (by decide), h2]
    have es : r.step size 1 = { r with pc := fun t' => if t' = 1 then .done else r.pc t' } := by
      unfold Clr.step; rw [b1]; simp [a2]
    rw [es]
    refine ⟨by simpa using a1, by simp, by rw [← h5]; exact a4, fun k c => ?_⟩
    show r.mem 1 k c = _
    rw [a5, if_neg (by simp), h4]

/-- ... and what was left in those cells is added to the result. -/
theorem C42_garbage_in_result_refuted (g : Grid) (T : ℕ) (hT : 1 ≤ T) (m : Priv) (data : List Pt) (ev : List (ℕ × Pt))
    (hev : Spec.Schedules T data ev) (c : ℕ) :
    (out id g T m ev c).n = (out id g T zeroed ev c).n + ((List.range T).map (fun t => (m t c).n)).sum := by
  rw [out_id g T hT m ev hev.2, out_id g T hT zeroed ev hev.2]
  have hz : (fun t => zeroed t c) = fun _ => (0 : Acc) := rfl
  have hs : ∀ l : List Acc, l.sum.n = (l.map Acc.n).sum := by
    intro l; induction l with
    | nil => rfl
    | cons a l ih => simp [ih]
  have h0 : ((List.range T).map (fun _ : ℕ => (0 : Acc))).sum = 0 := by simp
  rw [hz, h0, Acc.add_n, zero_add, hs ((List.range T).map (fun t => m t c)), List.map_map, add_comm]
  rfl

/-- C42, what holds: a single thread (or threads that run the loop one after the other) clears all cells of its three
arrays, without touching anything else. -/
theorem C42_sequential_partial (size : ℕ) (s : Clr) (t : ℕ) (h : s.pc t = .init) :
    let s' := s.run size (List.replicate (6 * size + 2) t)
    s'.pc t = .done ∧ s'.oob = s.oob ∧ (∀ k c, k < 3 → c < size → s'.mem t k c = 0) ∧
    (∀ t' k c, t' ≠ t → s'.mem t' k c = s.mem t' k c) ∧ ∀ t', t' ≠ t → s'.pc t' = s.pc t' := by
  have e : s.run size (List.replicate (6 * size + 2) t) = (s.step size t).run size (List.replicate (6 * size + 1) t) := by
    rw [show 6 * size + 2 = (6 * size + 1) + 1 by ring, List.replicate_succ]
    rfl
  have es : s.step size t = { s with j := 0, pc := fun t' => if t' = t then .test else s.pc t' } := by
    unfold Clr.step; rw [h]
  simp only [e, es]
  obtain ⟨a1, a2, a3, a4, a5⟩ := clr_whole size t { s with j := 0, pc := fun t' => if t' = t then .test else s.pc t' }
    (by simp) rfl
  refine ⟨a1, a4, fun k c hk hc => ?_, fun t' k c ht => ?_, fun t' ht => ?_⟩
  · rw [a5, if_pos ⟨rfl, hk, hc⟩]
  · rw [a5, if_neg (fun hh => ht hh.1)]
  · rw [a3 t' ht]; simp [ht]

example : ((Clr.start 99 (fun _ _ _ => 13)).run 2 (List.replicate 14 0)).mem 0 2 1 = 0 := by decide +kernel

/-! ## C43 -/

/-- Mean of a list. -/
def Spec.mu (vs : List ℚ) : ℚ := vs.sum / vs.length

/-- Population variance of a list. -/
def Spec.var (vs : List ℚ) : ℚ := (vs.map (fun v => (v - Spec.mu vs) ^ 2)).sum / vs.length

theorem variance_eq (vs : List ℚ) (h : vs ≠ []) :
    variance id ⟨vs.length, vs.sum, (vs.map (fun v => v * v)).sum⟩ = Spec.var vs := by
  have hn : (vs.length : ℚ) ≠ 0 := by simpa using h
  have key : ∀ (m : ℚ) (l : List ℚ), (l.map (fun v => (v - m) ^ 2)).sum =
      (l.map (fun v => v * v)).sum - 2 * m * l.sum + l.length * m ^ 2 := by
    intro m l
    induction l with
    | nil => simp
    | cons a l ih => simp only [List.map_cons, List.sum_cons, ih, List.length_cons]; push_cast; ring
  unfold variance Spec.var
  simp only [id]
  rw [key]
  unfold Spec.mu
  field_simp
  ring

/-- C43 (exact arithmetic): mean and standard error of the voxel's values; empty voxels give NaN and 0. -/
theorem C43_mean_and_error_partial (g : Grid) (hg : Spec.Proper g) (T : ℕ) (hT : 1 ≤ T) (data : List Pt) (ev : List (ℕ × Pt))
    (hev : Spec.Schedules T data ev) (i j k : ℕ) (hi : i < g.x.n) (hj : j < g.y.n) (hk : k < g.z.n) :
    let vs := Spec.values g i j k data
    let a := out id g T zeroed ev (flat g i j k)
    (vs = [] → mean a = none ∧ stdErr id a = some 0) ∧
    (vs ≠ [] → mean a = some (Spec.mu vs) ∧ 0 ≤ Spec.var vs ∧
      stdErr id a = some (Real.sqrt (Spec.var vs) / Real.sqrt vs.length)) := by
  intro vs a
  have ha : a = ⟨vs.length, vs.sum, (vs.map (fun v => v * v)).sum⟩ := C41_voxel_sums g hg T hT data ev hev i j k hi hj hk
  constructor
  · intro h; rw [ha, h]; exact ⟨rfl, by simp [stdErr]⟩
  · intro h
    have hn : vs.length ≠ 0 := by simpa using h
    have hv : 0 ≤ Spec.var vs := by
      unfold Spec.var
      refine div_nonneg (List.sum_nonneg ?_) (by positivity)
      intro x hx
      obtain ⟨v, _, rfl⟩ := List.mem_map.1 hx
      positivity
    refine ⟨by rw [ha]; simp [mean, h, Spec.mu], hv, ?_⟩
    unfold stdErr
    rw [ha, variance_eq vs h]
    simp only
    rw [if_neg hn, if_neg (not_lt.2 hv)]

/-- C43 is false with floating-point rounding: three points of the same intensity 0.1 in one voxel give a negative
"variance", hence a NaN standard error. -/
theorem C43_nan_error_refuted :
    let p : Pt := ⟨0, 0, 0, some (Fl.round53 (1 / 10))⟩
    let g : Grid := ⟨⟨0, 1, 1⟩, ⟨0, 1, 1⟩, ⟨0, 1, 1⟩⟩
    stdErr Fl.round53 (out Fl.round53 g 1 zeroed [(0, p), (0, p), (0, p)] 0) = none := by
  have h : variance Fl.round53 (out Fl.round53 ⟨⟨0, 1, 1⟩, ⟨0, 1, 1⟩, ⟨0, 1, 1⟩⟩ 1 zeroed
    (List.replicate 3 (0, ⟨0, 0, 0, some (Fl.round53 (1 / 10))⟩)) 0) < 0 := by decide +kernel
  have hn : (out Fl.round53 ⟨⟨0, 1, 1⟩, ⟨0, 1, 1⟩, ⟨0, 1, 1⟩⟩ 1 zeroed
    (List.replicate 3 (0, ⟨0, 0, 0, some (Fl.round53 (1 / 10))⟩)) 0).n = 3 := by decide +kernel
  simp only
  unfold stdErr
  change (if (out Fl.round53 ⟨⟨0, 1, 1⟩, ⟨0, 1, 1⟩, ⟨0, 1, 1⟩⟩ 1 zeroed
    (List.replicate 3 (0, ⟨0, 0, 0, some (Fl.round53 (1 / 10))⟩)) 0).n = 0 then _ else _) = _
  rw [if_neg (by rw [hn]; decide)]
  exact if_pos h

/-! ## C44 -/

/-- C44, the part that holds (exact arithmetic): when the largest coordinate of every axis is not negative, every point
falls in one of the voxels, so the occupancies sum to the number of points.  `all` are the coordinates the bounds
come from (masked pixels included). -/
theorem C44_all_points_counted_partial (spacing : ℚ → ℚ) (hs : ∀ m, 0 ≤ m → 0 < spacing m) (all data : List Pt)
    (hsub : ∀ p ∈ data, p ∈ all) (hv : ∀ p ∈ data, p.v.isSome) (hx : ∃ p ∈ all, 0 ≤ p.x) (hy : ∃ p ∈ all, 0 ≤ p.y)
    (hz : ∃ p ∈ all, 0 ≤ p.z) (nx ny nz : Option ℕ) (hnx : nx ≠ some 0) (hny : ny ≠ some 0) (hnz : nz ≠ some 0)
    (ax ay az : Axis) (hax : axisOf id spacing (all.map Pt.x) none none nx = .ok ax)
    (hay : axisOf id spacing (all.map Pt.y) none none ny = .ok ay)
    (haz : axisOf id spacing (all.map Pt.z) none none nz = .ok az) (T : ℕ) (hT : 1 ≤ T) (ev : List (ℕ × Pt))
    (hev : Spec.Schedules T data ev) :
    let g : Grid := ⟨ax, ay, az⟩
    Spec.Proper g ∧ ((List.range g.size).map (fun c => (out id g T zeroed ev c).n)).sum = data.length := by
  intro g
  have key : ∀ (f : Pt → ℚ) (n : Option ℕ) (a : Axis), (∃ p ∈ all, 0 ≤ f p) → n ≠ some 0 →
      axisOf id spacing (all.map f) none none n = .ok a →
      (a.lo < a.hi ∧ 0 < a.n) ∧ ∀ p ∈ all, a.lo ≤ f p ∧ f p < a.hi := by
    intro f n a hp hn h
    unfold axisOf at h
    split at h
    · next mn mx h1 h2 =>
      simp only [Option.getD_none, id, Except.ok.injEq] at h
      subst h
      obtain ⟨-, h1'⟩ := List.min?_eq_some_iff.1 h1
      obtain ⟨-, h2'⟩ := List.max?_eq_some_iff.1 h2
      obtain ⟨p, hpm, hp0⟩ := hp
      have hmx : 0 ≤ mx := le_trans hp0 (h2' _ (List.mem_map_of_mem hpm))
      have hsp := hs mx hmx
      refine ⟨⟨?_, ?_⟩, fun p hp => ⟨h1' _ (List.mem_map_of_mem hp), ?_⟩⟩
      · have := h1' _ (List.mem_map_of_mem (f := f) hpm)
        have := h2' _ (List.mem_map_of_mem (f := f) hpm)
        simp only; linarith
      · cases n with
        | none => simp
        | some k => simp only [Option.getD_some]; simp at hn; omega
      · have := h2' _ (List.mem_map_of_mem (f := f) hp); linarith
    · simp at h
  obtain ⟨px, qx⟩ := key Pt.x nx ax hx hnx hax
  obtain ⟨py, qy⟩ := key Pt.y ny ay hy hny hay
  obtain ⟨pz, qz⟩ := key Pt.z nz az hz hnz haz
  have hg : Spec.Proper g := ⟨px, py, pz⟩
  refine ⟨hg, ?_⟩
  have h0 : ∀ c, out id g T zeroed ev c = (data.map (pt g c)).sum := by
    intro c
    rw [out_id g T hT zeroed ev hev.2]
    have h0 : ((List.range T).map (fun t => zeroed t c)).sum = 0 := by
      have : (fun t => zeroed t c) = fun _ => (0 : Acc) := rfl
      rw [this]; simp
    rw [h0, zero_add, ← (hev.1.map (pt g c)).sum_eq, List.map_map]; rfl
  simp only [h0]
  rw [count_voxels g data (fun p _ c v h => voxel_lt g hg p c v h)]
  congr 1
  rw [List.filter_eq_self]
  intro p hp
  have hcell : ∀ (a : Axis) (x : ℚ), a.lo < a.hi → 0 < a.n → a.lo ≤ x ∧ x < a.hi → ∃ i, cell id a x = some i := by
    intro a x h1 h2 h3
    have hl : 0 < a.hi - a.lo := by linarith
    unfold cell
    simp only [id]
    rw [if_neg hl.ne', if_pos]
    · exact ⟨_, rfl⟩
    · exact ⟨div_nonneg (by linarith) hl.le, by rw [div_lt_one hl]; linarith⟩
  obtain ⟨i, hi⟩ := hcell ax p.x px.1 px.2 (qx p (hsub p hp))
  obtain ⟨j, hj⟩ := hcell ay p.y py.1 py.2 (qy p (hsub p hp))
  obtain ⟨k, hk⟩ := hcell az p.z pz.1 pz.2 (qz p (hsub p hp))
  obtain ⟨v, hv'⟩ := Option.isSome_iff_exists.1 (hv p hp)
  have : voxel id g p = some (flat g i j k, v) := by
    unfold voxel
    rw [hv', hi, hj, hk]
  rw [this]; rfl

example : axisOf id npSpacing [-2, 1/2] none none none = .ok ⟨-2, 1/2 + 1 / 2^53, 100⟩ := by decide +kernel

/-- C44 is false when the largest coordinate of an axis is negative: the padding has the wrong sign, and the points with
the largest coordinate are in no voxel (even in exact arithmetic). -/
theorem C44_negative_coordinates_refuted (spacing : ℚ → ℚ) (qs : List ℚ) (mx mn : ℚ) (hmx : qs.max? = some mx)
    (hmn : qs.min? = some mn) (hneg : spacing mx < 0) (hwide : mn < mx + spacing mx) (n : Option ℕ) :
    ∃ a, axisOf id spacing qs none none n = .ok a ∧ cell id a mx = none := by
  refine ⟨⟨mn, mx + spacing mx, n.getD 100⟩, by simp [axisOf, hmx, hmn], ?_⟩
  unfold cell
  simp only [id]
  have hl : 0 < mx + spacing mx - mn := by linarith
  rw [if_neg hl.ne', if_neg]
  rintro ⟨-, h⟩
  rw [div_lt_one hl] at h
  linarith

/-- The same with the concrete spacing: two points with x = -2 and x = -1; the second one is lost. -/
theorem C44_negative_coordinates_witness :
    axisOf Fl.round53 npSpacing [-2, -1] none none none = .ok ⟨-2, -1 - 1 / 2 ^ 52, 100⟩ ∧
    cell Fl.round53 ⟨-2, -1 - 1 / 2 ^ 52, 100⟩ (-1) = none := by decide +kernel

/-- C44 is also false because of rounding although the padding is positive: with x = -1 and x = 0 the padding
disappears in `grid_stop - grid_start`, and the point with the largest coordinate is lost. -/
theorem C44_rounding_refuted :
    axisOf Fl.round53 npSpacing [-1, 0] none none none = .ok ⟨-1, 1 / 2 ^ 1074, 100⟩ ∧
    cell Fl.round53 ⟨-1, 1 / 2 ^ 1074, 100⟩ 0 = none ∧ cell Fl.round53 ⟨-1, 1 / 2 ^ 1074, 100⟩ (-1) = some 0 := by
  decide +kernel

/-! ## C45 -/

theorem insertIntensity_eq (q : List (ℚ × ℚ × ℚ)) (img : List (Option ℚ)) (h : q.length = img.length) :
    insertIntensity q img = .ok (List.zipWith (fun p v => ⟨p.1, p.2.1, p.2.2, v⟩) q img) := by
  unfold insertIntensity
  split
  · next v =>
    match q, h with
    | [p], _ => rfl
  · rw [if_pos h]

theorem filterMap_zip (pts : List Pt) (m : List Bool) (h : m.length = pts.length) :
    (pts.zip m).filterMap (fun e => if e.2 then some e.1 else none) =
      (List.range pts.length).filterMap (fun (k : ℕ) => if m[k]? = some true then pts[k]? else none) := by
  induction pts generalizing m with
  | nil => simp
  | cons p pts ih =>
    match m, h with
    | b :: m, h =>
      rw [List.zip_cons_cons, List.length_cons, List.range_succ_eq_map, List.filterMap_cons, List.filterMap_cons,
        List.filterMap_map, ih m (by simpa using h)]
      have e : (List.range pts.length).filterMap ((fun (k : ℕ) => if (b :: m)[k]? = some true then (p :: pts)[k]? else none) ∘ Nat.succ) =
          (List.range pts.length).filterMap (fun (k : ℕ) => if m[k]? = some true then pts[k]? else none) := by
        congr 1
      rw [e]
      cases b <;> simp

/-- The k-th pixel of the stack as a gridded point. -/
def Spec.point (q : List (ℚ × ℚ × ℚ)) (img : List (Option ℚ)) (k : ℕ) : Option Pt :=
  match q[k]?, img[k]? with
  | some p, some v => some ⟨p.1, p.2.1, p.2.2, v⟩
  | _, _ => none

/-- Flat pixel k is selected by the mask: a mask of one image's shape is used for every image of the stack. -/
def Spec.kept (imageSize : ℕ) (perImage : Bool) (m : List Bool) (k : ℕ) : Prop :=
  if perImage then m[k % imageSize]? = some true else m[k]? = some true

instance (s b m k) : Decidable (Spec.kept s b m k) := by unfold Spec.kept; infer_instance

/-- C45: for a stack of n images, a mask of the stack's shape selects pixel by pixel, a mask of one image's shape selects
the same pixels of every image, in order; any other shape is a ValueError. -/
theorem C45_mask (n : ℕ) (hn : 0 < n) (single : List ℕ) (img : List (Option ℚ)) (q : List (ℚ × ℚ × ℚ)) (ms : List ℕ) (m : List Bool)
    (hq : q.length = n * single.prod) (hi : img.length = n * single.prod) (hm : m.length = ms.prod) :
    (ms ≠ n :: single → ms ≠ single → gridPoints (n :: single) img q (some (ms, m)) = .error .valueError) ∧
    (ms = n :: single ∨ ms = single → gridPoints (n :: single) img q (some (ms, m)) =
      .ok ((List.range (n * single.prod)).filterMap (fun (k : ℕ) =>
        if Spec.kept single.prod (decide (ms = single)) m k then Spec.point q img k else none))) := by
  have hcheck : checkMask (n :: single) (some (ms, m)) = if ms = n :: single then .ok (some m)
      else if ms = single then .ok (some ((List.replicate n m).flatten)) else .error .valueError := by
    unfold checkMask
    cases n with
    | zero => omega
    | succ n => rfl
  have hne : n :: single ≠ single := fun h => by simpa using congrArg List.length h
  constructor
  · intro h1 h2
    unfold gridPoints
    rw [hcheck, if_neg h1, if_neg h2]
  · intro h
    have hpts : ∀ k : ℕ, (List.zipWith (fun (p : ℚ × ℚ × ℚ) v => (⟨p.1, p.2.1, p.2.2, v⟩ : Pt)) q img)[k]? = Spec.point q img k := by
      intro k
      rw [List.getElem?_zipWith]
      unfold Spec.point
      cases q[k]? <;> cases img[k]? <;> rfl
    have hfin : ∀ mm : List Bool, mm.length = n * single.prod →
        (∀ k : ℕ, k < n * single.prod → (mm[k]? = some true ↔ Spec.kept single.prod (decide (ms = single)) m k)) →
        checkMask (n :: single) (some (ms, m)) = .ok (some mm) →
        gridPoints (n :: single) img q (some (ms, m)) =
        .ok ((List.range (n * single.prod)).filterMap (fun (k : ℕ) =>
          if Spec.kept single.prod (decide (ms = single)) m k then Spec.point q img k else none)) := by
      intro mm hl hk hc
      have hlen : (List.zipWith (fun (p : ℚ × ℚ × ℚ) v => (⟨p.1, p.2.1, p.2.2, v⟩ : Pt)) q img).length = n * single.prod := by
        rw [List.length_zipWith, hq, hi]; simp
      unfold gridPoints
      rw [hc]
      simp only [insertIntensity_eq q img (by omega), applyMask]
      rw [if_pos (by rw [hl, hlen]), filterMap_zip _ _ (by rw [hl, hlen]), hlen]
      congr 1
      apply List.filterMap_congr
      intro k hkm
      rw [List.mem_range] at hkm
      rw [hpts]
      by_cases hh : mm[k]? = some true
      · rw [if_pos hh, if_pos ((hk k hkm).1 hh)]
      · rw [if_neg hh, if_neg (fun h' => hh ((hk k hkm).2 h'))]
    rcases h with h | h
    · apply hfin m (by rw [hm, h]; simp) _ (by rw [hcheck, if_pos h])
      intro k _
      have : ms ≠ single := fun h' => hne (h.symm.trans h')
      simp [Spec.kept, this]
    · have hml : m.length = single.prod := by rw [hm, h]
      have hfl : (List.replicate n m).flatten = (List.replicate n m).flatMap id := by rw [List.flatMap_id]
      apply hfin ((List.replicate n m).flatten) _ _ (by rw [hcheck, if_neg (fun h' => hne (h'.symm.trans h)), if_pos h])
      · rw [hfl, length_flatMap_const _ _ single.prod]
        · simp
        · intro a ha; rw [List.mem_replicate] at ha; rw [ha.2]; exact hml
      · intro k hk
        have hpos : 0 < single.prod := by
          rcases Nat.eq_zero_or_pos single.prod with h0 | h0
          · rw [h0] at hk; omega
          · exact h0
        have hk' : k / single.prod < n := Nat.div_lt_of_lt_mul (by rw [Nat.mul_comm]; exact hk)
        have e : k = k / single.prod * single.prod + k % single.prod := (Nat.div_add_mod' k _).symm
        have := getElem?_flatMap_const (List.replicate n m) id single.prod (by
          intro a ha; rw [List.mem_replicate] at ha; rw [ha.2]; exact hml) (k / single.prod) (k % single.prod) (Nat.mod_lt _ hpos)
        rw [← e] at this
        rw [hfl, this]
        simp [Spec.kept, h, hk', List.getElem?_replicate]

/-- No mask: every pixel is gridded. -/
theorem C45_no_mask (shape : List ℕ) (img : List (Option ℚ)) (q : List (ℚ × ℚ × ℚ)) (h : q.length = img.length) :
    gridPoints shape img q none = .ok (List.zipWith (fun p v => ⟨p.1, p.2.1, p.2.2, v⟩) q img) := by
  unfold gridPoints checkMask
  simp only [insertIntensity_eq q img h, applyMask]

example : gridPoints [2, 1, 2] [some 1, some 2, some 3, some 4] [(0,0,0), (1,0,0), (2,0,0), (3,0,0)] (some ([1, 2], [true, false])) =
    .ok [⟨0, 0, 0, some 1⟩, ⟨2, 0, 0, some 3⟩] := by decide +kernel

/-! ## C88 -/

/-- C88 is false: for every grid size ≥ 1 there is a schedule of two threads in which the clearing loop stores past the
end of an array. -/
theorem C88_race_out_of_bounds_refuted (size j : ℕ) (hs : 1 ≤ size) (mem : ℕ → ℕ → ℕ → ℚ) :
    ∃ sched : List ℕ, (∀ t ∈ sched, t < 2) ∧ ((Clr.start j mem).run size sched).oob = true := by
  refine ⟨[0, 0, 1] ++ List.replicate (6 * size + 1) 1 ++ [0], ?_, ?_⟩
  · intro t ht
    simp only [List.mem_append, List.mem_cons, List.not_mem_nil, or_false, List.mem_replicate] at ht
    omega
  · have e0 : ∃ s0 : Clr, (Clr.start j mem).run size [0, 0, 1] = s0 ∧ s0.pc 0 = .w0 ∧ s0.pc 1 = .test ∧ s0.j = 0 := by
      refine ⟨_, rfl, ?_, ?_, ?_⟩ <;> simp [Clr.run, Clr.step, Clr.start, show 0 < size by omega]
    obtain ⟨s0, h0, h1, h2, h3⟩ := e0
    obtain ⟨a1, a2, a3, a4, a5⟩ := clr_whole size 1 s0 h2 h3
    have e : (Clr.start j mem).run size ([0, 0, 1] ++ List.replicate (6 * size + 1) 1 ++ [0]) =
        (s0.run size (List.replicate (6 * size + 1) 1)).step size 0 := by
      rw [← h0]; simp only [Clr.run, List.foldl_append, List.foldl_cons, List.foldl_nil]
    rw [e]
    set r := s0.run size (List.replicate (6 * size + 1) 1)
    have b1 : r.pc 0 = .w0 := by rw [a3 0 (by decide), h1]
    unfold Clr.step
    rw [b1]
    simp [Clr.store, a2]

/-- C88 is false in builds without OpenMP (macOS): the only thread writes an entry that was not allocated. -/
theorem C88_no_openmp_refuted (n t : ℕ) : ¬ threadIndex false t < threadSlots false n := by
  simp [threadIndex, threadSlots]

/-- C88 is false for an axis with zero bins: the arrays are empty, yet every in-range point is stored. -/
theorem C88_zero_bins_refuted (g : Grid) (p : Pt) (h : g.size = 0) (c : ℕ) (v : ℚ) (_hv : voxel id g p = some (c, v)) :
    ¬ c < g.size := by omega

example : voxel id ⟨⟨0, 1, 0⟩, ⟨0, 1, 5⟩, ⟨0, 1, 5⟩⟩ ⟨0, 0, 0, some 3⟩ = some (0, 3) := by decide +kernel

/-- C88, what holds: with OpenMP, at least one bin per axis and non-empty ranges, accumulation stays inside the arrays. -/
theorem C88_accumulation_in_bounds_partial (g : Grid) (hg : Spec.Proper g) (p : Pt) (c : ℕ) (v : ℚ)
    (h : voxel id g p = some (c, v)) (t n : ℕ) (ht : t < n) : c < g.size ∧ threadIndex true t < threadSlots true n :=
  ⟨voxel_lt g hg p c v h, ht⟩

end Verif.Grid
