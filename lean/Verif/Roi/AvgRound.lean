/- bin_1D and circular_average (skbeam/core/utils.py, skbeam/core/roi.py) in floating-point arithmetic (C226): sums of bins as
`np.histogram` computes them for an array of bin edges, namely as differences of a running sum over the pixels in order of radius. -/
import Verif.Roi.StatProps
import Verif.FlMono
import Verif.Speckle.Round
import Mathlib.Tactic.Linarith
import Mathlib.Tactic.Ring

namespace Verif.Roi.Rnd
open Verif Verif.Fl

/-! ### Model -/

section model
variable (fl : ℚ → ℚ)

/-- `for i in range(0, len(a), BLOCK): a[i:i+BLOCK]` of `np.histogram`; the second argument bounds the number of passes. -/
def blocks {α : Type} (B : ℕ) : ℕ → List α → List (List α)
  | 0, _ => []
  | _ + 1, [] => []
  | f + 1, x :: t => (x :: t).take B :: blocks B f ((x :: t).drop B)

/-- `cw[i]` with `cw = np.concatenate((zero, sw.cumsum()))`: the running sum of the first i weights, rounded after every addition. -/
def cw (s : List (ℚ × ℚ)) (i : ℕ) : ℚ := (s.take i).foldl (fun c p => fl (c + p.2)) 0

/-- One entry of `cum_n` of `np.histogram`: for every block the weights are sorted by position and `cw[bin_index]` is added;
`bin_index` is the number of positions below the edge (`below`). -/
def cumN (sort : List (ℚ × ℚ) → List (ℚ × ℚ)) (bs : List (List (ℚ × ℚ))) (below : ℚ → Bool) : ℚ :=
  bs.foldl (fun acc b => fl (acc + cw fl (sort b) ((sort b).countP (fun p => below p.1)))) 0

/-- `cum_n` at all edges (`_search_sorted_inclusive`: the last edge counts as inside). -/
def cumAt (sort : List (ℚ × ℚ) → List (ℚ × ℚ)) (bs : List (List (ℚ × ℚ))) : List ℚ → List ℚ
  | [] => []
  | [e] => [cumN fl sort bs (fun x => decide (x ≤ e))]
  | e :: t => cumN fl sort bs (fun x => decide (x < e)) :: cumAt sort bs t

/-- `np.histogram(x, bins=edges, weights=y)` for an array of edges (the call of bin_1D, utils.py:559), blocks of B samples; `np.diff`
of the cumulative sums.  How `np.argsort` orders equal positions is left open (`sort`). -/
def histogram (sort : List (ℚ × ℚ) → List (ℚ × ℚ)) (B : ℕ) (px : List (ℚ × ℚ)) (edges : List ℚ) : Py (List ℚ) :=
  if edges.IsChain (· ≤ ·) then
    let c := cumAt fl sort (blocks B px.length px) edges
    .ok (List.zipWith (fun a b => fl (b - a)) c c.tail)
  else .error .valueError

/-- `circular_average` from the bin edges on, roi.py:431-434 with utils.py:559-561: px are the radii and intensities of the pixels that
are not masked, edges what `np.linspace` returned.  The counts are integers.  The result is the list of ring averages. -/
def circularAverage (sort : List (ℚ × ℚ) → List (ℚ × ℚ)) (px : List (ℚ × ℚ)) (edges : List ℚ) (threshold : ℚ) : Py (List ℚ) :=
  match histogram fl sort 65536 px edges, Np.histogram (px.map (fun p => (p.1, 1))) edges with
  | .ok sums, .ok counts => .ok (((sums.zip counts).filter (fun p => decide (threshold < p.2))).map (fun p => fl (p.1 / p.2)))
  | .error e, _ => .error e
  | _, .error e => .error e
end model

/-! ### Specification -/

/-- Position x lies in bin k of the edges; the last bin includes its right edge. -/
def Spec.inBin (e : List ℚ) (k : ℕ) (x : ℚ) : Bool :=
  match e[k]?, e[k + 1]? with
  | some a, some b => decide (a ≤ x) && (decide (x < b) || (decide (k + 2 = e.length) && decide (x = b)))
  | _, _ => false

/-- Position x lies in bin k or to the left of it. -/
def Spec.upTo (e : List ℚ) (k : ℕ) (x : ℚ) : Bool :=
  match e[k + 1]? with
  | some b => decide (x < b) || (decide (k + 2 = e.length) && decide (x = b))
  | none => false

/-- The values of the samples that satisfy a condition on their position. -/
def Spec.values (px : List (ℚ × ℚ)) (P : ℚ → Bool) : List ℚ := (px.filter (fun p => P p.1)).map Prod.snd

/-- The sum of the absolute values. -/
def Spec.size (l : List ℚ) : ℚ := (l.map (fun x => |x|)).sum

/-- What is known of `np.argsort`: it sorts the samples by position. -/
def Spec.IsSort (sort : List (ℚ × ℚ) → List (ℚ × ℚ)) : Prop := ∀ l, (sort l).Perm l ∧ (sort l).Pairwise (fun p q => p.1 ≤ q.1)

/-- Whole numbers up to N in size are represented exactly (double precision: N = 2^53). -/
def Spec.WholeExact (N : ℕ) (fl : ℚ → ℚ) : Prop := ∀ z : ℤ, |z| ≤ N → fl z = z

/-! ### Running sums -/

section run
variable {u : ℚ} {fl : ℚ → ℚ}

/-- The running sum of a list from c on. -/
abbrev run (fl : ℚ → ℚ) (c : ℚ) (l : List ℚ) : ℚ := l.foldl (fun c w => fl (c + w)) c

theorem run_near (hr : Fl.Spec.Rel u fl) (l : List ℚ) : Near u l.length (run fl 0 l) l.sum (Spec.size l) := by
  induction l using List.reverseRecOn with
  | nil => simpa [run, Spec.size] using Near.zero u
  | append_singleton t x ih =>
    have e : run fl 0 (t ++ [x]) = fl (run fl 0 t + x) := by simp [run]
    rw [e]
    have := Near.rnd_add hr ih (Near.exact u t.length hr.1 x)
    simpa [Spec.size] using this

theorem run_repr (hc : Fl.Spec.Correct fl) (l : List ℚ) (c : ℚ) (h : fl c = c) : fl (run fl c l) = run fl c l := by
  induction l generalizing c with
  | nil => exact h
  | cons x t ih => exact ih _ (hc.idem _)

theorem run_ge (hc : Fl.Spec.Correct fl) (l : List ℚ) (c : ℚ) (h : fl c = c) (hl : ∀ x ∈ l, 0 ≤ x) : c ≤ run fl c l := by
  induction l generalizing c with
  | nil => exact le_rfl
  | cons x t ih =>
    have h1 := hc.mono c (c + x) (by have := hl x (by simp); linarith)
    rw [h] at h1
    exact h1.trans (ih _ (hc.idem _) (fun y hy => hl y (by simp [hy])))

theorem run_zeros (l : List ℚ) (c : ℚ) (h : fl c = c) (hl : ∀ x ∈ l, x = 0) : run fl c l = c := by
  induction l generalizing c with
  | nil => rfl
  | cons x t ih =>
    have : run fl c (x :: t) = run fl (fl (c + x)) t := rfl
    rw [this, hl x (by simp), add_zero, h]
    exact ih c h (fun y hy => hl y (by simp [hy]))

theorem size_nonneg (l : List ℚ) : 0 ≤ Spec.size l := by
  unfold Spec.size
  exact List.sum_nonneg (by intro x hx; obtain ⟨y, _, rfl⟩ := List.mem_map.1 hx; exact abs_nonneg y)

theorem abs_sum_le (l : List ℚ) : |l.sum| ≤ Spec.size l := by
  induction l with
  | nil => simp [Spec.size]
  | cons x t ih =>
    simp only [Spec.size, List.map_cons, List.sum_cons] at ih ⊢
    exact (abs_add_le _ _).trans (by linarith)

/-- Sums of whole numbers are exact. -/
theorem run_whole {N : ℕ} (hw : Spec.WholeExact N fl) (l : List ℚ) (c : ℚ) (hci : ∃ z : ℤ, c = z) (hl : ∀ x ∈ l, ∃ z : ℤ, x = z)
    (hN : |c| + Spec.size l ≤ N) : run fl c l = c + l.sum := by
  induction l generalizing c with
  | nil => simp
  | cons x t ih =>
    obtain ⟨z, rfl⟩ := hci
    obtain ⟨y, rfl⟩ := hl x (by simp)
    simp only [Spec.size, List.map_cons, List.sum_cons] at hN
    have h1 : |(z : ℚ) + y| + Spec.size t ≤ N := by
      have := abs_add_le (z : ℚ) y
      unfold Spec.size
      linarith
    have h2 : fl ((z : ℚ) + y) = z + y := by
      have h3 := hw (z + y) (by
        have := size_nonneg t
        have : |(z : ℚ) + y| ≤ N := by linarith
        exact_mod_cast this)
      push_cast at h3
      exact h3
    have e : run fl (z : ℚ) ((y : ℚ) :: t) = run fl (fl ((z : ℚ) + y)) t := rfl
    rw [e, h2, ih ((z : ℚ) + y) ⟨z + y, by push_cast; ring⟩ (fun x hx => hl x (by simp [hx])) h1, List.sum_cons]
    ring
end run

/-! ### Cumulative sums at an edge -/

/-- A condition on positions that holds to the left of every position where it holds. -/
abbrev Down (P : ℚ → Bool) : Prop := ∀ x y, x ≤ y → P y = true → P x = true

theorem take_count (s : List (ℚ × ℚ)) (hs : s.Pairwise (fun p q => p.1 ≤ q.1)) (P : ℚ → Bool) (hP : Down P) :
    s.take (s.countP (fun p => P p.1)) = s.filter (fun p => P p.1) := by
  induction s with
  | nil => rfl
  | cons p t ih =>
    rw [List.pairwise_cons] at hs
    by_cases h : P p.1 = true
    · rw [List.countP_cons, List.filter_cons, if_pos h, if_pos h, List.take_succ_cons, ih hs.2]
    · have hall : ∀ q ∈ t, ¬ P q.1 = true := fun q hq hc => h (hP _ _ (hs.1 q hq) hc)
      rw [List.countP_cons, List.filter_cons, if_neg h, if_neg h, List.filter_eq_nil_iff.2 hall, List.countP_eq_zero.2 hall]
      rfl

section cum
variable {u : ℚ} {fl : ℚ → ℚ} {sort : List (ℚ × ℚ) → List (ℚ × ℚ)}

theorem cw_run (hs : Spec.IsSort sort) (b : List (ℚ × ℚ)) (P : ℚ → Bool) (hP : Down P) :
    cw fl (sort b) ((sort b).countP (fun p => P p.1)) = run fl 0 (Spec.values (sort b) P) := by
  unfold cw Spec.values run
  rw [take_count _ (hs b).2 P hP, List.foldl_map]

theorem values_perm {l m : List (ℚ × ℚ)} (h : l.Perm m) (P : ℚ → Bool) : (Spec.values l P).Perm (Spec.values m P) :=
  (h.filter _).map _

theorem size_perm {l m : List ℚ} (h : l.Perm m) : Spec.size l = Spec.size m := (h.map _).sum_eq

theorem values_append (l m : List (ℚ × ℚ)) (P : ℚ → Bool) : Spec.values (l ++ m) P = Spec.values l P ++ Spec.values m P := by
  simp [Spec.values]

theorem size_append (l m : List ℚ) : Spec.size (l ++ m) = Spec.size l + Spec.size m := by simp [Spec.size]

theorem cum_near (hr : Fl.Spec.Rel u fl) (hs : Spec.IsSort sort) (P : ℚ → Bool) (hP : Down P) (B : ℕ) (bs : List (List (ℚ × ℚ)))
    (hB : ∀ b ∈ bs, b.length ≤ B) :
    Near u (B + bs.length) (cumN fl sort bs P) (Spec.values bs.flatten P).sum (Spec.size (Spec.values bs.flatten P)) := by
  induction bs using List.reverseRecOn with
  | nil =>
    have := (Near.zero u).mono hr.1 (Nat.zero_le B)
    simpa [cumN, Spec.values, Spec.size] using this
  | append_singleton t b ih =>
    have e : cumN fl sort (t ++ [b]) P = fl (cumN fl sort t P + cw fl (sort b) ((sort b).countP (fun p => P p.1))) := by simp [cumN]
    have h1 := ih (fun b hb => hB b (by simp [hb]))
    have h2 := run_near hr (Spec.values (sort b) P)
    rw [(values_perm (hs b).1 P).sum_eq, size_perm (values_perm (hs b).1 P), (values_perm (hs b).1 P).length_eq] at h2
    have hl : (Spec.values b P).length ≤ B + t.length := by
      have : (Spec.values b P).length ≤ b.length := by unfold Spec.values; rw [List.length_map]; exact List.length_filter_le _ _
      have := hB b (by simp)
      omega
    have := Near.rnd_add hr h1 (h2.mono hr.1 hl)
    rw [e, cw_run hs b P hP, List.flatten_append, values_append, List.sum_append, size_append, List.length_append]
    simpa [add_assoc] using this

theorem filter_prefix (s : List (ℚ × ℚ)) (hs : s.Pairwise (fun p q => p.1 ≤ q.1)) (P Q : ℚ → Bool) (hP : Down P) (hPQ : ∀ x, P x = true → Q x = true) :
    Spec.values s Q = Spec.values s P ++ Spec.values s (fun x => Q x && !P x) := by
  induction s with
  | nil => rfl
  | cons p t ih =>
    rw [List.pairwise_cons] at hs
    have ih := ih hs.2
    unfold Spec.values at ih ⊢
    by_cases h : P p.1 = true
    · have hq := hPQ _ h
      simp only [List.filter_cons, h, hq, if_true, List.map_cons, Bool.not_true, Bool.and_false, Bool.false_eq_true, if_false, List.cons_append, ih]
    · have hall : ∀ q ∈ t, ¬ P q.1 = true := fun q hq hc => h (hP _ _ (hs.1 q hq) hc)
      have e : (p :: t).filter (fun p => P p.1) = [] := by
        rw [List.filter_cons, if_neg h]; exact List.filter_eq_nil_iff.2 hall
      rw [e, List.map_nil, List.nil_append]
      congr 1
      apply List.filter_congr
      intro q hq
      rcases List.mem_cons.1 hq with rfl | hq
      · simp [h]
      · simp [hall q hq]

theorem cum_repr (hc : Fl.Spec.Correct fl) (bs : List (List (ℚ × ℚ))) (P : ℚ → Bool) : fl (cumN fl sort bs P) = cumN fl sort bs P := by
  induction bs using List.reverseRecOn with
  | nil => exact hc.zero
  | append_singleton t b _ =>
    simp only [cumN, List.foldl_append, List.foldl_cons, List.foldl_nil]
    exact hc.idem _

theorem cum_le (hc : Fl.Spec.Correct fl) (hs : Spec.IsSort sort) (P Q : ℚ → Bool) (hP : Down P) (hQ : Down Q) (hPQ : ∀ x, P x = true → Q x = true)
    (bs : List (List (ℚ × ℚ))) (hnn : ∀ b ∈ bs, ∀ x ∈ Spec.values b (fun x => Q x && !P x), 0 ≤ x) : cumN fl sort bs P ≤ cumN fl sort bs Q := by
  induction bs using List.reverseRecOn with
  | nil => exact le_rfl
  | append_singleton t b ih =>
    have h1 := ih (fun b hb => hnn b (by simp [hb]))
    have e : ∀ R, cumN fl sort (t ++ [b]) R = fl (cumN fl sort t R + cw fl (sort b) ((sort b).countP (fun p => R p.1))) := by intro R; simp [cumN]
    rw [e P, e Q, cw_run hs b P hP, cw_run hs b Q hQ, filter_prefix _ (hs b).2 P Q hP hPQ]
    apply hc.mono
    have h2 : run fl 0 (Spec.values (sort b) P) ≤ run fl 0 (Spec.values (sort b) P ++ Spec.values (sort b) (fun x => Q x && !P x)) := by
      rw [run, run, List.foldl_append]
      apply run_ge hc _ _ (run_repr hc _ 0 hc.zero)
      intro x hx
      exact hnn b (by simp) x ((values_perm (hs b).1 _).mem_iff.1 hx)
    linarith

theorem cum_eq (hc : Fl.Spec.Correct fl) (hs : Spec.IsSort sort) (P Q : ℚ → Bool) (hP : Down P) (hQ : Down Q) (hPQ : ∀ x, P x = true → Q x = true)
    (bs : List (List (ℚ × ℚ))) (hz : ∀ b ∈ bs, ∀ x ∈ Spec.values b (fun x => Q x && !P x), x = 0) : cumN fl sort bs P = cumN fl sort bs Q := by
  induction bs using List.reverseRecOn with
  | nil => rfl
  | append_singleton t b ih =>
    have h1 := ih (fun b hb => hz b (by simp [hb]))
    have e : ∀ R, cumN fl sort (t ++ [b]) R = fl (cumN fl sort t R + cw fl (sort b) ((sort b).countP (fun p => R p.1))) := by intro R; simp [cumN]
    rw [e P, e Q, cw_run hs b P hP, cw_run hs b Q hQ, filter_prefix _ (hs b).2 P Q hP hPQ, h1]
    have h2 : run fl 0 (Spec.values (sort b) P ++ Spec.values (sort b) (fun x => Q x && !P x)) = run fl 0 (Spec.values (sort b) P) := by
      rw [run, run, List.foldl_append]
      apply run_zeros _ _ (run_repr hc _ 0 hc.zero)
      intro x hx
      exact hz b (by simp) x ((values_perm (hs b).1 _).mem_iff.1 hx)
    rw [h2]

theorem cum_whole {N : ℕ} (hw : Spec.WholeExact N fl) (hs : Spec.IsSort sort) (P : ℚ → Bool) (hP : Down P) (bs : List (List (ℚ × ℚ)))
    (hi : ∀ x ∈ Spec.values bs.flatten P, ∃ z : ℤ, x = z) (hN : Spec.size (Spec.values bs.flatten P) ≤ N) :
    cumN fl sort bs P = (Spec.values bs.flatten P).sum := by
  induction bs using List.reverseRecOn with
  | nil => simp [cumN, Spec.values]
  | append_singleton t b ih =>
    have e : cumN fl sort (t ++ [b]) P = fl (cumN fl sort t P + cw fl (sort b) ((sort b).countP (fun p => P p.1))) := by simp [cumN]
    rw [List.flatten_append, values_append] at hi hN
    rw [size_append] at hN
    have f1 : [b].flatten = b := by simp
    rw [f1] at hi hN
    have n1 := size_nonneg (Spec.values t.flatten P)
    have n2 := size_nonneg (Spec.values b P)
    have p := values_perm (hs b).1 P
    rw [e, cw_run hs b P hP, ih (fun x hx => hi x (by simp [hx])) (by linarith),
      run_whole hw _ 0 ⟨0, by simp⟩ (fun x hx => hi x (by simp [p.mem_iff.1 hx])) (by rw [size_perm p]; simp; linarith), zero_add, p.sum_eq]
    rw [List.flatten_append, values_append, List.sum_append, f1]
    have hsum : ∀ l : List ℚ, (∀ x ∈ l, ∃ z : ℤ, x = z) → ∃ z : ℤ, l.sum = z := by
      intro l
      induction l with
      | nil => exact fun _ => ⟨0, by simp⟩
      | cons x t ih =>
        intro h
        obtain ⟨z, hz⟩ := ih (fun y hy => h y (by simp [hy]))
        obtain ⟨y, hy⟩ := h x (by simp)
        exact ⟨y + z, by rw [List.sum_cons, hz, hy]; push_cast; rfl⟩
    obtain ⟨z, hz⟩ := hsum _ (fun x (hx : x ∈ Spec.values t.flatten P) => hi x (by simp [hx]))
    obtain ⟨y, hy⟩ := hsum _ (fun x (hx : x ∈ Spec.values b P) => hi x (by simp [hx]))
    have h3 := hw (z + y) (by
      have a1 := abs_sum_le (Spec.values t.flatten P)
      have a2 := abs_sum_le (Spec.values b P)
      rw [hz] at a1
      rw [hy] at a2
      have : |(z : ℚ) + y| ≤ N := (abs_add_le _ _).trans (by linarith)
      exact_mod_cast this)
    push_cast at h3
    rw [hz, hy, h3]
end cum

/-! ### Bins -/

theorem blocks_flatten {α : Type} (B : ℕ) (hB : 1 ≤ B) (f : ℕ) (l : List α) (h : l.length ≤ f) : (blocks B f l).flatten = l := by
  induction f generalizing l with
  | zero => rw [List.length_eq_zero_iff.1 (by omega : l.length = 0)]; rfl
  | succ f ih =>
    cases l with
    | nil => rfl
    | cons x t =>
      rw [blocks, List.flatten_cons, ih _ (by rw [List.length_drop]; simp at h ⊢; omega), List.take_append_drop]

theorem blocks_le {α : Type} (B f : ℕ) (l : List α) : ∀ b ∈ blocks B f l, b.length ≤ B := by
  induction f generalizing l with
  | zero => intro b hb; cases hb
  | succ f ih =>
    cases l with
    | nil => intro b hb; cases hb
    | cons x t =>
      intro b hb
      rw [blocks] at hb
      rcases List.mem_cons.1 hb with rfl | hb
      · exact List.length_take_le _ _
      · exact ih _ b hb

theorem blocks_count {α : Type} (B : ℕ) (hB : 1 ≤ B) (f : ℕ) (l : List α) : (blocks B f l).length * B < l.length + B := by
  induction f generalizing l with
  | zero => simp [blocks]; omega
  | succ f ih =>
    cases l with
    | nil => simp [blocks]; omega
    | cons x t =>
      rw [blocks, List.length_cons, Nat.add_mul, one_mul]
      by_cases hc : (x :: t).length ≤ B
      · have : (x :: t).drop B = [] := List.drop_eq_nil_of_le hc
        have h2 : (blocks B f ([] : List α)).length = 0 := by cases f <;> rfl
        rw [this, h2]
        simp
      · have := ih ((x :: t).drop B)
        rw [List.length_drop] at this
        omega

/-- The condition below which a sample is counted at edge number k. -/
def edgeBelow (e : List ℚ) (k : ℕ) (a : ℚ) : ℚ → Bool := if k + 1 = e.length then (fun x => decide (x ≤ a)) else (fun x => decide (x < a))

theorem edgeBelow_down (e : List ℚ) (k : ℕ) (a : ℚ) : Down (edgeBelow e k a) := by
  intro x y hxy h
  unfold edgeBelow at *
  split at h <;> simp only [decide_eq_true_eq] at * <;> split <;> first | contradiction | (simp only [decide_eq_true_eq]; linarith)

theorem cumAt_get (fl : ℚ → ℚ) (sort : List (ℚ × ℚ) → List (ℚ × ℚ)) (bs : List (List (ℚ × ℚ))) (e : List ℚ) (k : ℕ) (a : ℚ) (hk : e[k]? = some a) :
    (cumAt fl sort bs e)[k]? = some (cumN fl sort bs (edgeBelow e k a)) := by
  induction e generalizing k with
  | nil => simp at hk
  | cons x t ih =>
    cases t with
    | nil =>
      cases k with
      | zero => simp at hk; simp [cumAt, edgeBelow, hk]
      | succ k => simp at hk
    | cons y t =>
      cases k with
      | zero => simp at hk; simp [cumAt, edgeBelow, hk]
      | succ k =>
        have h1 := ih k hk
        have h2 : edgeBelow (x :: y :: t) (k + 1) a = edgeBelow (y :: t) k a := by simp [edgeBelow]
        rw [h2, ← h1]
        rfl

theorem cumAt_length (fl : ℚ → ℚ) (sort : List (ℚ × ℚ) → List (ℚ × ℚ)) (bs : List (List (ℚ × ℚ))) (e : List ℚ) : (cumAt fl sort bs e).length = e.length := by
  induction e with
  | nil => rfl
  | cons x t ih =>
    cases t with
    | nil => rfl
    | cons y t =>
      rw [cumAt, List.length_cons, ih, List.length_cons]
      all_goals simp

section bins
variable {u : ℚ} {fl : ℚ → ℚ} {sort : List (ℚ × ℚ) → List (ℚ × ℚ)}

/-- Every sum is the difference of two cumulative sums. -/
theorem hist_get (B : ℕ) (px : List (ℚ × ℚ)) (e : List ℚ) (he : e.IsChain (· ≤ ·)) :
    ∃ out, histogram fl sort B px e = .ok out ∧ out.length = e.length - 1 ∧ ∀ k a b, e[k]? = some a → e[k + 1]? = some b →
      out[k]? = some (fl (cumN fl sort (blocks B px.length px) (edgeBelow e (k + 1) b) - cumN fl sort (blocks B px.length px) (edgeBelow e k a))) := by
  refine ⟨_, by unfold histogram; rw [if_pos he], ?_, ?_⟩
  · simp [cumAt_length]
  · intro k a b ha hb
    rw [List.getElem?_zipWith, List.getElem?_tail, cumAt_get fl sort _ e k a ha, cumAt_get fl sort _ e (k + 1) b hb]

theorem below_sub (e : List ℚ) (he : e.IsChain (· ≤ ·)) (k : ℕ) (a b : ℚ) (ha : e[k]? = some a) (hb : e[k + 1]? = some b) :
    (∀ x, edgeBelow e k a x = true → edgeBelow e (k + 1) b x = true) ∧
    (fun x => edgeBelow e (k + 1) b x && !edgeBelow e k a x) = Spec.inBin e k ∧ edgeBelow e (k + 1) b = Spec.upTo e k := by
  have hle := Np.chain_le_get e he k a b ha hb
  have hk : k + 1 < e.length := (List.getElem?_eq_some_iff.1 hb).1
  have h1 : edgeBelow e k a = fun x => decide (x < a) := by unfold edgeBelow; rw [if_neg (by omega)]
  have h2 : edgeBelow e (k + 1) b = Spec.upTo e k := by
    funext x
    unfold edgeBelow Spec.upTo
    rw [hb]
    by_cases hl : k + 2 = e.length
    · rw [if_pos (by omega)]
      simp only [hl, decide_true, Bool.true_and]
      rw [← Bool.decide_or]
      exact decide_eq_decide.2 le_iff_lt_or_eq
    · rw [if_neg (by omega)]
      simp [hl]
  refine ⟨?_, ?_, h2⟩
  · intro x hx
    rw [h1] at hx
    simp only [decide_eq_true_eq] at hx
    rw [h2]
    unfold Spec.upTo
    rw [hb]
    simp only [Bool.or_eq_true, decide_eq_true_eq]
    exact Or.inl (by linarith)
  · funext x
    rw [h1, h2]
    unfold Spec.upTo Spec.inBin
    rw [ha, hb]
    simp only []
    rw [Bool.and_comm]
    congr 1
    rw [← decide_not]
    exact decide_eq_decide.2 not_lt

theorem values_sub (px : List (ℚ × ℚ)) (P Q R : ℚ → Bool) (hPQ : ∀ x, P x = true → Q x = true) (hR : (fun x => Q x && !P x) = R) :
    (Spec.values px Q).sum = (Spec.values px P).sum + (Spec.values px R).sum ∧ Spec.size (Spec.values px P) ≤ Spec.size (Spec.values px Q) := by
  subst hR
  induction px with
  | nil => simp [Spec.values, Spec.size]
  | cons p t ih =>
    unfold Spec.values Spec.size at *
    have hx := abs_nonneg p.2
    by_cases h : P p.1 = true
    · simp only [List.filter_cons, h, hPQ _ h, if_true, List.map_cons, List.sum_cons, Bool.not_true, Bool.and_false, Bool.false_eq_true, if_false]
      exact ⟨by linarith [ih.1], by linarith [ih.2]⟩
    · have h' : P p.1 = false := by simpa using h
      by_cases hq : Q p.1 = true
      · simp only [List.filter_cons, h', hq, if_true, List.map_cons, List.sum_cons, Bool.not_false, Bool.and_true, Bool.false_eq_true, if_false]
        exact ⟨by linarith [ih.1], by linarith [ih.2]⟩
      · have hq' : Q p.1 = false := by simpa using hq
        simp only [List.filter_cons, h', hq', Bool.not_false, Bool.and_true, Bool.false_eq_true, if_false]
        exact ih

/-- C226, the error of a sum.  For every rounding with relative error at most u, however equal radii are ordered, and ascending edges: the
sum computed for a bin differs from the sum of the values in the bin by at most ε times twice the sum of the absolute values of all samples
up to and including the bin, where ε = (1+u)^(B + blocks + 1) - 1, B is the block size and there are fewer than N/B + 1 blocks. -/
theorem C226_error_partial (hr : Fl.Spec.Rel u fl) (hs : Spec.IsSort sort) (B : ℕ) (hB : 1 ≤ B) (px : List (ℚ × ℚ)) (e : List ℚ) (he : e.IsChain (· ≤ ·)) :
    ∃ out nb, histogram fl sort B px e = .ok out ∧ out.length = e.length - 1 ∧ nb * B < px.length + B ∧ ∀ k < e.length - 1, ∃ s, out[k]? = some s ∧
      |s - (Spec.values px (Spec.inBin e k)).sum| ≤ ((1 + u) ^ (B + nb + 1) - 1) * (2 * Spec.size (Spec.values px (Spec.upTo e k))) := by
  obtain ⟨out, ho, hl, hg⟩ := hist_get (fl := fl) (sort := sort) B px e he
  refine ⟨out, (blocks B px.length px).length, ho, hl, blocks_count B hB _ _, ?_⟩
  intro k hk
  have ha : e[k]? = some e[k] := List.getElem?_eq_getElem (by omega)
  have hb : e[k + 1]? = some e[k + 1] := List.getElem?_eq_getElem (by omega)
  obtain ⟨hsub, hin, hup⟩ := below_sub e he k _ _ ha hb
  refine ⟨_, hg k _ _ ha hb, ?_⟩
  have hfl := blocks_flatten B hB px.length px le_rfl
  have n1 := cum_near hr hs _ (edgeBelow_down e k e[k]) B _ (blocks_le B px.length px)
  have n2 := cum_near hr hs _ (edgeBelow_down e (k + 1) e[k + 1]) B _ (blocks_le B px.length px)
  rw [hfl] at n1 n2
  obtain ⟨v1, v2⟩ := values_sub px _ _ _ hsub hin
  have n3 : Near u (B + (blocks B px.length px).length) (-cumN fl sort (blocks B px.length px) (edgeBelow e k e[k]))
      (-(Spec.values px (edgeBelow e k e[k])).sum) (Spec.size (Spec.values px (edgeBelow e k e[k]))) := by
    refine ⟨?_, by rw [abs_neg]; exact n1.2⟩
    rw [← neg_sub', abs_neg]; exact n1.1
  have n4 := (n2.add n3).round hr
  rw [← sub_eq_add_neg, v1, ← sub_eq_add_neg, add_sub_cancel_left] at n4
  refine n4.1.trans ?_
  apply mul_le_mul_of_nonneg_left _ (by
    have : 1 ≤ (1 + u) ^ (B + (blocks B px.length px).length + 1) := one_le_pow₀ (by linarith [hr.1])
    linarith)
  rw [hup] at v2 ⊢
  linarith

/-- C226, signs.  With a correct rounding, a bin without negative values has a sum that is not negative, and a bin whose values are all 0
has the sum 0, whatever the other bins contain. -/
theorem C226_sign (hc : Fl.Spec.Correct fl) (hs : Spec.IsSort sort) (B : ℕ) (hB : 1 ≤ B) (px : List (ℚ × ℚ)) (e : List ℚ) (he : e.IsChain (· ≤ ·)) :
    ∃ out, histogram fl sort B px e = .ok out ∧ ∀ k < e.length - 1, ∃ s, out[k]? = some s ∧
      ((∀ x ∈ Spec.values px (Spec.inBin e k), 0 ≤ x) → 0 ≤ s) ∧ ((∀ x ∈ Spec.values px (Spec.inBin e k), x = 0) → s = 0) := by
  obtain ⟨out, ho, hl, hg⟩ := hist_get (fl := fl) (sort := sort) B px e he
  refine ⟨out, ho, ?_⟩
  intro k hk
  have ha : e[k]? = some e[k] := List.getElem?_eq_getElem (by omega)
  have hb : e[k + 1]? = some e[k + 1] := List.getElem?_eq_getElem (by omega)
  obtain ⟨hsub, hin, hup⟩ := below_sub e he k _ _ ha hb
  refine ⟨_, hg k _ _ ha hb, ?_, ?_⟩
  · intro hnn
    have := cum_le hc hs _ _ (edgeBelow_down e k e[k]) (edgeBelow_down e (k + 1) e[k + 1]) hsub (blocks B px.length px) (by
      intro b hbm x hx
      rw [hin] at hx
      apply hnn
      obtain ⟨p, hp, rfl⟩ := List.mem_map.1 hx
      rw [List.mem_filter] at hp
      refine List.mem_map.2 ⟨p, List.mem_filter.2 ⟨?_, hp.2⟩, rfl⟩
      rw [← blocks_flatten B hB px.length px le_rfl]
      exact List.mem_flatten.2 ⟨b, hbm, hp.1⟩)
    have h2 := hc.mono 0 _ (sub_nonneg.2 this)
    rwa [hc.zero] at h2
  · intro hz
    have := cum_eq hc hs _ _ (edgeBelow_down e k e[k]) (edgeBelow_down e (k + 1) e[k + 1]) hsub (blocks B px.length px) (by
      intro b hbm x hx
      rw [hin] at hx
      apply hz
      obtain ⟨p, hp, rfl⟩ := List.mem_map.1 hx
      rw [List.mem_filter] at hp
      refine List.mem_map.2 ⟨p, List.mem_filter.2 ⟨?_, hp.2⟩, rfl⟩
      rw [← blocks_flatten B hB px.length px le_rfl]
      exact List.mem_flatten.2 ⟨b, hbm, hp.1⟩)
    rw [this, sub_self, hc.zero]

theorem counts_get (px : List (ℚ × ℚ)) (e : List ℚ) (he : e.IsChain (· ≤ ·)) :
    Np.histogram (px.map (fun p => (p.1, 1))) e = .ok ((List.range (e.length - 1)).map (fun k => ((Spec.values px (Spec.inBin e k)).length : ℚ))) := by
  unfold Np.histogram
  rw [if_pos he]
  congr 1
  have wl : ∀ (P : ℚ → Prop) [DecidablePred P] (Q : ℚ → Bool), (∀ x, P x ↔ Q x = true) →
      Np.weightOf (px.map (fun p => (p.1, (1 : ℚ)))) P = ((Spec.values px Q).length : ℚ) := by
    intro P _ Q hPQ
    induction px with
    | nil => simp [Np.weightOf, Spec.values]
    | cons p t ih =>
      rw [List.map_cons, Np.weightOf_cons, ih]
      unfold Spec.values
      by_cases h : P p.1
      · rw [if_pos h, List.filter_cons, if_pos ((hPQ _).1 h)]
        simp [add_comm]
      · rw [if_neg h, List.filter_cons, if_neg (fun hc => h ((hPQ _).2 hc))]
        simp
  apply List.ext_getElem?
  intro k
  by_cases hk : k < e.length - 1
  · have ha : e[k]? = some e[k] := List.getElem?_eq_getElem (by omega)
    have hb : e[k + 1]? = some e[k + 1] := List.getElem?_eq_getElem (by omega)
    rw [List.getElem?_map, List.getElem?_range hk]
    by_cases hl : k + 2 = e.length
    · rw [Np.histogram_last _ e he k _ _ ha hb hl]
      simp only [Option.map_some, Option.some.injEq]
      apply wl
      intro x
      unfold Spec.inBin
      rw [ha, hb]
      simp [hl, le_iff_lt_or_eq]
    · rw [Np.histogram_bin _ e he k _ _ ha hb (by omega)]
      simp only [Option.map_some, Option.some.injEq]
      apply wl
      intro x
      unfold Spec.inBin
      rw [ha, hb]
      simp [hl]
  · rw [List.getElem?_eq_none, List.getElem?_eq_none]
    · simp; omega
    · have : (Np.diff (Np.cumAt (px.map (fun p => (p.1, (1 : ℚ)))) e)).length = e.length - 1 := by
        rw [Np.length_diff, Np.length_cumAt]
      omega

/-- C226, the averages: the bins with more samples than the threshold, in order, each with the quotient of its computed sum and the
number of its samples, rounded. -/
theorem C226_average (px : List (ℚ × ℚ)) (e : List ℚ) (he : e.IsChain (· ≤ ·)) (threshold : ℚ) :
    ∃ sums, histogram fl sort 65536 px e = .ok sums ∧ sums.length = e.length - 1 ∧
      circularAverage fl sort px e threshold = .ok (((List.range (e.length - 1)).filter (fun k =>
        decide (threshold < ((Spec.values px (Spec.inBin e k)).length : ℚ)))).map
          (fun k => fl ((sums[k]?).getD 0 / ((Spec.values px (Spec.inBin e k)).length : ℚ)))) := by
  obtain ⟨out, ho, hl, hg⟩ := hist_get (fl := fl) (sort := sort) 65536 px e he
  refine ⟨out, ho, hl, ?_⟩
  unfold circularAverage
  rw [ho, counts_get px e he]
  simp only []
  have hz : out.zip ((List.range (e.length - 1)).map (fun k => ((Spec.values px (Spec.inBin e k)).length : ℚ))) =
      (List.range (e.length - 1)).map (fun k => ((out[k]?).getD 0, ((Spec.values px (Spec.inBin e k)).length : ℚ))) := by
    apply List.ext_getElem
    · simp [hl]
    · intro i h1 h2
      simp at h1 h2
      simp [List.getElem?_eq_getElem (show i < out.length by omega)]
  rw [hz, List.filter_map, List.map_map]
  rfl

/-- C226, counts of photons.  If the values are whole numbers whose absolute values sum to at most N, and whole numbers up to N are
represented exactly, the average of every bin is the exact mean, rounded once; so it lies between any two floating-point numbers that
bound the values of the bin, and a flat image is averaged to its value. -/
theorem C226_whole {N : ℕ} (hw : Spec.WholeExact N fl) (hc : Fl.Spec.Correct fl) (hs : Spec.IsSort sort) (px : List (ℚ × ℚ)) (hi : ∀ p ∈ px, ∃ z : ℤ, p.2 = z)
    (hN : Spec.size (px.map Prod.snd) ≤ N) (e : List ℚ) (he : e.IsChain (· ≤ ·)) (threshold : ℚ) (ht : 0 ≤ threshold) :
    let kept := (List.range (e.length - 1)).filter (fun k => decide (threshold < ((Spec.values px (Spec.inBin e k)).length : ℚ)))
    circularAverage fl sort px e threshold = .ok (kept.map (fun k =>
      fl ((Spec.values px (Spec.inBin e k)).sum / ((Spec.values px (Spec.inBin e k)).length : ℚ)))) ∧
    ∀ k ∈ kept, ∀ lo hi, fl lo = lo → fl hi = hi → (∀ x ∈ Spec.values px (Spec.inBin e k), lo ≤ x ∧ x ≤ hi) →
      lo ≤ fl ((Spec.values px (Spec.inBin e k)).sum / ((Spec.values px (Spec.inBin e k)).length : ℚ)) ∧
      fl ((Spec.values px (Spec.inBin e k)).sum / ((Spec.values px (Spec.inBin e k)).length : ℚ)) ≤ hi := by
  intro kept
  have hsz : ∀ P : ℚ → Bool, Spec.size (Spec.values px P) ≤ N := by
    intro P
    refine le_trans ?_ hN
    clear hN hi kept
    induction px with
    | nil => simp [Spec.values, Spec.size]
    | cons p t ih =>
      unfold Spec.values Spec.size at *
      have := abs_nonneg p.2
      rw [List.filter_cons]
      split
      · simp only [List.map_cons, List.sum_cons]; linarith
      · simp only [List.map_cons, List.sum_cons]; linarith
  have hint : ∀ P : ℚ → Bool, ∀ x ∈ Spec.values px P, ∃ z : ℤ, x = z := by
    intro P x hx
    obtain ⟨p, hp, rfl⟩ := List.mem_map.1 hx
    exact hi p (List.mem_filter.1 hp).1
  obtain ⟨out, ho, hl, hg⟩ := hist_get (fl := fl) (sort := sort) 65536 px e he
  have hsum : ∀ k < e.length - 1, (out[k]?).getD 0 = (Spec.values px (Spec.inBin e k)).sum := by
    intro k hk
    have ha : e[k]? = some e[k] := List.getElem?_eq_getElem (by omega)
    have hb : e[k + 1]? = some e[k + 1] := List.getElem?_eq_getElem (by omega)
    obtain ⟨hsub, hin, hup⟩ := below_sub e he k _ _ ha hb
    have hfl := blocks_flatten 65536 (by omega) px.length px le_rfl
    rw [hg k _ _ ha hb, Option.getD_some, cum_whole hw hs _ (edgeBelow_down e k e[k]) _ (by rw [hfl]; exact hint _) (by rw [hfl]; exact hsz _),
      cum_whole hw hs _ (edgeBelow_down e (k + 1) e[k + 1]) _ (by rw [hfl]; exact hint _) (by rw [hfl]; exact hsz _), hfl,
      (values_sub px _ _ _ hsub hin).1, add_sub_cancel_left]
    have hz : ∀ l : List ℚ, (∀ x ∈ l, ∃ z : ℤ, x = z) → ∃ z : ℤ, l.sum = z := by
      intro l
      induction l with
      | nil => exact fun _ => ⟨0, by simp⟩
      | cons x t ih =>
        intro h
        obtain ⟨z, hz⟩ := ih (fun y hy => h y (by simp [hy]))
        obtain ⟨y, hy⟩ := h x (by simp)
        exact ⟨y + z, by rw [List.sum_cons, hz, hy]; push_cast; rfl⟩
    obtain ⟨z, hz⟩ := hz _ (hint (Spec.inBin e k))
    rw [hz]
    apply hw
    have h1 := (abs_sum_le (Spec.values px (Spec.inBin e k))).trans (hsz _)
    rw [hz] at h1
    exact_mod_cast h1
  refine ⟨?_, ?_⟩
  · obtain ⟨out', ho', _, hca⟩ := C226_average (fl := fl) (sort := sort) px e he threshold
    rw [ho] at ho'
    simp only [Except.ok.injEq] at ho'
    rw [hca, ← ho']
    congr 1
    apply List.map_congr_left
    intro k hk
    rw [hsum k (List.mem_range.1 (List.mem_filter.1 hk).1)]
  · intro k hk lo hi' hlo hhi hb
    have hcnt : (0 : ℚ) < ((Spec.values px (Spec.inBin e k)).length : ℚ) := by
      have := (List.mem_filter.1 hk).2
      simp only [decide_eq_true_eq] at this
      linarith
    have hbd : ∀ l : List ℚ, (∀ x ∈ l, lo ≤ x ∧ x ≤ hi') → lo * l.length ≤ l.sum ∧ l.sum ≤ hi' * l.length := by
      intro l
      induction l with
      | nil => simp
      | cons x t ih =>
        intro h
        have h1 := ih (fun y hy => h y (by simp [hy]))
        have h2 := h x (by simp)
        rw [List.sum_cons, List.length_cons]
        push_cast
        constructor <;> linarith [h1.1, h1.2, h2.1, h2.2]
    have hb' := hbd _ hb
    constructor
    · have := hc.mono lo _ ((le_div_iff₀ hcnt).2 hb'.1)
      rwa [hlo] at this
    · have := hc.mono _ hi' ((div_le_iff₀ hcnt).2 hb'.2)
      rwa [hhi] at this
end bins

/-! ### Double precision -/

/-- A sort by position. -/
def sortBy (l : List (ℚ × ℚ)) : List (ℚ × ℚ) := l.insertionSort (fun p q => p.1 ≤ q.1)

theorem sortBy_ok : Spec.IsSort sortBy := by
  intro l
  refine ⟨List.perm_insertionSort _ l, ?_⟩
  have : Std.Total (fun p q : ℚ × ℚ => p.1 ≤ q.1) := ⟨fun p q => le_total p.1 q.1⟩
  have : IsTrans (ℚ × ℚ) (fun p q => p.1 ≤ q.1) := ⟨fun _ _ _ h1 h2 => le_trans h1 h2⟩
  exact List.pairwise_insertionSort _ l

/-- C226 is false: an average does not only depend on the pixels of its ring.  A pixel of intensity 2^53 in the innermost ring makes
the average of the next ring, whose only pixel has the intensity 1, come out as 0. -/
theorem C226_local_refuted : circularAverage round53 sortBy [(0, 2 ^ 53), (1, 1)] [0, 1, 2] 0 = .ok [2 ^ 53, 0] ∧
    circularAverage round53 sortBy [(0, 0), (1, 1)] [0, 1, 2] 0 = .ok [0, 1] := by decide +kernel

/-- C226 is false: an average can exceed all pixels of the ring.  Three pixels with the double nearest to 1/10 have a larger average. -/
theorem C226_range_refuted : ∃ a, circularAverage round53 sortBy [(0, round53 (1 / 10)), (0, round53 (1 / 10)), (0, round53 (1 / 10))] [0, 1] 0 = .ok [a] ∧
    round53 (1 / 10) < a := by
  refine ⟨round53 (1 / 10) + 1 / 2 ^ 56, ?_⟩
  decide +kernel

/-- Double precision represents whole numbers up to 2^53 exactly, with either sign. -/
theorem round53_int : Spec.WholeExact (2 ^ 53) round53 := by
  have hn : ∀ n : ℕ, n ≤ 2 ^ 53 → round53 n = n := by
    intro n hn
    rcases Nat.lt_or_eq_of_le hn with h | h
    · exact Speckle.round53_whole n h
    · rw [h]; decide +kernel
  intro z hz
  obtain ⟨n, rfl | rfl⟩ := z.eq_nat_or_neg
  · exact_mod_cast hn n (by simpa using (by exact_mod_cast hz : |(n : ℤ)| ≤ ((2 ^ 53 : ℕ) : ℤ)))
  · have h1 := hn n (by rw [abs_neg] at hz; simpa using (by exact_mod_cast hz : |(n : ℤ)| ≤ ((2 ^ 53 : ℕ) : ℤ)))
    push_cast
    rw [round53_correct.neg, h1]

/-- The hypotheses of C226 are met by double precision, and the two computations of a block of four pixels give three rings. -/
example : circularAverage round53 sortBy [(3 / 2, 4), (0, 7), (5 / 2, 1), (3, 2), (1, 5)] [0, 1, 2, 3] 0 = .ok [7, 9 / 2, 3 / 2] := by decide +kernel

example := C226_error_partial round53_rel sortBy_ok 65536 (by norm_num) [(3 / 2, 4), (0, 7), (5 / 2, 1)] [0, 1, 2, 3] (by decide)
example := C226_sign round53_correct sortBy_ok 65536 (by norm_num) [(3 / 2, 4), (0, 7), (5 / 2, 0)] [0, 1, 2, 3] (by decide)
example := C226_whole round53_int round53_correct sortBy_ok [(3 / 2, 4), (0, 7), (5 / 2, 1)] (by
    intro p hp
    simp only [List.mem_cons, List.not_mem_nil, or_false] at hp
    rcases hp with rfl | rfl | rfl
    exacts [⟨4, by norm_num⟩, ⟨7, by norm_num⟩, ⟨1, by norm_num⟩])
  (by norm_num [Spec.size]) [0, 1, 2, 3] (by decide) 0 le_rfl

end Verif.Roi.Rnd
