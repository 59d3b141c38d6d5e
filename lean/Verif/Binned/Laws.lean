/- C235: laws of binned statistics. -/
import Verif.Binned.Props

namespace Verif.Binned
open Verif

/-! ## specification side -/

/-- The samples of a data set of (sample, value) pairs. -/
def Spec.pos (d : List (List ℚ × ℚ)) : List (List ℚ) := d.map Prod.fst

/-- The values of a data set of (sample, value) pairs. -/
def Spec.val (d : List (List ℚ × ℚ)) : List ℚ := d.map Prod.snd

/-- All values replaced by c·v + b. -/
def Spec.rescale (c b : ℚ) (d : List (List ℚ × ℚ)) : List (List ℚ × ℚ) := d.map (fun p => (p.1, c * p.2 + b))

/-- x lies between the first and the last edge, both included. -/
def Spec.covered (e : List ℚ) (x : ℚ) : Prop := e.headD 0 ≤ x ∧ x ≤ e.getLastD 0

instance (e : List ℚ) (x : ℚ) : Decidable (Spec.covered e x) := by unfold Spec.covered; infer_instance

/-! ## lemmas -/

/-- The values with a given key. -/
def keyed (es : List (List ℚ)) (ni : List ℕ) (d : List (List ℚ × ℚ)) (c : ℕ) : List ℚ :=
  (d.filter (fun p => decide (xyOf (nbin es) ni (counts es p.1) = c))).map Prod.snd

theorem keyed_eq (es : List (List ℚ)) (ni : List ℕ) (d : List (List ℚ × ℚ)) (c : ℕ) :
    (((xy es ni (Spec.pos d)).zip (Spec.val d)).filter (fun e => decide (e.1 = c))).map Prod.snd = keyed es ni d c := by
  unfold keyed xy Spec.pos Spec.val
  induction d with
  | nil => rfl
  | cons p d ih =>
    simp only [List.map_cons, List.zip_cons_cons, List.filter_cons]
    split <;> simp only [List.map_cons, ih]

theorem len_eq (es : List (List ℚ)) (ni : List ℕ) (d : List (List ℚ × ℚ)) :
    (Spec.val d).length = (xy es ni (Spec.pos d)).length := by simp [xy, Spec.pos, Spec.val]

theorem count_keyed (es : List (List ℚ)) (ni : List ℕ) (d : List (List ℚ × ℚ)) (c : ℕ) :
    resCount (xy es ni (Spec.pos d)) c = (keyed es ni d c).length := by
  rw [resCount_eq, count_eq_length _ _ (len_eq es ni d), keyed_eq]

theorem sum_keyed (es : List (List ℚ)) (ni : List ℕ) (d : List (List ℚ × ℚ)) (c : ℕ) :
    resSum (xy es ni (Spec.pos d)) (Spec.val d) c = (keyed es ni d c).sum := by
  rw [resSum_eq, keyed_eq]

theorem mean_keyed (es : List (List ℚ)) (ni : List ℕ) (d : List (List ℚ × ℚ)) (c : ℕ) :
    resMean (xy es ni (Spec.pos d)) (Spec.val d) c =
      if keyed es ni d c = [] then none else some ((keyed es ni d c).sum / (keyed es ni d c).length) := by
  rw [resMean_eq _ _ (len_eq es ni d), keyed_eq]

theorem var_keyed (es : List (List ℚ)) (ni : List ℕ) (d : List (List ℚ × ℚ)) (c : ℕ) :
    resVar (xy es ni (Spec.pos d)) (Spec.val d) c =
      if keyed es ni d c = [] then 0 else ((keyed es ni d c).map (fun v => v ^ 2)).sum / (keyed es ni d c).length -
        ((keyed es ni d c).sum / (keyed es ni d c).length) ^ 2 := by
  rw [resVar_eq _ _ (len_eq es ni d), keyed_eq]

theorem keyed_perm (es : List (List ℚ)) (ni : List ℕ) {d d' : List (List ℚ × ℚ)} (h : d.Perm d') (c : ℕ) :
    (keyed es ni d c).Perm (keyed es ni d' c) := (h.filter _).map _

theorem keyed_append (es : List (List ℚ)) (ni : List ℕ) (d d' : List (List ℚ × ℚ)) (c : ℕ) :
    keyed es ni (d ++ d') c = keyed es ni d c ++ keyed es ni d' c := by
  simp [keyed, List.filter_append, List.map_append]

theorem keyed_rescale (es : List (List ℚ)) (ni : List ℕ) (d : List (List ℚ × ℚ)) (a b : ℚ) (c : ℕ) :
    keyed es ni (Spec.rescale a b d) c = (keyed es ni d c).map (fun v => a * v + b) := by
  unfold keyed Spec.rescale
  rw [List.filter_map, List.map_map, List.map_map]
  rfl

/-! ## C235 -/

/-- C235, order: exchanging samples together with their values changes none of the results, whatever the edges and however
close samples are to them; the same for the median and every function that does not depend on the order of its values. -/
theorem C235_order {β : Type} (es : List (List ℚ)) (ni : List ℕ) (d d' : List (List ℚ × ℚ)) (hd : d.Perm d')
    (perm perm' : List ℕ) (hp : IsKeySort (xy es ni (Spec.pos d)) perm) (hp' : IsKeySort (xy es ni (Spec.pos d')) perm')
    (f : List ℚ → β) (hf : ∀ a b : List ℚ, a.Perm b → f a = f b) (null : β) :
    call (nbin es) ni (resCount (xy es ni (Spec.pos d))) = call (nbin es) ni (resCount (xy es ni (Spec.pos d'))) ∧
    call (nbin es) ni (resSum (xy es ni (Spec.pos d)) (Spec.val d)) =
      call (nbin es) ni (resSum (xy es ni (Spec.pos d')) (Spec.val d')) ∧
    call (nbin es) ni (resMean (xy es ni (Spec.pos d)) (Spec.val d)) =
      call (nbin es) ni (resMean (xy es ni (Spec.pos d')) (Spec.val d')) ∧
    call (nbin es) ni (resStd (xy es ni (Spec.pos d)) (Spec.val d)) =
      call (nbin es) ni (resStd (xy es ni (Spec.pos d')) (Spec.val d')) ∧
    call (nbin es) ni (resFun (xy es ni (Spec.pos d)) perm (Spec.val d) f null) =
      call (nbin es) ni (resFun (xy es ni (Spec.pos d')) perm' (Spec.val d') f null) := by
  have hk : ∀ c, (keyed es ni d c).Perm (keyed es ni d' c) := keyed_perm es ni hd
  have hnil : ∀ c, keyed es ni d c = [] ↔ keyed es ni d' c = [] := by
    intro c
    rw [← List.length_eq_zero_iff, (hk c).length_eq, List.length_eq_zero_iff]
  refine ⟨?_, ?_, ?_, ?_, ?_⟩
  · congr 1; funext c
    rw [count_keyed, count_keyed, (hk c).length_eq]
  · congr 1; funext c
    rw [sum_keyed, sum_keyed, (hk c).sum_eq]
  · congr 1; funext c
    rw [mean_keyed, mean_keyed, (hk c).sum_eq, (hk c).length_eq]
    simp only [hnil]
  · congr 1; funext c
    unfold resStd
    rw [var_keyed, var_keyed, (hk c).sum_eq, (hk c).length_eq, ((hk c).map _).sum_eq]
    simp only [hnil]
  · congr 1; funext c
    obtain ⟨h1, h2⟩ := resFun_eq _ perm hp (Spec.val d) (len_eq es ni d) f null c
    obtain ⟨h1', h2'⟩ := resFun_eq _ perm' hp' (Spec.val d') (len_eq es ni d') f null c
    rw [keyed_eq] at h1 h2 h1' h2'
    by_cases hn : keyed es ni d c = []
    · rw [h1 hn, h1' ((hnil c).1 hn)]
    · obtain ⟨l, a1, a2⟩ := h2 hn
      obtain ⟨l', a1', a2'⟩ := h2' (fun h => hn ((hnil c).2 h))
      rw [a2, a2']
      exact hf _ _ ((a1.trans (hk c)).trans a1'.symm)

/-- C235, joining two data sets on the same edges: counts and sums of every cell add up, the mean is the mean of the two
means weighted with the counts, and n·σ² = n₁·σ₁² + n₂·σ₂² + (m₁-m₂)²·n₁n₂/n. -/
theorem C235_joined (es : List (List ℚ)) (ni : List ℕ) (hni : IsArgsort (nbin es) ni) (d₁ d₂ : List (List ℚ × ℚ)) :
    let d := d₁ ++ d₂
    ∃ N N₁ N₂ S S₁ S₂ : Nd ℚ, ∃ M M₁ M₂ : Nd (Option ℚ), ∃ Sd Sd₁ Sd₂ : Nd ℝ,
      call (nbin es) ni (resCount (xy es ni (Spec.pos d))) = .ok N ∧
      call (nbin es) ni (resCount (xy es ni (Spec.pos d₁))) = .ok N₁ ∧
      call (nbin es) ni (resCount (xy es ni (Spec.pos d₂))) = .ok N₂ ∧
      call (nbin es) ni (resSum (xy es ni (Spec.pos d)) (Spec.val d)) = .ok S ∧
      call (nbin es) ni (resSum (xy es ni (Spec.pos d₁)) (Spec.val d₁)) = .ok S₁ ∧
      call (nbin es) ni (resSum (xy es ni (Spec.pos d₂)) (Spec.val d₂)) = .ok S₂ ∧
      call (nbin es) ni (resMean (xy es ni (Spec.pos d)) (Spec.val d)) = .ok M ∧
      call (nbin es) ni (resMean (xy es ni (Spec.pos d₁)) (Spec.val d₁)) = .ok M₁ ∧
      call (nbin es) ni (resMean (xy es ni (Spec.pos d₂)) (Spec.val d₂)) = .ok M₂ ∧
      call (nbin es) ni (resStd (xy es ni (Spec.pos d)) (Spec.val d)) = .ok Sd ∧
      call (nbin es) ni (resStd (xy es ni (Spec.pos d₁)) (Spec.val d₁)) = .ok Sd₁ ∧
      call (nbin es) ni (resStd (xy es ni (Spec.pos d₂)) (Spec.val d₂)) = .ok Sd₂ ∧
      ∀ idx : List ℕ, idx.length = es.length →
        N.get idx = N₁.get idx + N₂.get idx ∧ S.get idx = S₁.get idx + S₂.get idx ∧
        (N₁.get idx = 0 → M.get idx = M₂.get idx ∧ Sd.get idx = Sd₂.get idx) ∧
        (N₂.get idx = 0 → M.get idx = M₁.get idx ∧ Sd.get idx = Sd₁.get idx) ∧
        ∀ m₁ m₂, M₁.get idx = some m₁ → M₂.get idx = some m₂ →
          M.get idx = some ((N₁.get idx * m₁ + N₂.get idx * m₂) / N.get idx) ∧
          (N.get idx : ℝ) * (Sd.get idx) ^ 2 = N₁.get idx * (Sd₁.get idx) ^ 2 + N₂.get idx * (Sd₂.get idx) ^ 2 +
            ((m₁ : ℝ) - m₂) ^ 2 * N₁.get idx * N₂.get idx / N.get idx := by
  intro d
  obtain ⟨N, n1, -, n3⟩ := call_eq (nbin es) ni hni (resCount (xy es ni (Spec.pos d)))
  obtain ⟨N₁, p1, -, p3⟩ := call_eq (nbin es) ni hni (resCount (xy es ni (Spec.pos d₁)))
  obtain ⟨N₂, q1, -, q3⟩ := call_eq (nbin es) ni hni (resCount (xy es ni (Spec.pos d₂)))
  obtain ⟨S, s1, -, s3⟩ := call_eq (nbin es) ni hni (resSum (xy es ni (Spec.pos d)) (Spec.val d))
  obtain ⟨S₁, t1, -, t3⟩ := call_eq (nbin es) ni hni (resSum (xy es ni (Spec.pos d₁)) (Spec.val d₁))
  obtain ⟨S₂, u1, -, u3⟩ := call_eq (nbin es) ni hni (resSum (xy es ni (Spec.pos d₂)) (Spec.val d₂))
  obtain ⟨M, a1, -, a3⟩ := call_eq (nbin es) ni hni (resMean (xy es ni (Spec.pos d)) (Spec.val d))
  obtain ⟨M₁, b1, -, b3⟩ := call_eq (nbin es) ni hni (resMean (xy es ni (Spec.pos d₁)) (Spec.val d₁))
  obtain ⟨M₂, c1, -, c3⟩ := call_eq (nbin es) ni hni (resMean (xy es ni (Spec.pos d₂)) (Spec.val d₂))
  obtain ⟨D, e1, -, e3⟩ := call_eq (nbin es) ni hni (resStd (xy es ni (Spec.pos d)) (Spec.val d))
  obtain ⟨D₁, f1, -, f3⟩ := call_eq (nbin es) ni hni (resStd (xy es ni (Spec.pos d₁)) (Spec.val d₁))
  obtain ⟨D₂, g1, -, g3⟩ := call_eq (nbin es) ni hni (resStd (xy es ni (Spec.pos d₂)) (Spec.val d₂))
  refine ⟨N, N₁, N₂, S, S₁, S₂, M, M₁, M₂, D, D₁, D₂, n1, p1, q1, s1, t1, u1, a1, b1, c1, e1, f1, g1, ?_⟩
  intro idx hidx
  have hl : idx.length = (nbin es).length := by rw [hidx]; simp [nbin]
  rw [n3 idx hl, p3 idx hl, q3 idx hl, s3 idx hl, t3 idx hl, u3 idx hl, a3 idx hl, b3 idx hl, c3 idx hl, e3 idx hl,
    f3 idx hl, g3 idx hl]
  generalize xyOf (nbin es) ni (idx.map (fun i => i + 1)) = c
  unfold resStd
  rw [count_keyed, count_keyed, count_keyed, sum_keyed, sum_keyed, sum_keyed, mean_keyed, mean_keyed, mean_keyed,
    var_keyed, var_keyed, var_keyed]
  have hk : keyed es ni d c = keyed es ni d₁ c ++ keyed es ni d₂ c := keyed_append ..
  rw [hk]
  generalize keyed es ni d₁ c = v
  generalize keyed es ni d₂ c = w
  clear * -
  refine ⟨by simp, by simp, ?_, ?_, ?_⟩
  · intro h
    have : v = [] := by simpa using h
    subst this
    simp
  · intro h
    have : w = [] := by simpa using h
    subst this
    simp
  · intro m₁ m₂ h₁ h₂
    by_cases hv : v = []
    · simp [hv] at h₁
    by_cases hw : w = []
    · simp [hw] at h₂
    have hvw : v ++ w ≠ [] := by simp [hv]
    rw [if_neg hv] at h₁
    rw [if_neg hw] at h₂
    simp only [Option.some.injEq] at h₁ h₂
    have hvl : (v.length : ℚ) ≠ 0 := by simpa using hv
    have hwl : (w.length : ℚ) ≠ 0 := by simpa using hw
    have hvl' : (v.length : ℝ) ≠ 0 := by exact_mod_cast hvl
    have hwl' : (w.length : ℝ) ≠ 0 := by exact_mod_cast hwl
    have hs : (v.length : ℝ) + w.length ≠ 0 := by positivity
    simp only [if_neg hvw, if_neg hv, if_neg hw]
    have nonneg : ∀ l : List ℚ, l ≠ [] → 0 ≤ (l.map (fun v => v ^ 2)).sum / l.length - (l.sum / l.length) ^ 2 := by
      intro l hl
      have hn : (l.length : ℚ) ≠ 0 := by simpa using hl
      have key : ∀ (m : ℚ) (l : List ℚ), (l.map (fun v => (v - m) ^ 2)).sum =
          (l.map (fun v => v ^ 2)).sum - 2 * m * l.sum + l.length * m ^ 2 := by
        intro m l
        induction l with
        | nil => simp
        | cons a l ih => simp only [List.map_cons, List.sum_cons, ih, List.length_cons]; push_cast; ring
      have e : (l.map (fun v => v ^ 2)).sum / l.length - (l.sum / l.length) ^ 2 =
          (l.map (fun v => (v - l.sum / l.length) ^ 2)).sum / l.length := by
        rw [key]; field_simp; ring
      rw [e]
      apply div_nonneg _ (by positivity)
      apply List.sum_nonneg
      intro x hx
      obtain ⟨y, -, rfl⟩ := List.mem_map.1 hx
      positivity
    constructor
    · rw [← h₁, ← h₂, mul_div_cancel₀ _ hvl, mul_div_cancel₀ _ hwl]
      simp
    · rw [Real.sq_sqrt (by exact_mod_cast nonneg _ hvw), Real.sq_sqrt (by exact_mod_cast nonneg _ hv),
        Real.sq_sqrt (by exact_mod_cast nonneg _ hw), ← h₁, ← h₂]
      simp only [List.map_append, List.sum_append, List.length_append, Nat.cast_add]
      push_cast
      field_simp
      ring

/-- C235, values: with all values replaced by c·v + b the counts stay, the sums become c·S + b·N, the means c·M + b, and
the standard deviations |c|·σ. -/
theorem C235_values (es : List (List ℚ)) (ni : List ℕ) (hni : IsArgsort (nbin es) ni) (d : List (List ℚ × ℚ)) (c b : ℚ) :
    let d' := Spec.rescale c b d
    ∃ N S S' : Nd ℚ, ∃ M M' : Nd (Option ℚ), ∃ Sd₀ Sd : Nd ℝ,
      call (nbin es) ni (resCount (xy es ni (Spec.pos d))) = .ok N ∧
      call (nbin es) ni (resCount (xy es ni (Spec.pos d'))) = .ok N ∧
      call (nbin es) ni (resSum (xy es ni (Spec.pos d)) (Spec.val d)) = .ok S ∧
      call (nbin es) ni (resSum (xy es ni (Spec.pos d')) (Spec.val d')) = .ok S' ∧
      call (nbin es) ni (resMean (xy es ni (Spec.pos d)) (Spec.val d)) = .ok M ∧
      call (nbin es) ni (resMean (xy es ni (Spec.pos d')) (Spec.val d')) = .ok M' ∧
      call (nbin es) ni (resStd (xy es ni (Spec.pos d)) (Spec.val d)) = .ok Sd₀ ∧
      call (nbin es) ni (resStd (xy es ni (Spec.pos d')) (Spec.val d')) = .ok Sd ∧
      ∀ idx : List ℕ, idx.length = es.length →
        S'.get idx = c * S.get idx + b * N.get idx ∧ M'.get idx = (M.get idx).map (fun m => c * m + b) ∧
        Sd.get idx = |(c : ℝ)| * Sd₀.get idx := by
  intro d'
  obtain ⟨N, n1, -, n3⟩ := call_eq (nbin es) ni hni (resCount (xy es ni (Spec.pos d)))
  obtain ⟨S, s1, -, s3⟩ := call_eq (nbin es) ni hni (resSum (xy es ni (Spec.pos d)) (Spec.val d))
  obtain ⟨S₁, t1, -, t3⟩ := call_eq (nbin es) ni hni (resSum (xy es ni (Spec.pos d')) (Spec.val d'))
  obtain ⟨M, a1, -, a3⟩ := call_eq (nbin es) ni hni (resMean (xy es ni (Spec.pos d)) (Spec.val d))
  obtain ⟨M₁, b1, -, b3⟩ := call_eq (nbin es) ni hni (resMean (xy es ni (Spec.pos d')) (Spec.val d'))
  obtain ⟨D, e1, -, e3⟩ := call_eq (nbin es) ni hni (resStd (xy es ni (Spec.pos d)) (Spec.val d))
  obtain ⟨D₁, f1, -, f3⟩ := call_eq (nbin es) ni hni (resStd (xy es ni (Spec.pos d')) (Spec.val d'))
  have hpos : Spec.pos d' = Spec.pos d := by simp [d', Spec.pos, Spec.rescale]
  refine ⟨N, S, S₁, M, M₁, D, D₁, n1, by rw [hpos]; exact n1, s1, t1, a1, b1, e1, f1, ?_⟩
  intro idx hidx
  have hl : idx.length = (nbin es).length := by rw [hidx]; simp [nbin]
  rw [n3 idx hl, s3 idx hl, t3 idx hl, a3 idx hl, b3 idx hl, e3 idx hl, f3 idx hl]
  generalize xyOf (nbin es) ni (idx.map (fun i => i + 1)) = k
  unfold resStd
  rw [count_keyed, sum_keyed, sum_keyed, mean_keyed, mean_keyed, var_keyed, var_keyed,
    show keyed es ni d' k = _ from keyed_rescale es ni d c b k]
  generalize keyed es ni d k = v
  clear * -
  have hsum : ∀ l : List ℚ, (l.map (fun v => c * v + b)).sum = c * l.sum + b * l.length := by
    intro l; induction l with
    | nil => simp
    | cons x l ih => simp [ih]; ring
  have hsq : ∀ l : List ℚ, ((l.map (fun v => c * v + b)).map (fun v => v ^ 2)).sum =
      c ^ 2 * (l.map (fun v => v ^ 2)).sum + 2 * c * b * l.sum + b ^ 2 * l.length := by
    intro l; induction l with
    | nil => simp
    | cons x l ih => simp only [List.map_cons, List.sum_cons, ih, List.length_cons]; push_cast; ring
  refine ⟨hsum v, ?_, ?_⟩
  · by_cases hv : v = []
    · simp [hv]
    · have hl : (v.length : ℚ) ≠ 0 := by simpa using hv
      rw [if_neg hv, if_neg (by simpa using hv), hsum, List.length_map, Option.map_some]
      congr 1; field_simp
  · by_cases hv : v = []
    · simp [hv]
    · have hl : (v.length : ℚ) ≠ 0 := by simpa using hv
      rw [if_neg hv, if_neg (by simpa using hv), hsq, hsum, List.length_map]
      have e : (c ^ 2 * (v.map (fun v => v ^ 2)).sum + 2 * c * b * v.sum + b ^ 2 * v.length) / (v.length : ℚ) -
          ((c * v.sum + b * v.length) / v.length) ^ 2 =
          c ^ 2 * ((v.map (fun v => v ^ 2)).sum / v.length - (v.sum / v.length) ^ 2) := by
        field_simp; ring
      rw [e, Rat.cast_mul, Rat.cast_pow, Real.sqrt_mul (by positivity), Real.sqrt_sq_eq_abs]

/-! ### projection and coarsening -/

theorem inBin_cons (a : ℚ) (e : List ℚ) (i : ℕ) (x : ℚ) : Spec.inBin (a :: e) (i + 1) x ↔ Spec.inBin e i x := by
  unfold Spec.inBin
  simp only [List.getElem?_cons_succ, List.length_cons]
  cases e[i]? <;> cases e[i + 1]? <;> simp

/-- Every covered coordinate is in exactly one bin, the others in none. -/
theorem sum_bins (e : List ℚ) (he : Spec.Edges e) (x v : ℚ) :
    ((List.range (e.length - 1)).map (fun i => if Spec.inBin e i x then v else 0)).sum =
      if Spec.covered e x then v else 0 := by
  obtain ⟨h2, hs⟩ := he
  induction e with
  | nil => simp at h2
  | cons a e ih =>
    cases e with
    | nil => simp at h2
    | cons b t =>
      cases t with
      | nil => simp [Spec.inBin, Spec.covered, le_iff_lt_or_eq]
      | cons c t =>
        have ih' := ih (by simp) hs.of_cons
        have hab : a < b := by simp at hs; exact hs.1.1
        have hbl : b ≤ (b :: c :: t).getLastD 0 := by
          rw [List.getLastD_eq_getLast?, List.getLast?_eq_some_getLast (by simp)]
          have hm := List.getLast_mem (l := b :: c :: t) (by simp)
          rcases List.mem_cons.1 hm with h | h
          · rw [Option.getD_some, h]
          · rw [Option.getD_some]; exact (List.rel_of_pairwise_cons hs.of_cons h).le
        have hl : (a :: b :: c :: t).getLastD 0 = (b :: c :: t).getLastD 0 := by simp
        rw [show (a :: b :: c :: t).length - 1 = ((b :: c :: t).length - 1) + 1 by simp, List.range_succ_eq_map,
          List.map_cons, List.sum_cons, List.map_map]
        have e1 : ((fun i => if Spec.inBin (a :: b :: c :: t) i x then v else 0) ∘ Nat.succ) =
            fun i => if Spec.inBin (b :: c :: t) i x then v else 0 := by
          funext i
          simp only [Function.comp, Nat.succ_eq_add_one, inBin_cons]
        rw [e1, ih']
        have e2 : Spec.inBin (a :: b :: c :: t) 0 x ↔ a ≤ x ∧ x < b := by simp [Spec.inBin]
        have e3 : Spec.covered (b :: c :: t) x ↔ b ≤ x ∧ x ≤ (b :: c :: t).getLastD 0 := by
          unfold Spec.covered; rw [List.headD_cons]
        have e4 : Spec.covered (a :: b :: c :: t) x ↔ a ≤ x ∧ x ≤ (b :: c :: t).getLastD 0 := by
          unfold Spec.covered; rw [List.headD_cons, hl]
        simp only [e2, e3, e4]
        by_cases h1 : a ≤ x
        · by_cases h2 : x < b
          · rw [if_pos ⟨h1, h2⟩, if_neg (fun h => absurd h.1 (by linarith)), if_pos ⟨h1, by linarith⟩, add_zero]
          · rw [if_neg (fun h => h2 h.2), zero_add]
            push Not at h2
            by_cases h3 : x ≤ (b :: c :: t).getLastD 0
            · rw [if_pos ⟨h2, h3⟩, if_pos ⟨h1, h3⟩]
            · rw [if_neg (fun h => h3 h.2), if_neg (fun h => h3 h.2)]
        · rw [if_neg (fun h => h1 h.1), if_neg (fun h => h1 (by linarith [h.1])), if_neg (fun h => h1 h.1), add_zero]

theorem cellValues_pairs (es : List (List ℚ)) (idx : List ℕ) (d : List (List ℚ × ℚ)) :
    (Spec.cellValues es idx (Spec.pos d) (Spec.val d)).sum =
      (d.map (fun p => if Spec.inCell es idx p.1 then p.2 else 0)).sum := by
  unfold Spec.cellValues Spec.pos Spec.val
  induction d with
  | nil => rfl
  | cons p d ih =>
    simp only [List.map_cons, List.zip_cons_cons, List.filter_cons, List.sum_cons]
    by_cases h : Spec.inCell es idx p.1
    · simp only [h, decide_true, if_true, List.map_cons, List.sum_cons, ih]
    · simp only [h, decide_false, if_false, ih, zero_add, Bool.false_eq_true]

theorem sum_swap {α ι : Type} (l : List ι) (d : List α) (f : ι → α → ℚ) :
    (l.map (fun i => (d.map (f i)).sum)).sum = (d.map (fun p => (l.map (fun i => f i p)).sum)).sum := by
  induction d with
  | nil => simp
  | cons p d ih => simp only [List.map_cons, List.sum_cons, List.sum_map_add, ih]

/-- C235, projection: the sums (with all values 1: the counts) of a binning in D+1 dimensions, added up along the first
dimension, are those of the binning in the other D dimensions of the samples that the edges of the first cover. (Samples
restricted as in C23.) -/
theorem C235_projection_partial (e : List ℚ) (es : List (List ℚ)) (ni ni' : List ℕ) (d : List (List ℚ × ℚ))
    (h : Spec.Ok (e :: es) ni (Spec.pos d)) (hni' : IsArgsort (nbin es) ni') :
    let d' := (d.filter (fun p => decide (Spec.covered e (p.1.headD 0)))).map (fun p => (p.1.tail, p.2))
    ∃ A B, call (nbin (e :: es)) ni (resSum (xy (e :: es) ni (Spec.pos d)) (Spec.val d)) = .ok A ∧
      call (nbin es) ni' (resSum (xy es ni' (Spec.pos d')) (Spec.val d')) = .ok B ∧
      ∀ idx, Spec.Valid es idx → B.get idx = ((List.range (e.length - 1)).map (fun i => A.get (i :: idx))).sum := by
  intro d'
  have hshape : ∀ p ∈ d, ∃ x xs, p.1 = x :: xs ∧ List.Forall₂ Spec.Clear es xs := by
    intro p hp
    have := h.clear p.1 (List.mem_map_of_mem hp)
    cases hq : p.1 with
    | nil => rw [hq] at this; cases this
    | cons x xs => rw [hq] at this; exact ⟨x, xs, rfl, (List.forall₂_cons.1 this).2⟩
  have h' : Spec.Ok es ni' (Spec.pos d') := by
    refine ⟨fun a ha => h.edges a (by simp [ha]), hni', ?_⟩
    intro s hs
    simp only [Spec.pos, d', List.map_map, List.mem_map, List.mem_filter] at hs
    obtain ⟨p, ⟨hp, -⟩, rfl⟩ := hs
    obtain ⟨x, xs, e1, e2⟩ := hshape p hp
    simp only [Function.comp, e1, List.tail_cons]
    exact e2
  obtain ⟨A, a1, -, a3⟩ := C24_sum_partial (e :: es) ni (Spec.pos d) h (Spec.val d)
  obtain ⟨B, b1, -, b3⟩ := C24_sum_partial es ni' (Spec.pos d') h' (Spec.val d')
  refine ⟨A, B, a1, b1, fun idx hi => ?_⟩
  rw [b3 idx hi, cellValues_pairs]
  have ha : (List.range (e.length - 1)).map (fun i => A.get (i :: idx)) =
      (List.range (e.length - 1)).map (fun i => (d.map (fun p => if Spec.inCell (e :: es) (i :: idx) p.1 then p.2 else 0)).sum) := by
    apply List.map_congr_left
    intro i hi'
    rw [List.mem_range] at hi'
    rw [a3 (i :: idx) (List.Forall₂.cons (by omega) hi), cellValues_pairs]
  rw [ha, sum_swap]
  have he := h.edges e (by simp)
  clear ha a1 a3 b1 b3 h h' A B
  simp only [d', List.map_map]
  clear d'
  induction d with
  | nil => rfl
  | cons p d ih =>
    obtain ⟨x, xs, e1, -⟩ := hshape p (by simp)
    have ih' := ih (fun q hq => hshape q (by simp [hq]))
    rw [List.map_cons, List.sum_cons, ← ih', List.filter_cons]
    have key : ((List.range (e.length - 1)).map (fun i => if Spec.inCell (e :: es) (i :: idx) p.1 then p.2 else 0)).sum =
        if Spec.covered e x then (if Spec.inCell es idx xs then p.2 else 0) else 0 := by
      rw [← sum_bins e he x, e1]
      congr 1
      apply List.map_congr_left
      intro i _
      simp only [Spec.inCell]
      by_cases g1 : Spec.inBin e i x <;> by_cases g2 : Spec.inCell es idx xs <;> simp [g1, g2]
    rw [key, e1, List.headD_cons]
    by_cases hc : Spec.covered e x
    · simp only [hc, decide_true, if_true, List.map_cons, List.sum_cons, Function.comp, e1, List.tail_cons]
    · simp only [hc, decide_false, if_false, Bool.false_eq_true, zero_add]

/-- Bins after removing interior edge q: those below stay, bins q-1 and q become one, those above move down. -/
theorem inBin_erase (e : List ℚ) (he : Spec.Edges e) (q : ℕ) (h0 : 0 < q) (hq : q + 1 < e.length) (i : ℕ)
    (hi : i + 2 < e.length) (x : ℚ) :
    Spec.inBin (e.eraseIdx q) i x ↔
      if i + 1 < q then Spec.inBin e i x else if i + 1 = q then Spec.inBin e i x ∨ Spec.inBin e (i + 1) x
        else Spec.inBin e (i + 1) x := by
  have hl : (e.eraseIdx q).length = e.length - 1 := List.length_eraseIdx_of_lt (by omega)
  unfold Spec.inBin
  rw [List.getElem?_eraseIdx, List.getElem?_eraseIdx, hl]
  have g : ∀ k (hk : k < e.length), e[k]? = some e[k] := fun k hk => List.getElem?_eq_getElem hk
  by_cases c1 : i + 1 < q
  · rw [if_pos c1, if_pos (show i < q by omega), if_pos c1, g i (by omega), g (i + 1) (by omega)]
    simp only
    constructor
    · rintro ⟨a, b | b⟩
      · exact ⟨a, Or.inl b⟩
      · omega
    · rintro ⟨a, b | b⟩
      · exact ⟨a, Or.inl b⟩
      · omega
  · rw [if_neg c1, if_neg (show ¬ i + 1 < q by omega)]
    by_cases c2 : i + 1 = q
    · rw [if_pos c2, if_pos (show i < q by omega), g i (by omega), g (i + 1) (by omega), g (i + 1 + 1) (by omega)]
      simp only
      have o1 : e[i] < e[i + 1] := List.pairwise_iff_getElem.1 he.2 _ _ (by omega) (by omega) (by omega)
      have o2 : e[i + 1] < e[i + 1 + 1] := List.pairwise_iff_getElem.1 he.2 _ _ (by omega) (by omega) (by omega)
      constructor
      · rintro ⟨a, b⟩
        by_cases hx : x < e[i + 1]
        · exact Or.inl ⟨a, Or.inl hx⟩
        · refine Or.inr ⟨not_lt.1 hx, b.imp_right (fun b => ⟨b.1, by omega⟩)⟩
      · rintro (⟨a, b⟩ | ⟨a, b⟩)
        · refine ⟨a, Or.inl ?_⟩
          rcases b with b | b
          · linarith
          · omega
        · exact ⟨by linarith, b.imp_right (fun b => ⟨b.1, by omega⟩)⟩
    · rw [if_neg c2, if_neg (show ¬ i < q by omega), g (i + 1) (by omega), g (i + 1 + 1) (by omega)]
      simp only
      constructor <;> rintro ⟨a, b⟩ <;> exact ⟨a, b.imp_right (fun b => ⟨b.1, by omega⟩)⟩

theorem inBin_adjacent (e : List ℚ) (i : ℕ) (x : ℚ) (hi : i + 2 < e.length) (h : Spec.inBin e i x)
    (h' : Spec.inBin e (i + 1) x) : False := by
  unfold Spec.inBin at h h'
  have g : ∀ k (hk : k < e.length), e[k]? = some e[k] := fun k hk => List.getElem?_eq_getElem hk
  rw [g i (by omega), g (i + 1) (by omega)] at h
  rw [g (i + 1) (by omega), g (i + 1 + 1) (by omega)] at h'
  simp only at h h'
  rcases h.2 with b | b
  · linarith [h'.1]
  · omega

/-- C235, merging bins: with interior edge q of the first dimension left out, the two bins it separated are added up and
all others stay (sums; with all values 1: counts).  Repeating this gives every coarser set of edges with the same ends.
(Samples restricted as in C23, for both sets of edges.) -/
theorem C235_merge_bins_partial (e : List ℚ) (es : List (List ℚ)) (ni ni' : List ℕ) (d : List (List ℚ × ℚ)) (q : ℕ)
    (h0 : 0 < q) (hq : q + 1 < e.length) (h : Spec.Ok (e :: es) ni (Spec.pos d))
    (h' : Spec.Ok (e.eraseIdx q :: es) ni' (Spec.pos d)) :
    ∃ A B, call (nbin (e :: es)) ni (resSum (xy (e :: es) ni (Spec.pos d)) (Spec.val d)) = .ok A ∧
      call (nbin (e.eraseIdx q :: es)) ni' (resSum (xy (e.eraseIdx q :: es) ni' (Spec.pos d)) (Spec.val d)) = .ok B ∧
      ∀ i idx, i + 2 < e.length → Spec.Valid es idx → B.get (i :: idx) =
        if i + 1 < q then A.get (i :: idx) else if i + 1 = q then A.get (i :: idx) + A.get ((i + 1) :: idx)
          else A.get ((i + 1) :: idx) := by
  obtain ⟨A, a1, -, a3⟩ := C24_sum_partial (e :: es) ni (Spec.pos d) h (Spec.val d)
  obtain ⟨B, b1, -, b3⟩ := C24_sum_partial (e.eraseIdx q :: es) ni' (Spec.pos d) h' (Spec.val d)
  refine ⟨A, B, a1, b1, fun i idx hi hv => ?_⟩
  have hl : (e.eraseIdx q).length = e.length - 1 := List.length_eraseIdx_of_lt (by omega)
  rw [b3 (i :: idx) (List.Forall₂.cons (by omega) hv), a3 (i :: idx) (List.Forall₂.cons (by omega) hv),
    a3 ((i + 1) :: idx) (List.Forall₂.cons (by omega) hv), cellValues_pairs, cellValues_pairs, cellValues_pairs]
  have he := h.edges e (by simp)
  clear a1 a3 b1 b3 h h' A B
  induction d with
  | nil => simp
  | cons p d ih =>
    simp only [List.map_cons, List.sum_cons, ih]
    cases hp : p.1 with
    | nil => simp [Spec.inCell]
    | cons x xs =>
      simp only [Spec.inCell, inBin_erase e he q h0 hq i hi x]
      have hadj := inBin_adjacent e i x hi
      by_cases c1 : i + 1 < q
      · simp only [c1, if_true]
        congr
      · by_cases c2 : i + 1 = q
        · simp only [c2, lt_irrefl, if_true, if_false]
          rw [c2] at hadj
          by_cases g1 : Spec.inBin e i x <;> by_cases g2 : Spec.inBin e q x <;> by_cases g3 : Spec.inCell es idx xs <;>
            simp [g1, g2, g3] <;> first | (exact absurd g2 (fun g => hadj g1 g)) | ring
        · simp only [c1, c2, if_false]
          congr

/-- Without the restriction merging is not exact: of two samples the one close to the last edge is counted in neither
bin of the coarse binning but in the first bin of the fine one. -/
theorem C235_merge_bins_refuted :
    let near : ℚ := 2 - 1 / 10 ^ 9
    (match call (nbin [[0, 1, 2]]) [0] (resSum (xy [[0, 1, 2]] [0] [[1 / 2], [near]]) [3, 5]) with
      | .ok A => (A.get [0], A.get [1]) | .error _ => (0, 0)) = (8, 0) ∧
    (match call (nbin [[0, 2]]) [0] (resSum (xy [[0, 2]] [0] [[1 / 2], [near]]) [3, 5]) with
      | .ok A => A.get [0] | .error _ => 0) = 3 := by
  constructor <;> decide +kernel

/-- The hypotheses of the merge are met: three bins with edge 1 left out, three samples. -/
example : Spec.Ok [[0, 1, 2, 3]] [0] [[0], [5 / 2], [1]] ∧ Spec.Ok [([0, 1, 2, 3] : List ℚ).eraseIdx 1] [0] [[0], [5 / 2], [1]] := by
  have w1 : minWidth [0, 1, 2, 3] = 1 := by decide +kernel
  have w2 : minWidth [0, 2, 3] = 1 := by decide +kernel
  refine ⟨⟨?_, ⟨by decide, by simp [nbin]⟩, ?_⟩, ⟨?_, ⟨by decide, by simp [nbin]⟩, ?_⟩⟩
  · intro e he
    simp only [List.mem_cons, List.not_mem_nil, or_false] at he
    subst he; refine ⟨by simp, ?_⟩; simp [List.pairwise_cons]; norm_num
  · intro s hs
    simp only [List.mem_cons, List.not_mem_nil, or_false] at hs
    rcases hs with rfl | rfl | rfl <;>
      (simp only [List.forall₂_cons, List.Forall₂.nil, and_true]
       intro l hl; simp at hl; subst hl; rw [w1]; norm_num [abs_of_pos, abs_of_neg])
  · intro e he
    simp only [List.eraseIdx, List.mem_cons, List.not_mem_nil, or_false] at he
    subst he; refine ⟨by simp, ?_⟩; simp [List.pairwise_cons]; norm_num
  · intro s hs
    simp only [List.mem_cons, List.not_mem_nil, or_false] at hs
    rcases hs with rfl | rfl | rfl <;>
      (simp only [List.eraseIdx, List.forall₂_cons, List.Forall₂.nil, and_true]
       intro l hl; simp at hl; subst hl; rw [w2]; norm_num [abs_of_pos, abs_of_neg])

end Verif.Binned
