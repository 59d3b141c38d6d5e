/-
Shared vocabulary: Python exceptions as values and the numpy primitives that several modelled
functions call.  numpy itself is not part of /repo; the definitions below are its documented
behaviour and belong to the trusted base (see DESIGN.md).
-/
import Mathlib.Data.Rat.Floor
import Mathlib.Algebra.Order.Floor.Ring
import Mathlib.Algebra.BigOperators.Group.List.Basic
import Mathlib.Data.List.Basic
import Mathlib.Tactic.Linarith
import Mathlib.Tactic.Ring
import Mathlib.Tactic.FieldSimp
import Mathlib.Tactic.Push

namespace Verif

/-- The Python exceptions the modelled code can raise. -/
inductive PyErr
  | valueError | keyError | typeError | indexError | zeroDivision | unboundLocal | attributeError
  | notImplemented | stopIteration | fileNotFound | exception
  /-- not a Python exception: the code would touch memory it does not own (undefined behaviour) -/
  | memoryViolation
  deriving DecidableEq, Repr

deriving instance DecidableEq for Except

/-- Result of modelled Python code: a value or a raised exception. -/
abbrev Py (α : Type) := Except PyErr α

/-- Truncation towards zero, Python `int(x)` / C `(long) x`. -/
def pyInt (x : ℚ) : ℤ := if 0 ≤ x then ⌊x⌋ else ⌈x⌉

namespace Np

/-- `np.arange(n)` (as rationals). -/
def arange (n : ℕ) : List ℚ := (List.range n).map (fun (k : ℕ) => (k : ℚ))

/-- `np.linspace(a, b, n, endpoint=True)`. -/
def linspace (a b : ℚ) (n : ℕ) : List ℚ :=
  (List.range n).map (fun (k : ℕ) => a + k * ((b - a) / ((n - 1 : ℕ) : ℚ)))

/-- Successive differences, `np.diff`. -/
def diff : List ℚ → List ℚ
  | a :: b :: t => (b - a) :: diff (b :: t)
  | _ => []

/-- Cumulative weight strictly below / at most `e`: what `np.histogram` obtains by sorting the samples,
cumulating the weights and `searchsorted`-ing the edge with side `left` / `right`. -/
def cumLeft (s : List (ℚ × ℚ)) (e : ℚ) : ℚ := ((s.filter (fun p => p.1 < e)).map Prod.snd).sum
/-- see `cumLeft`; side `right`. -/
def cumRight (s : List (ℚ × ℚ)) (e : ℚ) : ℚ := ((s.filter (fun p => p.1 ≤ e)).map Prod.snd).sum

/-- Cumulative counts at the edges: all edges but the last use side `left`, the last one side `right`. -/
def cumAt (s : List (ℚ × ℚ)) : List ℚ → List ℚ
  | [] => []
  | [e] => [cumRight s e]
  | e :: t => cumLeft s e :: cumAt s t

/-- `np.histogram(x, bins=edges, weights=w)` for an explicit array of bin edges
(numpy's searchsorted code path): differences of the cumulative weights at the edges.
Decreasing edges are rejected with ValueError. Weight 1 gives the unweighted histogram. -/
def histogram (s : List (ℚ × ℚ)) (edges : List ℚ) : Py (List ℚ) :=
  if edges.IsChain (· ≤ ·) then .ok (diff (cumAt s edges)) else .error .valueError

/-- `np.searchsorted(a, v, side='left')` for ascending `a`. -/
def searchsortedLeft (a : List ℚ) (v : ℚ) : ℕ := a.countP (fun e => decide (e < v))
/-- `np.searchsorted(a, v, side='right')` for ascending `a`. -/
def searchsortedRight (a : List ℚ) (v : ℚ) : ℕ := a.countP (fun e => decide (e ≤ v))
/-- `np.digitize(v, a)` for ascending `a` (right=False). -/
def digitize (a : List ℚ) (v : ℚ) : ℕ := searchsortedRight a v

end Np

/-! ### list lemmas used in several areas -/

theorem getElem?_flatMap_const {α β : Type*} (l : List α) (g : α → List β) (h : ℕ)
    (hg : ∀ a ∈ l, (g a).length = h) (i j : ℕ) (hj : j < h) :
    (l.flatMap g)[i * h + j]? = l[i]?.bind (fun a => (g a)[j]?) := by
  induction l generalizing i with
  | nil => simp
  | cons a t ih =>
    have ha := hg a (by simp)
    rw [List.flatMap_cons]
    cases i with
    | zero => simp [List.getElem?_append, ha, hj]
    | succ i =>
      have e : (i + 1) * h + j = h + (i * h + j) := by ring
      rw [e, List.getElem?_append_right (by omega), ha]
      simp only [Nat.add_sub_cancel_left, List.getElem?_cons_succ]
      exact ih (fun b hb => hg b (by simp [hb])) i

theorem length_flatMap_const {α β : Type*} (l : List α) (g : α → List β) (h : ℕ)
    (hg : ∀ a ∈ l, (g a).length = h) : (l.flatMap g).length = l.length * h := by
  induction l with
  | nil => simp
  | cons a t ih =>
    rw [List.flatMap_cons, List.length_append, ih (fun b hb => hg b (by simp [hb])), hg a (by simp)]
    simp; ring

namespace Np

theorem length_arange (n : ℕ) : (arange n).length = n := by simp [arange]
theorem getElem?_arange (n k : ℕ) (h : k < n) : (arange n)[k]? = some (k : ℚ) := by
  rw [arange, List.getElem?_map, List.getElem?_range h]; rfl
theorem getElem?_arange_ge (n k : ℕ) (h : ¬ k < n) : (arange n)[k]? = none := by
  rw [List.getElem?_eq_none_iff, length_arange]; omega

theorem length_diff (l : List ℚ) : (diff l).length = l.length - 1 := by
  induction l with
  | nil => rfl
  | cons a t ih =>
    cases t with
    | nil => rfl
    | cons b t => simp [diff] at ih ⊢; omega

theorem getElem?_diff (l : List ℚ) (k : ℕ) (a b : ℚ) (ha : l[k]? = some a) (hb : l[k+1]? = some b) :
    (diff l)[k]? = some (b - a) := by
  induction l generalizing k with
  | nil => simp at ha
  | cons x t ih =>
    cases t with
    | nil => simp at hb
    | cons y t =>
      cases k with
      | zero => simp at ha hb; simp [diff, ha, hb]
      | succ k => simp only [diff, List.getElem?_cons_succ] at *; exact ih k ha hb

theorem sum_diff (a : ℚ) (l : List ℚ) : (diff (a :: l)).sum = (a :: l).getLast (by simp) - a := by
  induction l generalizing a with
  | nil => simp [diff]
  | cons b t ih =>
    have e : (a :: b :: t).getLast (by simp) = (b :: t).getLast (by simp) := List.getLast_cons (List.cons_ne_nil b t)
    rw [e]; simp only [diff, List.sum_cons, ih b]; ring

theorem length_cumAt (s : List (ℚ × ℚ)) (e : List ℚ) : (cumAt s e).length = e.length := by
  induction e with
  | nil => rfl
  | cons a t ih => cases t with
    | nil => rfl
    | cons b t => simp [cumAt] at ih ⊢; omega

theorem getElem?_cumAt_lt (s : List (ℚ × ℚ)) (e : List ℚ) (k : ℕ) (a : ℚ) (hk : e[k]? = some a)
    (hlt : k + 1 < e.length) : (cumAt s e)[k]? = some (cumLeft s a) := by
  induction e generalizing k with
  | nil => simp at hk
  | cons x t ih =>
    cases t with
    | nil => simp at hlt
    | cons y t =>
      cases k with
      | zero => simp at hk; simp [cumAt, hk]
      | succ k =>
        simp only [cumAt, List.getElem?_cons_succ] at *
        exact ih k hk (by simpa using hlt)

theorem getElem?_cumAt_last (s : List (ℚ × ℚ)) (e : List ℚ) (k : ℕ) (a : ℚ) (hk : e[k]? = some a)
    (hlt : k + 1 = e.length) : (cumAt s e)[k]? = some (cumRight s a) := by
  induction e generalizing k with
  | nil => simp at hk
  | cons x t ih =>
    cases t with
    | nil => simp at hlt; subst hlt; simp at hk; simp [cumAt, hk]
    | cons y t =>
      cases k with
      | zero => simp at hlt
      | succ k =>
        simp only [cumAt, List.getElem?_cons_succ] at *
        exact ih k hk (by simpa using hlt)

/-- Total weight of the samples satisfying `P` (specification side). -/
def weightOf (s : List (ℚ × ℚ)) (P : ℚ → Prop) [DecidablePred P] : ℚ :=
  ((s.filter (fun p => decide (P p.1))).map Prod.snd).sum

theorem weightOf_nil (P : ℚ → Prop) [DecidablePred P] : weightOf [] P = 0 := by simp [weightOf]
theorem weightOf_cons (p : ℚ × ℚ) (s) (P : ℚ → Prop) [DecidablePred P] :
    weightOf (p :: s) P = (if P p.1 then p.2 else 0) + weightOf s P := by
  by_cases h : P p.1 <;> simp [weightOf, h]

theorem weightOf_sub (s : List (ℚ × ℚ)) (P Q R : ℚ → Prop) [DecidablePred P] [DecidablePred Q]
    [DecidablePred R] (h : ∀ x, (R x ↔ Q x ∧ ¬ P x)) (hPQ : ∀ x, P x → Q x) :
    weightOf s Q - weightOf s P = weightOf s R := by
  induction s with
  | nil => simp [weightOf_nil]
  | cons p s ih =>
    simp only [weightOf_cons, ← ih]
    by_cases hp : P p.1 <;> by_cases hq : Q p.1 <;> by_cases hr : R p.1 <;> simp [hp, hq, hr]
    all_goals first
      | (exact absurd (hPQ _ hp) hq)
      | (have := (h p.1); simp_all; done)
      | ring

theorem cumLeft_eq (s e) : cumLeft s e = weightOf s (fun x => x < e) := rfl
theorem cumRight_eq (s e) : cumRight s e = weightOf s (fun x => x ≤ e) := rfl

/-- Adjacent elements of an ascending list. -/
theorem chain_le_get (e : List ℚ) (h : e.IsChain (· ≤ ·)) (k : ℕ) (a b : ℚ) (ha : e[k]? = some a)
    (hb : e[k+1]? = some b) : a ≤ b := by
  rw [List.isChain_iff_getElem] at h
  rw [List.getElem?_eq_some_iff] at ha hb
  obtain ⟨h1, rfl⟩ := ha
  obtain ⟨h2, rfl⟩ := hb
  exact h k h2

/-- Every bin but the last is half-open. -/
theorem histogram_bin (s : List (ℚ × ℚ)) (e : List ℚ) (h : e.IsChain (· ≤ ·)) (k : ℕ) (a b : ℚ)
    (ha : e[k]? = some a) (hb : e[k+1]? = some b) (hlt : k + 2 < e.length) :
    (diff (cumAt s e))[k]? = some (weightOf s (fun x => a ≤ x ∧ x < b)) := by
  rw [getElem?_diff _ _ _ _ (getElem?_cumAt_lt s e k a ha (by omega))
    (getElem?_cumAt_lt s e (k+1) b hb (by omega)), cumLeft_eq, cumLeft_eq]
  congr 1
  have := chain_le_get e h k a b ha hb
  refine weightOf_sub s _ _ _ (fun x => by constructor <;> rintro ⟨h1, h2⟩ <;> constructor <;> linarith)
    (fun x hx => by linarith)

/-- The last bin is closed. -/
theorem histogram_last (s : List (ℚ × ℚ)) (e : List ℚ) (h : e.IsChain (· ≤ ·)) (k : ℕ) (a b : ℚ)
    (ha : e[k]? = some a) (hb : e[k+1]? = some b) (hlt : k + 2 = e.length) :
    (diff (cumAt s e))[k]? = some (weightOf s (fun x => a ≤ x ∧ x ≤ b)) := by
  rw [getElem?_diff _ _ _ _ (getElem?_cumAt_lt s e k a ha (by omega))
    (getElem?_cumAt_last s e (k+1) b hb (by omega)), cumLeft_eq, cumRight_eq]
  congr 1
  have := chain_le_get e h k a b ha hb
  refine weightOf_sub s _ _ _ (fun x => by constructor <;> rintro ⟨h1, h2⟩ <;> constructor <;> linarith)
    (fun x hx => by linarith)

/-- Conservation: the histogram sums to the weight of the samples between the first and last edge. -/
theorem histogram_sum (s : List (ℚ × ℚ)) (e : List ℚ) (h : e.IsChain (· ≤ ·)) (a b : ℚ)
    (ha : e.head? = some a) (hb : e.getLast? = some b) (h2 : 2 ≤ e.length) :
    (diff (cumAt s e)).sum = weightOf s (fun x => a ≤ x ∧ x ≤ b) := by
  have key : ∀ (e : List ℚ) (a : ℚ), e.head? = some a → 2 ≤ e.length → e.getLast? = some b →
      (diff (cumAt s e)).sum = cumRight s b - cumLeft s a := by
    intro e a h1 h2 h3
    match e, h1, h2 with
    | [x], _, h2 => simp at h2
    | x :: y :: t, h1, _ =>
      simp at h1; subst h1
      simp only [cumAt]
      rw [sum_diff]
      congr 1
      rw [List.getLast_cons (by cases t <;> simp [cumAt])]
      clear h
      induction t generalizing y with
      | nil => simp at h3; subst h3; simp [cumAt]
      | cons z t ih =>
        simp only [cumAt]
        rw [List.getLast_cons (by cases t <;> simp [cumAt])]
        refine ih z (by simp) ?_
        simpa using h3
  rw [key e a ha h2 hb, cumLeft_eq, cumRight_eq]
  have hab : a ≤ b := by
    have hp := (List.isChain_iff_pairwise).1 h
    match e, ha with
    | x :: t, ha =>
      simp at ha; subst ha
      rw [List.getLast?_eq_getLast_of_ne_nil (by simp)] at hb
      simp at hb
      have : b ∈ x :: t := by rw [← hb]; exact List.getLast_mem _
      rcases List.mem_cons.1 this with rfl | hm
      · exact le_refl _
      · exact (List.pairwise_cons.1 hp).1 b hm
  refine weightOf_sub s _ _ _ (fun x => by constructor <;> rintro ⟨h1, h2⟩ <;> constructor <;> linarith)
    (fun x hx => by linarith)

end Np
end Verif
