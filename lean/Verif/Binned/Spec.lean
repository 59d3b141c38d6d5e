/- Specification side of C23-C26: bins and cells. -/
import Verif.Binned.Model

namespace Verif.Binned.Spec

/-- x lies in bin i of the edge list: half-open, the last bin closed. -/
def inBin (e : List ℚ) (i : ℕ) (x : ℚ) : Prop :=
  match e[i]?, e[i + 1]? with
  | some a, some b => a ≤ x ∧ (x < b ∨ (x = b ∧ i + 2 = e.length))
  | _, _ => False

instance (e : List ℚ) (i : ℕ) (x : ℚ) : Decidable (inBin e i x) := by
  unfold inBin; split <;> infer_instance

/-- The sample lies in the cell: in bin idx_d of dimension d, for every dimension. -/
def inCell : List (List ℚ) → List ℕ → List ℚ → Prop
  | e :: es, i :: is, x :: xs => inBin e i x ∧ inCell es is xs
  | [], [], [] => True
  | _, _, _ => False

instance decInCell : (es : List (List ℚ)) → (is : List ℕ) → (xs : List ℚ) → Decidable (inCell es is xs)
  | e :: es, i :: is, x :: xs =>
    have := decInCell es is xs
    inferInstanceAs (Decidable (inBin e i x ∧ inCell es is xs))
  | [], [], [] => inferInstanceAs (Decidable True)
  | [], [], _ :: _ => inferInstanceAs (Decidable False)
  | [], _ :: _, [] => inferInstanceAs (Decidable False)
  | [], _ :: _, _ :: _ => inferInstanceAs (Decidable False)
  | _ :: _, [], [] => inferInstanceAs (Decidable False)
  | _ :: _, [], _ :: _ => inferInstanceAs (Decidable False)
  | _ :: _, _ :: _, [] => inferInstanceAs (Decidable False)

/-- The values of the samples lying in the cell, in sample order. -/
def cellValues (es : List (List ℚ)) (idx : List ℕ) (samples : List (List ℚ)) (vals : List ℚ) : List ℚ :=
  ((samples.zip vals).filter (fun p => decide (inCell es idx p.1))).map Prod.snd

/-- Usable edges: at least two, strictly increasing. -/
def Edges (e : List ℚ) : Prop := 2 ≤ e.length ∧ e.Pairwise (· < ·)

/-- The coordinate is either exactly on the last edge or not within 10^-5 bin widths of it (on either side). -/
def Clear (e : List ℚ) (x : ℚ) : Prop :=
  ∀ last, e.getLast? = some last → x = last ∨ minWidth e / 10 ^ 5 < |x - last|

end Verif.Binned.Spec
