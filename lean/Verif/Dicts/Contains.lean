/- Membership in an RCParamDict (C13): `key in d` for all histories (inherited `Mapping.__contains__` over skbeam/core/utils.py 261-267). -/
import Verif.Dicts.Props

namespace Verif.Dicts
open Verif
variable {V : Type}

/-- C13: asking for membership never raises KeyError; the answer is yes exactly if reading the key succeeds, no exactly if it raises
KeyError; and a path to which a value was assigned last is in. -/
theorem C13_membership (ops : List (RcOp V)) (key : List Char) :
    rcContains (rcRun ops) (splitDot key) ≠ .error .keyError ∧
    (rcContains (rcRun ops) (splitDot key) = .ok true ↔ ∃ x, rcGet (rcRun ops) (splitDot key) = .ok x) ∧
    (rcContains (rcRun ops) (splitDot key) = .ok false ↔ rcGet (rcRun ops) (splitDot key) = .error .keyError) ∧
    ∀ v, specRun ops (splitDot key) = some v → rcContains (rcRun ops) (splitDot key) = .ok true := by
  have h4 : ∀ v, specRun ops (splitDot key) = some v → rcContains (rcRun ops) (splitDot key) = .ok true := fun v hv => by
    rw [rcContains, (C11_refines_path_map ops key v).2 hv]
  refine ⟨?_, ?_, ?_, h4⟩ <;> unfold rcContains <;> cases hg : rcGet (rcRun ops) (splitDot key) with
  | ok x => simp
  | error e => cases e <;> simp

/-- Non-vacuity: a value, a branch and a missing key in one history. -/
example : specRun demoOps (splitDot "a.c".toList) = some 5 ∧ rcGet (rcRun demoOps) (splitDot "nope".toList) = .error .keyError :=
  ⟨(C11_refines_path_map _ _ _).1 (by decide +kernel), by decide +kernel⟩

end Verif.Dicts
