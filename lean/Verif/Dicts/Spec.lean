/- Specification of a dotted-path mapping: a plain function from paths to optional values. -/
import Verif.Np
import Mathlib.Data.List.Infix

namespace Verif.Dicts.Spec

/-- The mapping a user has in mind: which value (if any) each path holds. -/
abbrev Map (P V : Type) := List P → Option V

/-- Some proper, non-empty prefix of `p` holds a value. -/
def Blocked {P V : Type} (M : Map P V) (p : List P) : Prop :=
  ∃ q, q ≠ [] ∧ q <+: p ∧ q ≠ p ∧ (M q).isSome

open Classical in
/-- Assigning `v` to `p`: refused when a proper prefix holds a value; otherwise `p` holds `v`, everything below `p`
is gone, and nothing else changes. -/
noncomputable def assign {P V : Type} (M : Map P V) (p : List P) (v : V) : Map P V := fun q =>
  if Blocked M p then M q else if q = p then some v else if p <+: q then none else M q

open Classical in
/-- Deleting `p`: `p` and everything below it is gone. -/
noncomputable def remove {P V : Type} (M : Map P V) (p : List P) : Map P V := fun q => if p <+: q then none else M q

/-- Two paths are comparable when one is a prefix of the other. -/
def Comparable {P : Type} (p q : List P) : Prop := p <+: q ∨ q <+: p

end Verif.Dicts.Spec
