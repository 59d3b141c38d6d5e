/- Specification of the six-circle geometry and of grazing-incidence geometry, independent of the model. -/
import Mathlib.LinearAlgebra.Matrix.NonsingularInverse
import Mathlib.Analysis.SpecialFunctions.Trigonometric.Inverse
import Mathlib.Data.Matrix.Mul
import Mathlib.LinearAlgebra.Matrix.Notation

namespace Verif.Recip.Spec
open Real Matrix

/-- Direction of the incident beam (unit vector). -/
noncomputable def kIn (mu : ℝ) : Fin 3 → ℝ := ![sin mu, cos mu, 0]
/-- Direction of the beam scattered into detector angles delta, gamma (unit vector). -/
noncomputable def kOut (delta gamma : ℝ) : Fin 3 → ℝ := ![-sin gamma, cos delta * cos gamma, sin delta * cos gamma]
/-- Rotation about the first axis. -/
noncomputable def rotX (t : ℝ) : Matrix (Fin 3) (Fin 3) ℝ := !![1, 0, 0; 0, cos t, sin t; 0, -sin t, cos t]
/-- Rotation about the second axis. -/
noncomputable def rotY (t : ℝ) : Matrix (Fin 3) (Fin 3) ℝ := !![cos t, 0, -sin t; 0, 1, 0; sin t, 0, cos t]

/-- The six angles of an image, in radians. -/
structure Angles where
  delta : ℝ
  theta : ℝ
  chi : ℝ
  phi : ℝ
  mu : ℝ
  gamma : ℝ

/-- Degrees to radians for a row of the angle table (order delta, theta, chi, phi, mu, gamma). -/
noncomputable def Angles.ofDegrees (r : List ℝ) : Angles :=
  ⟨r.getD 0 0 * π / 180, r.getD 1 0 * π / 180, r.getD 2 0 * π / 180, r.getD 3 0 * π / 180, r.getD 4 0 * π / 180,
    r.getD 5 0 * π / 180⟩

/-- Scattering vector in the theta frame: (2 pi / lambda) (k_out - k_in), turned by theta. -/
noncomputable def qTheta (lam : ℝ) (a : Angles) (delta gamma : ℝ) : Fin 3 → ℝ :=
  (2 * π / lam) • (rotX a.theta *ᵥ (kOut delta gamma - kIn a.mu))
/-- ... in the phi frame: turned by chi and phi as well. -/
noncomputable def qPhi (lam : ℝ) (a : Angles) (delta gamma : ℝ) : Fin 3 → ℝ :=
  rotX a.phi *ᵥ (rotY a.chi *ᵥ qTheta lam a delta gamma)
/-- Axis convention of the UB matrix. -/
def axes (v : Fin 3 → ℝ) : Fin 3 → ℝ := ![v 2, v 1, -v 0]

/-- Squared length. -/
def sq (v : Fin 3 → ℝ) : ℝ := v 0 ^ 2 + v 1 ^ 2 + v 2 ^ 2
/-- A row of the returned array as a vector. -/
def ofRow (r : ℝ × ℝ × ℝ) : Fin 3 → ℝ := ![r.1, r.2.1, r.2.2]
/-- Angle between the incident and the scattered beam (the scattering angle 2 Theta). -/
noncomputable def twoTheta (mu delta gamma : ℝ) : ℝ := arccos (kOut delta gamma ⬝ᵥ kIn mu)

end Verif.Recip.Spec
