import Verif.Model.Elqr

/-!
# Model of the quadratization of the density based cost

Source: `/repo/src/gasur/guidance.py`, `ELQRGaussian.quadratize_non_quad_state`, lines 510-555. The numerical derivatives
`get_hessian` and `get_jacobian` (missing package gncpy) and the eigenvalue routine are parameters. The eigenvalues are
real here (the code uses complex numbers; those of a symmetric matrix are real).
-/

namespace Gasur.Elqr

open Matrix Gasur.Guidance

/-- `loc_states[:, [obj_num]] = x` (guidance.py:532-533). -/
def moveObj {n : ℕ} (os : List (Comp n)) (k : ℕ) (x : Vec n) : List (Comp n) :=
  os.modify k fun o => { o with mean := x }

/-- Replacing the negative eigenvalues (guidance.py:545-549): `eig` returns the eigenvalues and the matrix of the eigenvectors. -/
noncomputable def regularize {n : ℕ} (eig : Mat n → (Fin n → ℝ) × Mat n) (H : Mat n) : Except GErr (Mat n) := do
  let w ← invE (eig H).2
  .ok ((eig H).2 * Matrix.diagonal (fun i => if (eig H).1 i < 0 then 0 else (eig H).1 i) * w)

/-- The numerical routines: Hessian and gradient of a function at a point, and the eigenvalues. -/
structure Numerics (n : ℕ) where
  hess : (Vec n → Except GErr ℝ) → Vec n → Except GErr (Mat n)
  grad : (Vec n → Except GErr ℝ) → Vec n → Except GErr (Vec n)
  eig : Mat n → (Fin n → ℝ) × Mat n

/-- `quadratize_non_quad_state` (guidance.py:510-555) for the objects `os` (the states with the weights and covariances of the
plans) and the object `k`. -/
noncomputable def quadratize {n : ℕ} (nu : Numerics n) (d : Density n) (os : List (Comp n)) (k : ℕ) : Except GErr (Mat n × Vec n) := do
  let o ← getE os k
  let H ← nu.hess (fun x => densityCost d (moveObj os k x)) o.mean
  let Q ← regularize nu.eig H
  let g ← nu.grad (fun x => densityCost d (moveObj os k x)) o.mean
  .ok (Q, g - Q *ᵥ o.mean)

end Gasur.Elqr
