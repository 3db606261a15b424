import Mathlib.LinearAlgebra.Matrix.NonsingularInverse
import Mathlib.Algebra.Order.Field.Basic
import Verif.Model.Phd

/-!
# Model of measurement gating and of the PHD constructor

Source: `/repo/src/gasur/swarm_estimator/tracker.py`, lines 59-91 (base constructor), 221-272
(`_gate_meas`), 575-587 (PHD constructor).

The inner filter's measurement matrix, estimated measurement and noise are parameters.
`la.cholesky` (numpy: lower triangular) is the parameter `chol`; a matrix that is not positive definite
raises in numpy and is not modelled. `la.inv` is the matrix inverse.
-/

namespace Gasur.Gating

open Matrix

variable {K Z : Type*} [Field K] [LinearOrder K]

/-- One pass of the inner loop over the measurements for one component (tracker.py:262-268). -/
def gateComp (gate : K) (meas : List Z) (valid : List ℕ) (dist : Z → K) : List ℕ :=
  meas.zipIdx.foldl (fun v zi =>
    if zi.2 ∈ v then v else if dist zi.1 < gate then v ++ [zi.2] else v) valid

/-- `_gate_meas` (tracker.py:221-272), with the distance of a measurement to each component given by
the list `dists`. -/
def gateMeas (gate : K) (dists : List (Z → K)) (meas : List Z) : List Z :=
  if meas.length = 0 then []
  else
    (((dists.foldl (gateComp gate meas) []).mergeSort (fun a b => decide (a ≤ b))).filterMap
      fun i => meas[i]?)

/-- `dist = np.sum((inv_sqrt_m_cov.T @ inov)**2)` with `inv_sqrt_m_cov = inv(v_s)`, `v_s` the Cholesky
factor (tracker.py:258-267). -/
noncomputable def codeDist {d : ℕ} (L : Matrix (Fin d) (Fin d) K) (inov : Fin d → K) : K :=
  ∑ i, ((L⁻¹)ᵀ *ᵥ inov) i ^ 2

/-- Symmetrised innovation covariance (tracker.py:256-257). -/
def measPredCov {d s : ℕ} (H : Matrix (Fin d) (Fin s) K) (p : Matrix (Fin s) (Fin s) K)
    (R : Matrix (Fin d) (Fin d) K) : Matrix (Fin d) (Fin d) K :=
  (1 / 2 : K) • ((H * p * Hᵀ + R) + (H * p * Hᵀ + R)ᵀ)

/-- The distance from measurement `z` to a component (tracker.py:253-267). -/
noncomputable def compDist {d s : ℕ} (chol : Matrix (Fin d) (Fin d) K → Matrix (Fin d) (Fin d) K)
    (H : (Fin s → K) → Matrix (Fin d) (Fin s) K) (est : (Fin s → K) → Fin d → K)
    (R : Matrix (Fin d) (Fin d) K) (mp : (Fin s → K) × Matrix (Fin s) (Fin s) K) (z : Fin d → K) : K :=
  codeDist (chol (measPredCov (H mp.1) mp.2 R)ᵀ) (z - est mp.1)

/-- `_gate_meas` with all its parts (tracker.py:221-272). -/
noncomputable def gateFull {d s : ℕ} (chol : Matrix (Fin d) (Fin d) K → Matrix (Fin d) (Fin d) K)
    (H : (Fin s → K) → Matrix (Fin d) (Fin s) K) (est : (Fin s → K) → Fin d → K)
    (R : Matrix (Fin d) (Fin d) K) (gate : K)
    (means : List (Fin s → K)) (covs : List (Matrix (Fin s) (Fin s) K)) (meas : List (Fin d → K)) :
    List (Fin d → K) :=
  gateMeas gate ((means.zip covs).map (compDist chol H est R)) meas

/-- Attributes set by the constructors that matter here. -/
structure Obj (K : Type*) where
  gatingOn : Bool
  invChi2Gate : K
  extractThreshold : K
  pruneThreshold : K
  mergeThreshold : K
  maxGauss : ℕ

/-- `RandomFiniteSetBase.__init__` (tracker.py:59-91) with its own parameter `inv_chi2_gate`. -/
def baseInit (invChi2Gate : K) (o : Obj K) : Obj K := { o with invChi2Gate := invChi2Gate }

/-- `ProbabilityHypothesisDensity.__init__` (tracker.py:575-587): sets the attributes, then calls
`super().__init__(**kwargs)`. The name `inv_chi2_gate` is bound by the PHD signature, so it is never in
`kwargs`, and the base constructor runs with its default 0. -/
def phdInit (gatingOn : Bool) (invChi2Gate extractThreshold pruneThreshold mergeThreshold : K)
    (maxGauss : ℕ) : Obj K :=
  baseInit 0 { gatingOn, invChi2Gate, extractThreshold, pruneThreshold, mergeThreshold, maxGauss }

/-- Measurements used by `correct` (tracker.py:748-751). -/
def usedMeas (o : Obj K) (dists : List (Z → K)) (meas : List Z) : List Z :=
  if o.gatingOn then gateMeas o.invChi2Gate dists meas else meas

end Gasur.Gating
