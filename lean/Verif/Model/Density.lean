import Mathlib.Analysis.SpecialFunctions.Log.Basic
import Mathlib.Analysis.SpecialFunctions.Sqrt
import Mathlib.Analysis.Matrix.PosDef

/-!
# Model of the density based guidance

Source: `/repo/src/gasur/guidance.py`, `DensityBased`, lines 16-271.

* Exact real arithmetic. States are vectors of a fixed length `n`, covariances `n × n` matrices.
* A Gaussian mixture is a list of components; the code keeps three parallel lists of the same length. The states, the
  weights and the covariances of the objects (three arguments of `density_based_cost`) are also one list of components.
* `scipy.stats.multivariate_normal.pdf` is the density of the normal distribution; it fails unless the covariance is
  positive definite.
* `scipy.linalg.eig` followed by the reordering of the columns is a parameter `pcs`.
-/

namespace Gasur.Guidance

open Matrix

/-- A state. -/
abbrev Vec (n : ℕ) := Fin n → ℝ
/-- A covariance. -/
abbrev Mat (n : ℕ) := Matrix (Fin n) (Fin n) ℝ

/-- Failures: `IndexError`, `ValueError` (also "max() arg is an empty sequence" and shape mismatch), `LinAlgError`,
`ZeroDivisionError`, the result NaN, `AxisError`, `AttributeError`. -/
inductive GErr
  | index | value | linalg | zerodiv | nan | axis | attribute
  deriving DecidableEq

/-- A component of a Gaussian mixture (distributions.py:16-38). -/
structure Comp (n : ℕ) where
  mean : Vec n
  cov : Mat n
  weight : ℝ

/-- `DensityBased` (guidance.py:16-46): the targets and the two parameters. -/
structure Density (n : ℕ) where
  targets : List (Comp n)
  safety : ℝ
  yRef : ℝ

/-- `DensityBased.__init__` (guidance.py:37-46); `none` is an argument that was not given. -/
noncomputable def Density.init {n : ℕ} (wayareas : Option (List (Comp n))) (safety yRef : Option ℝ) : Except GErr (Density n) :=
  if yRef.getD (9 / 10) ≥ 1 then .error .value
  else .ok ⟨wayareas.getD [], safety.getD 1, yRef.getD (9 / 10)⟩

/-- `target_center` (guidance.py:261-271). -/
noncomputable def targetCenter {n : ℕ} (ts : List (Comp n)) : Except GErr (Vec n) :=
  match ts with
  | [] => .error .index
  | _ => .ok fun i => (ts.map fun t => t.mean i).sum / ts.length

/-- `np.sqrt(diff.T @ diff)` (guidance.py:90-91, 100-101). -/
noncomputable def dist {n : ℕ} (x y : Vec n) : ℝ := Real.sqrt ((x - y) ⬝ᵥ (x - y))

/-- The largest distance (guidance.py:88-93, 98-103). -/
noncomputable def maxDist (ds : List ℝ) : ℝ := ds.foldl (fun m d => if d > m then d else m) 0

/-- `max` of a list, fails for the empty one (guidance.py:107-110). -/
noncomputable def listMax : List ℝ → Except GErr ℝ
  | [] => .error .value
  | x :: xs => .ok (xs.foldl max x)

/-- `float(np.max(np.diag(x)))` (guidance.py:107-110). -/
noncomputable def maxDiag {n : ℕ} (c : Mat n) : Except GErr ℝ := listMax (List.ofFn fun i => c i i)

/-- The largest variance of a list of covariances (guidance.py:107-110). -/
noncomputable def maxVar {n : ℕ} (cs : List (Mat n)) : Except GErr ℝ := do
  listMax (← cs.mapM maxDiag)

/-- The density of the normal distribution with covariance `c` at distance `d` from the mean. -/
noncomputable def gauss {n : ℕ} (c : Mat n) (d : Vec n) : ℝ :=
  (2 * Real.pi) ^ (-(n : ℝ) / 2) / Real.sqrt c.det * Real.exp (-(1 / 2) * (d ⬝ᵥ c⁻¹ *ᵥ d))

/-- `mvn.pdf(x, mean=m, cov=c)`. -/
noncomputable def mvnPdf {n : ℕ} (x m : Vec n) (c : Mat n) : Except GErr ℝ :=
  open Classical in
  if c.PosDef then .ok (gauss c (x - m)) else .error .linalg

/-- `log_term` (guidance.py:141-143). -/
noncomputable def logTerm {n : ℕ} (c : Mat n) (d : Vec n) : ℝ :=
  Real.log ((2 * Real.pi) ^ (-(1 / 2) * (n : ℝ)) / Real.sqrt c.det) - 1 / 2 * (d ⬝ᵥ c⁻¹ *ᵥ d)

/-- Adding up terms that can fail (guidance.py:113-156). -/
def sumE : List (Except GErr ℝ) → Except GErr ℝ
  | [] => .ok 0
  | x :: xs => do
    let a ← x
    let b ← sumE xs
    .ok (a + b)

/-- A double sum of weighted densities (guidance.py:119-126, 131-137, 148-156). -/
noncomputable def pairSum {n : ℕ} (as bs : List (Comp n)) : Except GErr ℝ :=
  sumE (as.flatMap fun a => bs.map fun b => do
    let p ← mvnPdf a.mean b.mean (a.cov + b.cov)
    .ok (a.weight * b.weight * p))

/-- `quad` (guidance.py:140-145): it is computed after the density with the same covariance, so the inverse exists. -/
noncomputable def quadSum {n : ℕ} (os ts : List (Comp n)) : ℝ :=
  (os.flatMap fun o => ts.map fun t => o.weight * t.weight * logTerm (o.cov + t.cov) (o.mean - t.mean)).sum

/-- The activation (guidance.py:94-95, 104): `r` is the radius of influence, `y` the reference point, `d` the largest
distance of an object. -/
noncomputable def activator (r y d : ℝ) : ℝ := 1 / (1 + Real.exp (-(d - (r + Real.log (1 / y - 1)))))

/-- `density_based_cost` (guidance.py:48-161). The logarithm of a negative number is NaN, and so is then the result. -/
noncomputable def densityCost {n : ℕ} (self : Density n) (objs : List (Comp n)) : Except GErr ℝ := do
  let c ← targetCenter self.targets
  let r := self.safety * maxDist (self.targets.map fun t => dist t.mean c)
  if self.yRef = 0 then .error .zerodiv
  else do
    let act := activator r self.yRef (maxDist (objs.map fun o => dist c o.mean))
    let vo ← maxVar (objs.map Comp.cov)
    let vt ← maxVar (self.targets.map Comp.cov)
    let oo ← pairSum objs objs
    let ot ← pairSum objs self.targets
    let tt ← pairSum self.targets self.targets
    if self.yRef < 0 then .error .nan
    else .ok (10 * objs.length * vo * (oo - 2 * vt * self.targets.length * ot) + tt + act * quadSum objs self.targets)

/-! ### Waypoints -/

/-- The mean of the waypoints (guidance.py:182-186, 201). -/
noncomputable def wpCenter {n : ℕ} (ws : List (Vec n)) : Vec n := fun i => (ws.map fun w => w i).sum / ws.length

/-- `covars` of `find_principal_components` (guidance.py:201-209): the sample covariance of the data. -/
noncomputable def sampleCov {n : ℕ} (data : List (Vec n)) : Mat n := fun i j =>
  (data.map fun x => (x i - wpCenter data i) * (x j - wpCenter data j)).sum / data.length

/-- `find_principal_components` (guidance.py:197-212): the result is the transposed matrix of the sorted eigenvectors. -/
noncomputable def principal {n : ℕ} (pcs : Mat n → Mat n) (data : List (Vec n)) : Mat n := (pcs (sampleCov data))ᵀ

/-- `find_largest_proj_dist` (guidance.py:214-221): entry `i` of the diagonal. -/
noncomputable def largestProj {n : ℕ} (newDirs : Mat n) (oldDirs : List (Vec n)) (i : Fin n) : ℝ :=
  maxDist (oldDirs.map fun d => |(fun k => newDirs k i) ⬝ᵥ d|)

/-- The covariance of the area around waypoint `k` (guidance.py:188-195, 228-235). `squeeze` removes the first axis if the states
have only one entry, and then `np.delete(sample_dirs, wp_ind, 1)` fails. -/
noncomputable def wayCov {n : ℕ} (pcs : Mat n → Mat n) (ws : List (Vec n)) (k : ℕ) (w : Vec n) : Except GErr (Mat n) :=
  let centers := ws ++ [wpCenter ws]
  let data := centers.eraseIdx k
  let dirs := (centers.map fun e => e - w).eraseIdx k
  if n = 1 then .error .axis
  else
    let comps := principal pcs data
    open Classical in
    if IsUnit comps.det then .ok (comps * Matrix.diagonal (largestProj comps dirs) * comps⁻¹)
    else .error .linalg

/-- The loop over the waypoints (guidance.py:223-240). -/
noncomputable def wayLoop {n : ℕ} (pcs : Mat n → Mat n) (ws : List (Vec n)) : ℕ → List (Vec n) → Except GErr (List (Comp n))
  | _, [] => .ok []
  | k, w :: rest => do
    let c ← wayCov pcs ws k w
    let r ← wayLoop pcs ws (k + 1) rest
    .ok (⟨w, c, 1 / ws.length⟩ :: r)

/-- `convert_waypoints` (guidance.py:163-240). -/
noncomputable def convertWaypoints {n : ℕ} (pcs : Mat n → Mat n) (ws : List (Vec n)) : Except GErr (List (Comp n)) :=
  match ws with
  | [] => .error .index
  | _ => wayLoop pcs ws 0 ws

/-- What a call of `update_targets` leaves behind: the exception if there was one, the object, and the caller's list. -/
structure Updated (n : ℕ) where
  err : Option GErr
  self : Density n
  caller : List (Vec n)

/-- `update_targets` (guidance.py:242-259), if the argument is not the list `self.targets.means` itself: the old targets
are appended to the caller's list. If the conversion fails the object is left without targets. -/
noncomputable def updateTargets {n : ℕ} (pcs : Mat n → Mat n) (self : Density n) (new : List (Vec n)) (reset : Bool) :
    Updated n :=
  let all := if reset then new else new ++ self.targets.map Comp.mean
  match convertWaypoints pcs all with
  | .ok ts => ⟨none, { self with targets := ts }, all⟩
  | .error e => ⟨some e, { self with targets := [] }, all⟩

/-- The loop `for m in self.targets.means: new_waypoints.append(m)` (guidance.py:255-256) if both names are the same
list: `i` is the position of the iterator; `none` if the loop has not ended after the given number of rounds. -/
def appendSelf {n : ℕ} : ℕ → ℕ → List (Vec n) → Option (List (Vec n))
  | 0, _, _ => none
  | t + 1, i, l =>
    match l[i]? with
    | none => some l
    | some m => appendSelf t (i + 1) (l ++ [m])

/-- `find_nearest_target` (guidance.py:745-763): `none` is the empty list. -/
noncomputable def nearestTarget {n : ℕ} (ts : List (Comp n)) (x : Vec n) : Option (Vec n) :=
  (ts.foldl (fun (best : Option (Vec n × ℝ)) t =>
    match best with
    | none => some (t.mean, dist x t.mean)
    | some (_, m) => if dist x t.mean < m then some (t.mean, dist x t.mean) else best) none).map Prod.fst

end Gasur.Guidance
