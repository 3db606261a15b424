import Mathlib.Analysis.SpecialFunctions.Pow.Real
import Mathlib.LinearAlgebra.Matrix.NonsingularInverse
import Mathlib.Data.List.ReduceOption
import Mathlib.Analysis.SpecialFunctions.Exp
import Mathlib.Analysis.SpecialFunctions.Sqrt

/-!
# Model of the OSPA and OSPA(2) calculations

Source: `/repo/src/gasur/utilities/distributions.py` 167-555 and `/repo/src/gasur/swarm_estimator/tracker.py`
274-422, 2751-2822.

* Exact real arithmetic. A state array is a list of time steps, each a list of slots; a slot that is NaN in
  the code is `none`. The code's arrays are rectangular; a slot past the end of a list counts as missing, which
  is the same as padding with NaN. States are complete or missing (the code only looks at the first component).
* `scipy.optimize.linear_sum_assignment` is the parameter `lsa`; it raises `ValueError` if the matrix contains
  NaN (error `invalid`).
* The order `p` is a natural number (`p : int`, distributions.py:257), the window length too.
* The method is one of the four of the enumeration; the branch for others (367-370) is not modelled. Warnings are
  not modelled.
-/

namespace Gasur.Ospa

/-- Exceptions: an array index out of range; NaN in the assignment matrix; `1. / 0`; indexing `est_cov_mat = None`
(distributions.py:349). -/
inductive OErr
  | index
  | invalid
  | zeroDiv
  | noCov
deriving DecidableEq

/-- The slots of one time step. -/
abbrev Row (X : Type*) := List (Option X)

/-- Slot `i`. -/
def slot {X : Type*} (r : Row X) (i : ℕ) : Option X := (r[i]?).getD none

/-- Number of existing objects (distributions.py:382-383). -/
def count {X : Type*} (r : Row X) : ℕ := r.countP Option.isSome

/-- `scipy.optimize.linear_sum_assignment`: the pairs `zip(row_ind, col_ind)`. -/
abbrev Lsa := (m n : ℕ) → (Fin m → Fin n → ℝ) → Finset (Fin m × Fin n)

variable {X Y : Type*}

/-- One entry of `distances[:, :, tt]` after the cut-off (distributions.py:330-380); `d` is the core distance
between an estimated and a true object. -/
noncomputable def pairDist (c : ℝ) (useEmpty : Bool) (d : X → Y → ℝ) : Option X → Option Y → Option ℝ
  | some x, some y => some (min (d x y) c)
  | none, none => if useEmpty then some (min 0 c) else none
  | _, _ => some (min c c)

/-- `linear_sum_assignment` of the `m × n` matrix `D ** p` and the cost of the result
(distributions.py:394-396, 542-545). -/
noncomputable def assignCost (lsa : Lsa) (p m n : ℕ) (D : ℕ → ℕ → Option ℝ) : Except OErr ℝ :=
  open Classical in
  if ∃ (i : Fin m) (j : Fin n), D i j = none then .error .invalid
  else .ok (∑ a ∈ lsa m n (fun i j => ((D i j).getD 0) ^ p), ((D a.1 a.2).getD 0) ^ p)

/-- One time step of `calculate_ospa` (distributions.py:372-403): localisation and cardinality. `cont_sub`
takes the first `m` rows and `n` columns. -/
noncomputable def ospaStep (lsa : Lsa) (c : ℝ) (p : ℕ) (useEmpty : Bool) (d : X → Y → ℝ) (e : Row X)
    (t : Row Y) : Except OErr (ℝ × ℝ) :=
  if count t = 0 ∧ count e = 0 then .ok (0, 0)
  else if count t = 0 ∨ count e = 0 then .ok (0, c)
  else
    match assignCost lsa p (count e) (count t) (fun i j => pairDist c useEmpty d (slot e i) (slot t j)) with
    | .error x => .error x
    | .ok cost =>
      if p = 0 then .error .zeroDiv
      else .ok ((1 / ((max (count t) (count e) : ℕ) : ℝ) * cost) ^ (1 / (p : ℝ)),
        (1 / ((max (count t) (count e) : ℕ) : ℝ) * c ^ p * |(count t : ℝ) - count e|) ^ (1 / (p : ℝ)))

/-- The loop over the time steps of the truth (distributions.py:329). -/
noncomputable def ospaLoop (lsa : Lsa) (c : ℝ) (p : ℕ) (useEmpty : Bool) (d : X → Y → ℝ) :
    List (Row X) → List (Row Y) → Except OErr (List (ℝ × ℝ))
  | _, [] => .ok []
  | [], _ :: _ => .error .index
  | e :: es, t :: ts =>
    match ospaStep lsa c p useEmpty d e t with
    | .error x => .error x
    | .ok r =>
      match ospaLoop lsa c p useEmpty d es ts with
      | .error x => .error x
      | .ok l => .ok (r :: l)

/-- `ospa = localization + cardinality` (distributions.py:405). -/
def total (r : ℝ × ℝ) : ℝ := r.1 + r.2

/-! ### Core distances -/

/-- `OSPAMethod` (distributions.py:167-211). -/
inductive Method
  | manhattan
  | euclidean
  | hellinger
  | mahalanobis
deriving DecidableEq

/-- An object: state and covariance. -/
structure Obj (s : ℕ) where
  x : Fin s → ℝ
  cov : Matrix (Fin s) (Fin s) ℝ

open Matrix in
/-- The core distance (distributions.py:331-365), first argument estimate, second truth. (Simplification: the code raises
for a singular sum of covariances, Hellinger, and gives NaN for the square root of a negative number; here the inverse of a
singular matrix and such a square root are zero. Neither happens if all covariances are positive definite.) -/
noncomputable def coreDist {s : ℕ} : Method → Obj s → Obj s → ℝ
  | .euclidean, e, t => Real.sqrt (∑ k, (t.x k - e.x k) ^ 2)
  | .manhattan, e, t => ∑ k, |t.x k - e.x k|
  | .hellinger, e, t =>
    1 - Real.sqrt (Real.sqrt (e.cov * t.cov).det / ((1 / 2 : ℝ) • (e.cov + t.cov)).det) *
      Real.exp (-(1 / 4) * ((e.x - t.x) ⬝ᵥ ((e.cov + t.cov)⁻¹ *ᵥ (e.x - t.x))))
  | .mahalanobis, e, t => Real.sqrt ((e.x - t.x) ⬝ᵥ (e.cov *ᵥ (e.x - t.x)))

/-- The method that is used (distributions.py:292-303). -/
def effMethod (m : Option Method) (hasTrueCov hasEstCov : Bool) : Method :=
  match m with
  | none => .euclidean
  | some .mahalanobis => if hasEstCov then .mahalanobis else .euclidean
  | some .hellinger => if hasTrueCov then .hellinger else .euclidean
  | some x => x

/-- The cut-off that is used (distributions.py:305-306). -/
noncomputable def effCut (m : Method) (c : ℝ) : ℝ := if m = .hellinger then min 1 c else c

/-- Some estimated and some true object exist at the same time step (distributions.py:344-345). -/
def Meet (est : List (Row X)) (truth : List (Row Y)) : Prop := ∃ a ∈ est.zip truth, 0 < count a.1 ∧ 0 < count a.2

/-- The loop of `calculate_ospa` (distributions.py:292-405) with the method and cut-off that are used, when the
covariances that are looked at are there. -/
noncomputable def ospaGiven {s : ℕ} (lsa : Lsa) (est truth : List (Row (Obj s))) (c : ℝ) (p : ℕ)
    (useEmpty : Bool) (method : Option Method) (hasTrueCov hasEstCov : Bool) :
    Except OErr (List (ℝ × ℝ)) :=
  ospaLoop lsa (effCut (effMethod method hasTrueCov hasEstCov) c) p useEmpty
    (coreDist (effMethod method hasTrueCov hasEstCov)) est truth

/-- `calculate_ospa` (distributions.py:216-408): localisation and cardinality at each time step. `hasTrueCov` and
`hasEstCov` say that `true_cov_mat` and `est_cov_mat` are not `None`. The Hellinger branch indexes `est_cov_mat`
without a check (349). (Simplification: if this and another exception are due, this one is reported.) -/
noncomputable def calculateOspa {s : ℕ} (lsa : Lsa) (est truth : List (Row (Obj s))) (c : ℝ) (p : ℕ)
    (useEmpty : Bool) (method : Option Method) (hasTrueCov hasEstCov : Bool) :
    Except OErr (List (ℝ × ℝ)) :=
  open Classical in
  if effMethod method hasTrueCov hasEstCov = .hellinger ∧ hasEstCov = false ∧ Meet est truth then .error .noCov
  else ospaGiven lsa est truth c p useEmpty method hasTrueCov hasEstCov

/-! ### OSPA(2) -/

/-- The time steps of the window (distributions.py:514-516). -/
def window (tt winLen : ℕ) : List ℕ := (List.range (tt + 1)).drop (tt + 1 - winLen)

/-- The history of slot `i` over the window. -/
def hist (mat : List (Row X)) (win : List ℕ) (i : ℕ) : List (Option X) :=
  win.map fun tt => slot ((mat[tt]?).getD []) i

/-- `np.nanmean` (distributions.py:522); `none` is NaN. -/
noncomputable def nanmean (l : List (Option ℝ)) : Option ℝ :=
  if l.reduceOption = [] then none else some (l.reduceOption.sum / l.reduceOption.length)

/-- `track_dist` for two histories (distributions.py:519-524). -/
noncomputable def trackDist (c : ℝ) (d : X → Y → ℝ) (hx : List (Option X)) (hy : List (Option Y)) : ℝ :=
  (nanmean (List.zipWith (pairDist c false d) hx hy)).getD 0

/-- Number of slots. -/
def numSlots (mat : List (Row X)) : ℕ := (mat.map List.length).foldr max 0

/-- The tracks that exist at some time of the window (`valid_rows`, `valid_cols`, distributions.py:526-527),
as their histories. -/
def validHist (mat : List (Row X)) (win : List ℕ) : List (List (Option X)) :=
  ((List.range (numSlots mat)).map (hist mat win)).filter fun h => h.any Option.isSome

/-- One time step of `calculate_ospa2` (distributions.py:513-551). -/
noncomputable def ospa2Step (lsa : Lsa) (c : ℝ) (p : ℕ) (d : X → Y → ℝ) (es : List (List (Option X)))
    (ts : List (List (Option Y))) : Except OErr (ℝ × ℝ) :=
  if ts.length = 0 ∧ es.length = 0 then .ok (0, 0)
  else
    match (if ts.length = 0 ∨ es.length = 0 then .ok 0
      else assignCost lsa p es.length ts.length fun i j =>
        some (trackDist c d ((es[i]?).getD []) ((ts[j]?).getD []))) with
    | .error x => .error x
    | .ok cost => .ok ((cost / ((max ts.length es.length : ℕ) : ℝ)) ^ (1 / (p : ℝ)),
        (c ^ p * |(es.length : ℝ) - ts.length| / ((max ts.length es.length : ℕ) : ℝ)) ^ (1 / (p : ℝ)))

/-- `calculate_ospa2` (distributions.py:424-555) for a core distance: the inner call to `calculate_ospa` with
`p = 1` and `use_empty = False` is made for all time steps first and its exceptions are passed on. -/
noncomputable def ospa2 (lsa : Lsa) (c : ℝ) (p winLen : ℕ) (d : X → Y → ℝ) (est : List (Row X))
    (truth : List (Row Y)) : Except OErr (List (Except OErr (ℝ × ℝ))) :=
  match ospaLoop lsa c 1 false d est truth with
  | .error x => .error x
  | .ok _ =>
    if p = 0 then .error .zeroDiv
    else .ok ((List.range truth.length).map fun tt =>
      ospa2Step lsa c p d (validHist est (window tt winLen)) (validHist truth (window tt winLen)))

/-- `calculate_ospa2` (distributions.py:424-555) with the core distance and cut-off that the inner call to
`calculate_ospa` chooses and returns (499-504), which also passes on the exception for missing covariances. -/
noncomputable def calculateOspa2 {s : ℕ} (lsa : Lsa) (est truth : List (Row (Obj s))) (c : ℝ) (p winLen : ℕ)
    (method : Option Method) (hasTrueCov hasEstCov : Bool) :
    Except OErr (List (Except OErr (ℝ × ℝ))) :=
  open Classical in
  if effMethod method hasTrueCov hasEstCov = .hellinger ∧ hasEstCov = false ∧ Meet est truth then .error .noCov
  else ospa2 lsa (effCut (effMethod method hasTrueCov hasEstCov) c) p winLen
    (coreDist (effMethod method hasTrueCov hasEstCov)) est truth

/-! ### Setting up the matrices -/

/-- The number of objects (tracker.py:277-281, 304-308): the largest number of entries that are not `None`. -/
def numObjs (l : List (List (Option X))) : ℕ := (l.map count).foldr max 0

/-- Filling one time step (tracker.py:288-291, 315-318): entry `k` of the list goes to slot `k`; writing past the
last slot is an `IndexError`. The slots that are not written stay NaN. -/
def fillRow (n : ℕ) (l : List (Option X)) : Except OErr (Row X) :=
  if ∃ k ∈ List.range l.length, n ≤ k ∧ (slot l k).isSome then .error .index
  else .ok ((List.range n).map (slot l))

/-- Filling all time steps, `_ospa_setup_tmat` and `_ospa_setup_emat` of the base class
(tracker.py:274-326). -/
def setupRows (n : ℕ) : List (List (Option X)) → Except OErr (List (Row X))
  | [] => .ok []
  | l :: ls =>
    match fillRow n l with
    | .error e => .error e
    | .ok r =>
      match setupRows n ls with
      | .error e => .error e
      | .ok rs => .ok (r :: rs)

/-- `_ospa_setup_tmat` / `_ospa_setup_emat` (tracker.py:274-326). -/
def setupMat (l : List (List (Option X))) : Except OErr (List (Row X)) := setupRows (numObjs l) l

/-- `lbl_to_ind` of the GLMB filter (tracker.py:2751-2764): the labels in the order of their first
occurrence. (`str` is injective on labels.) -/
def labelOrder {L : Type*} [DecidableEq L] (labels : List (List L)) : List L :=
  labels.flatten.foldl (fun acc l => if l ∈ acc then acc else acc ++ [l]) []

/-- Filling one time step by label (tracker.py:2771-2777): a later state with the same label overwrites. -/
def labelRow {L : Type*} [DecidableEq L] (order : List L) (lbls : List L) (ss : List X) : Row X :=
  (lbls.zip ss).foldl (fun r ls => r.set (order.idxOf ls.1) (some ls.2)) (List.replicate order.length none)

/-- `_ospa_setup_emat` of the GLMB filter (tracker.py:2751-2787). -/
def setupLabels {L : Type*} [DecidableEq L] (labels : List (List L)) (states : List (List X)) :
    List (Row X) :=
  (labels.zip states).map fun ls => labelRow (labelOrder labels) ls.1 ls.2

/-- The assignment matrix of some time step contains the distance between two existing objects
(distributions.py:394); the filters pass covariances that are NaN if they were not saved (tracker.py:311-326), and
then this distance is NaN. -/
def NanPair (est : List (Row X)) (truth : List (Row Y)) : Prop :=
  ∃ a ∈ est.zip truth, ∃ i < count a.1, ∃ j < count a.2, (slot a.1 i).isSome ∧ (slot a.2 j).isSome

/-- The call of `calculate_ospa` by a filter (tracker.py:394, 412-422): `hasTrueCov` says that `true_covs` is given
(and complete), `hasEstCov` is `save_covs`. The matrices that are passed are never `None`. The check of the filter
(328-342) is the same as the one in `calculate_ospa`, except that it looks at `save_covs`. -/
noncomputable def callOspa {s : ℕ} (lsa : Lsa) (em tm : List (Row (Obj s))) (c : ℝ) (p : ℕ)
    (method : Option Method) (hasTrueCov hasEstCov : Bool) : Except OErr (List (ℝ × ℝ)) :=
  open Classical in
  if effMethod method hasTrueCov hasEstCov = .hellinger ∧ hasEstCov = false ∧ NanPair em tm then .error .invalid
  else ospaGiven lsa em tm c p true method hasTrueCov hasEstCov

/-- `calculate_ospa` of the PHD filters (tracker.py:365-422) when the state dimension is known; `est` are the
extracted states. -/
noncomputable def filterOspa {s : ℕ} (lsa : Lsa) (est truth : List (List (Option (Obj s)))) (c : ℝ) (p : ℕ)
    (method : Option Method) (hasTrueCov hasEstCov : Bool) : Except OErr (List (ℝ × ℝ)) :=
  match setupMat truth with
  | .error e => .error e
  | .ok tm =>
    match setupMat est with
    | .error e => .error e
    | .ok em => callOspa lsa em tm c p method hasTrueCov hasEstCov

/-- `calculate_ospa` of the GLMB filters (tracker.py:365-422 with 2751-2787). -/
noncomputable def glmbOspa {s : ℕ} {L : Type*} [DecidableEq L] (lsa : Lsa) (labels : List (List L))
    (est : List (List (Obj s))) (truth : List (List (Option (Obj s)))) (c : ℝ) (p : ℕ)
    (method : Option Method) (hasTrueCov hasEstCov : Bool) : Except OErr (List (ℝ × ℝ)) :=
  match setupMat truth with
  | .error e => .error e
  | .ok tm => callOspa lsa (setupLabels labels est) tm c p method hasTrueCov hasEstCov

end Gasur.Ospa
