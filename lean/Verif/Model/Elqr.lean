import Verif.Model.Density

/-!
# Model of the extended LQR for Gaussian mixtures

Source: `/repo/src/gasur/guidance.py`: `GaussianObject` (274-360) and `ELQRGaussian` (364-763).

* Exact real arithmetic; states are vectors of a fixed length `n`.
* A two-dimensional array whose shape matters is an `Arr`: the two sizes and the entries (those outside are never read).
* The measured mixture is a list of components (three parallel lists of the same length in the code).
* `chi2.ppf(similar_thresh, n)` is a parameter `thr` (`none` is NaN).
* The dynamics are functions of a state and a control input that do not fail; the additional keyword arguments that the
  code passes through are not modelled.
* `forward_pass`, `backward_pass`, `quadratize_final_cost`, the base class version of `final_cost_function`, and the
  attributes `horizon_len`, `max_iters` and `cost_tol` belong to the base class in the missing package gncpy: parameters.
-/

namespace Gasur.Elqr

open Matrix Gasur.Guidance

/-- A two-dimensional array. -/
structure Arr where
  rows : ℕ
  cols : ℕ
  val : ℕ → ℕ → ℝ

/-- `np.zeros((r, c))`. -/
def Arr.zeros (r c : ℕ) : Arr := ⟨r, c, fun _ _ => 0⟩

/-- A table of control inputs: the number of columns and the rows. -/
structure Tab where
  cols : ℕ
  rows : List (List ℝ)

/-- A dynamics function of one state variable. -/
abbrev Dyn (n : ℕ) := Vec n → List ℝ → ℝ

/-- `GaussianObject` (guidance.py:339-360): the attributes. `weight = none` is NaN; `ctrlInput` is the attribute `ctrl_input`,
which only `initialize` creates, and only for plans without a predecessor (guidance.py:483). -/
structure Plan (n : ℕ) where
  means : List (Vec n)
  ctrlInputs : Tab
  ctrlInput : Option Tab
  feedforward : List Arr
  feedback : List Arr
  ctcMat : List Arr
  ctcVec : List Arr
  ctgMat : List Arr
  ctgVec : List Arr
  cov : Mat n
  weight : Option ℝ
  dyn : List (Dyn n)
  invDyn : List (Dyn n)
  nom : Arr

/-- The keyword arguments of `GaussianObject` other than the covariance, as the caller writes them (`none` for one that is not
given); any name is accepted (guidance.py:339-360). -/
structure Kwargs (n : ℕ) where
  dyn_functions : Option (List (Dyn n)) := none
  inv_dyn_functions : Option (List (Dyn n)) := none
  means : Option (List (Vec n)) := none
  ctrl_inputs : Option Tab := none
  control_input : Option Tab := none
  feedforward : Option (List Arr) := none
  feedback : Option (List Arr) := none
  cost_to_come_mat : Option (List Arr) := none
  cost_to_come_vec : Option (List Arr) := none
  cost_to_go_mat : Option (List Arr) := none
  cost_to_go_vec : Option (List Arr) := none
  cost_go_vec : Option (List Arr) := none
  weight : Option ℝ := none
  ctrl_nom : Option Arr := none

/-- `GaussianObject.__init__` (guidance.py:339-360). The covariance is always given here (the default is an array without
entries, which has no counterpart in `Mat n`); the attributes `feedforward_lst`, `feedback_lst` are the fields `feedforward`,
`feedback`. The comparison `nan <= 0` is false. -/
noncomputable def newObject {n : ℕ} (kw : Kwargs n) (cov : Mat n) : Except GErr (Plan n) :=
  if kw.weight.any (fun w => w ≤ 0) then .error .value
  else .ok {
    means := kw.means.getD [], ctrlInputs := kw.control_input.getD ⟨0, [[]]⟩, ctrlInput := none,
    feedforward := kw.feedforward.getD [], feedback := kw.feedback.getD [],
    ctcMat := kw.cost_to_come_mat.getD [], ctcVec := kw.cost_to_come_vec.getD [],
    ctgMat := kw.cost_to_go_mat.getD [], ctgVec := kw.cost_go_vec.getD [], cov := cov, weight := kw.weight,
    dyn := kw.dyn_functions.getD [], invDyn := kw.inv_dyn_functions.getD [], nom := kw.ctrl_nom.getD ⟨1, 0, fun _ _ => 0⟩ }

/-- `ELQRGaussian.__init__` (guidance.py:381-388): the plans, the threshold and the base class part (`BaseELQR` is the
first base class and is assumed to hand the arguments on to `DensityBased`). -/
noncomputable def initElqr {n : ℕ} (gaussians : Option (List (Plan n))) (similar : Option ℝ) (w : Option (List (Comp n)))
    (s y : Option ℝ) : Except GErr (List (Plan n) × ℝ × Density n) :=
  if similar.getD (95 / 100) ≥ 1 then .error .value
  else do
    let d ← Density.init w s y
    .ok (gaussians.getD [], similar.getD (95 / 100), d)

/-- The element with index `k`, or `IndexError`. -/
def getE {α : Type} (l : List α) (k : ℕ) : Except GErr α :=
  match l[k]? with
  | none => .error .index
  | some a => .ok a

/-- The last element, or `IndexError`. -/
def lastE {α : Type} (l : List α) : Except GErr α :=
  match l.getLast? with
  | none => .error .index
  | some a => .ok a

/-! ### `initialize` -/

/-- `la.inv`. -/
noncomputable def invE {n : ℕ} (a : Mat n) : Except GErr (Mat n) :=
  open Classical in
  if IsUnit a.det then .ok a⁻¹ else .error .linalg

/-- `fit_criteria` (guidance.py:428-432). -/
noncomputable def fit {n : ℕ} (x : Vec n) (g : Plan n) : Except GErr ℝ := do
  let m ← getE g.means 1
  let w ← invE g.cov
  .ok ((x - m) ⬝ᵥ w *ᵥ (x - m))

/-- `if fit_criteria < best_fit[1]` (guidance.py:433-434); `none` is `(-1, np.inf)`. -/
noncomputable def better (best : Option (ℕ × ℝ)) (jj : ℕ) (f : ℝ) : Option (ℕ × ℝ) :=
  if best.all (fun b => f < b.2) then some (jj, f) else best

/-- The loop over the remaining plans (guidance.py:425-434). -/
noncomputable def bestFit {n : ℕ} (x : Vec n) : ℕ → List (Plan n) → Option (ℕ × ℝ) → Except GErr (Option (ℕ × ℝ))
  | _, [], best => .ok best
  | jj, g :: gs, best => do
    let f ← fit x g
    bestFit x (jj + 1) gs (better best jj f)

/-- `found_match` (guidance.py:436-437), with the index of the match. -/
noncomputable def matchIdx (thr : Option ℝ) (best : Option (ℕ × ℝ)) : Option ℕ :=
  best.bind fun b => if thr.any (fun t => b.2 < t) then some b.1 else none

/-- Assigning rows to `k` rows: the numbers agree, or there is one row for all. -/
def assignRows {α : Type} (k : ℕ) (src : List α) : Except GErr (List α) :=
  if src.length = k then .ok src
  else match src with
    | [a] => .ok (List.replicate k a)
    | _ => .error .value

/-- Assigning a table of control inputs to `k` rows with `c` columns (guidance.py:453-454). -/
def assignTab (k c : ℕ) (src : Tab) : Except GErr (List (List ℝ)) :=
  if src.cols = c then assignRows k src.rows
  else if src.cols = 1 then assignRows k (src.rows.map fun r => List.replicate c (r.headD 0))
  else .error .value

/-- A list without its first element, with one more at the end (guidance.py:461-476). -/
def shiftAdd {α : Type} (l : List α) (a : α) : List α := l.drop 1 ++ [a]

/-- `x = l[1::]; x.append(x[-1].copy())` (guidance.py:469-476). -/
def shiftDup {α : Type} (l : List α) : Except GErr (List α) := do
  let a ← lastE (l.drop 1)
  .ok (shiftAdd l a)

/-- The dynamics of all state variables; a variable without function gets `dflt` (guidance.py:457-460, 659-662, 716-718). A
function without a variable is an `IndexError`. -/
def applyDyn {n : ℕ} (fs : List (Dyn n)) (dflt x : Vec n) (u : List ℝ) : Except GErr (Vec n) :=
  if fs.length ≤ n then .ok fun j => ((fs[j.val]?).map fun f => f x u).getD (dflt j) else .error .index

/-- The last row of the means of a plan with predecessor (guidance.py:457-460): `rows` are all the rows before it. -/
def lastRow {n : ℕ} (fs : List (Dyn n)) (rows : List (Vec n)) (ctrl : List (List ℝ)) : Except GErr (Vec n) :=
  if fs = [] then .ok 0
  else do
    let x ← lastE rows
    let u ← lastE ctrl
    applyDyn fs 0 x u

/-- A plan with the predecessor `g` (guidance.py:440-476); `nIn` is the number of columns of the control inputs of the
first remaining plan. The horizon `h` is at least 1. -/
def warmPlan {n : ℕ} (h : ℕ) (c : Comp n) (g : Plan n) (nIn : ℕ) : Except GErr (Plan n) := do
  let ctrl ← assignTab (h - 1) nIn ⟨g.ctrlInputs.cols, g.ctrlInputs.rows.drop 1⟩
  let mid ← assignRows (h - 2) (g.means.drop 2)
  let last ← lastRow g.dyn (c.mean :: mid) ctrl
  let ff0 ← getE g.feedforward 0
  let ccm ← shiftDup g.ctcMat
  let ccv ← shiftDup g.ctgVec
  let cgm ← shiftDup g.ctgMat
  let cgv ← shiftDup g.ctgVec
  .ok {
    means := (c.mean :: mid ++ [last]).take h, ctrlInputs := ⟨nIn, ctrl ++ [List.replicate nIn 0]⟩, ctrlInput := none,
    feedforward := shiftAdd g.feedforward (.zeros ff0.rows ff0.cols),
    feedback := shiftAdd g.feedback (.zeros ff0.rows ff0.cols),
    ctcMat := ccm, ctcVec := ccv, ctgMat := cgm, ctgVec := cgv,
    cov := c.cov, weight := some c.weight, dyn := g.dyn, invDyn := g.invDyn, nom := g.nom }

/-- The arguments of `initialize` besides the mixture (guidance.py:390-411). -/
structure Est (n : ℕ) where
  dyn : List (List (Dyn n))
  invDyn : List (List (Dyn n))
  nIn : List ℕ
  nom : Option (List Arr)

/-- `u_nom` (guidance.py:486-490). -/
def nominal {n : ℕ} (est : Est n) (ii nIn : ℕ) : Except GErr Arr :=
  match est.nom with
  | none => .ok (.zeros nIn 1)
  | some l => getE l ii

/-- A plan without predecessor (guidance.py:440-444, 482-503). -/
def freshPlan {n : ℕ} (h : ℕ) (est : Est n) (ii : ℕ) (c : Comp n) : Except GErr (Plan n) := do
  let nIn ← getE est.nIn ii
  let dyn ← getE est.dyn ii
  let inv ← getE est.invDyn ii
  let nom ← nominal est ii nIn
  .ok {
    means := List.replicate h c.mean, ctrlInputs := ⟨0, [[]]⟩,
    ctrlInput := some ⟨nIn, List.replicate h (List.replicate nIn 0)⟩,
    feedforward := List.replicate h (.zeros nom.rows 1), feedback := List.replicate h (.zeros nom.rows n),
    ctcMat := List.replicate h (.zeros n n), ctcVec := List.replicate h (.zeros n 1),
    ctgMat := List.replicate h (.zeros n n), ctgVec := List.replicate h (.zeros n 1),
    cov := c.cov, weight := some c.weight, dyn := dyn, invDyn := inv, nom := nom }

/-- The plan for measurement `ii` and the plans that remain (guidance.py:424-506). -/
noncomputable def initOne {n : ℕ} (thr : Option ℝ) (h : ℕ) (est : Est n) (ii : ℕ) (c : Comp n) (gs : List (Plan n)) :
    Except GErr (Plan n × List (Plan n)) := do
  let best ← bestFit c.mean 0 gs none
  if h = 0 then .error .index
  else
    match matchIdx thr best with
    | none => do
      let p ← freshPlan h est ii c
      .ok (p, gs)
    | some j => do
      let g0 ← getE gs 0
      let g ← getE gs j
      let p ← warmPlan h c g g0.ctrlInputs.cols
      .ok (p, gs.eraseIdx j)

/-- What a call leaves behind: the exception if there was one, the new plans, and the list of the old plans, from which
the used ones have been removed (the list object the caller may have given to the constructor). -/
structure Inited (n : ℕ) where
  err : Option GErr
  new : List (Plan n)
  old : List (Plan n)

/-- The loop over the measurements (guidance.py:416-506). -/
noncomputable def initLoop {n : ℕ} (thr : Option ℝ) (h : ℕ) (est : Est n) : ℕ → List (Comp n) → List (Plan n) → Inited n
  | _, [], gs => ⟨none, [], gs⟩
  | ii, c :: cs, gs =>
    match initOne thr h est ii c gs with
    | .error e => ⟨some e, [], gs⟩
    | .ok (p, gs') =>
      let r := initLoop thr h est (ii + 1) cs gs'
      ⟨r.err, p :: r.new, r.old⟩

/-- `initialize` (guidance.py:390-508): afterwards `self.gaussians` is `new` if there was no exception, and `old`
otherwise. -/
noncomputable def initPlans {n : ℕ} (thr : Option ℝ) (h : ℕ) (est : Est n) (meas : List (Comp n)) (gs : List (Plan n)) :
    Inited n :=
  initLoop thr h est 0 meas gs

/-- `self.gaussians` after `initialize`. -/
def Inited.self {n : ℕ} (r : Inited n) : List (Plan n) := if r.err = none then r.new else r.old

/-! ### `iterate` -/

/-- The arguments of `forward_pass` and `backward_pass` (guidance.py:618-635, 679-695). -/
structure PassIn (n : ℕ) where
  xHat : Vec n
  uHat : List ℝ
  feedback : Arr
  feedforward : Arr
  ctcMat : Arr
  ctcVec : Arr
  ctgMat : Arr
  ctgVec : Arr
  k : ℕ
  xStart : Vec n
  uNom : Arr
  dyn : List (Dyn n)
  invDyn : List (Dyn n)
  allStates : List (Vec n)
  objNum : ℕ

/-- Their results. -/
structure PassOut (n : ℕ) where
  xHat : Vec n
  feedback : Arr
  feedforward : Arr
  mat : Arr
  vec : Arr

/-- The methods inherited from `BaseELQR`. They are functions of their arguments and of attributes that do not change
during a call of `iterate` (weights and covariances of the plans, targets). -/
structure Ext (n : ℕ) where
  fwd : PassIn n → Except GErr (PassOut n)
  bwd : PassIn n → Except GErr (PassOut n)
  quadFinal : Vec n → List ℝ → Option (Vec n) → Except GErr (Arr × Arr)
  final : Vec n → Option (Vec n) → Except GErr ℝ

/-- `(feedback @ x + feedforward).squeeze()` assigned to a row with `m` entries (guidance.py:600-602, 656-658, 714-715). A
single entry is repeated. Shapes other than `r x N` and `r x 1` are rejected; numpy would broadcast some of them. -/
def control {n : ℕ} (fb ff : Arr) (x : Vec n) (m : ℕ) : Except GErr (List ℝ) :=
  if fb.cols = n ∧ ff.cols = 1 ∧ ff.rows = fb.rows then
    if fb.rows = m then .ok ((List.range m).map fun r => (∑ j : Fin n, fb.val r j * x j) + ff.val r 0)
    else if fb.rows = 1 then .ok (List.replicate m ((∑ j : Fin n, fb.val 0 j * x j) + ff.val 0 0))
    else .error .value
  else .error .value

/-- The attribute `ctrl_input`, or `AttributeError` (guidance.py:600, 606, 641, 656, 667). -/
def tabE {n : ℕ} (g : Plan n) : Except GErr Tab :=
  match g.ctrlInput with
  | none => .error .attribute
  | some t => .ok t

/-- Setting row `kk` of the control inputs from row `src` of the means (guidance.py:599-602, 656-658). -/
def ctrlStep {n : ℕ} (kk src : ℕ) (g : Plan n) : Except GErr (Plan n) := do
  let fb ← getE g.feedback kk
  let x ← getE g.means src
  let ff ← getE g.feedforward kk
  let t ← tabE g
  let u ← control fb ff x t.cols
  let _ ← getE t.rows kk
  .ok { g with ctrlInput := some ⟨t.cols, t.rows.set kk u⟩ }

/-- The arguments of a pass (guidance.py:605-635, 666-695): the state estimate comes from row `src` of the means. -/
def passIn {n : ℕ} (kk src : ℕ) (all xs : List (Vec n)) (ii : ℕ) (g : Plan n) : Except GErr (PassIn n) := do
  let x ← getE g.means src
  let t ← tabE g
  let u ← getE t.rows kk
  let fb ← getE g.feedback kk
  let ff ← getE g.feedforward kk
  let ccm ← getE g.ctcMat kk
  let ccv ← getE g.ctcVec kk
  let cgm ← getE g.ctgMat (kk + 1)
  let cgv ← getE g.ctgVec (kk + 1)
  let x0 ← getE xs ii
  .ok ⟨x, u, fb, ff, ccm, ccv, cgm, cgv, kk, x0, g.nom, g.dyn, g.invDyn, all, ii⟩

/-- One plan in the forward pass (guidance.py:604-636). -/
def fwdOne {n : ℕ} (ext : Ext n) (kk : ℕ) (all xs : List (Vec n)) (ii : ℕ) (g : Plan n) : Except GErr (Plan n) := do
  let i ← passIn kk kk all xs ii g
  let o ← ext.fwd i
  let _ ← getE g.ctcMat (kk + 1)
  let _ ← getE g.ctcVec (kk + 1)
  let _ ← getE g.means (kk + 1)
  .ok { g with
      feedback := g.feedback.set kk o.feedback, feedforward := g.feedforward.set kk o.feedforward,
      ctcMat := g.ctcMat.set (kk + 1) o.mat, ctcVec := g.ctcVec.set (kk + 1) o.vec, means := g.means.set (kk + 1) o.xHat }

/-- One plan in the backward pass (guidance.py:665-696). -/
def bwdOne {n : ℕ} (ext : Ext n) (kk : ℕ) (all xs : List (Vec n)) (ii : ℕ) (g : Plan n) : Except GErr (Plan n) := do
  let i ← passIn kk (kk + 1) all xs ii g
  let o ← ext.bwd i
  let _ ← getE g.ctgMat kk
  let _ ← getE g.ctgVec kk
  let _ ← getE g.means kk
  .ok { g with
      feedback := g.feedback.set kk o.feedback, feedforward := g.feedforward.set kk o.feedforward,
      ctgMat := g.ctgMat.set kk o.mat, ctgVec := g.ctgVec.set kk o.vec, means := g.means.set kk o.xHat }

/-- A loop over a list that uses the index. -/
def mapIdxE {α β : Type} (f : ℕ → α → Except GErr β) : ℕ → List α → Except GErr (List β)
  | _, [] => .ok []
  | i, a :: as => do
    let b ← f i a
    let bs ← mapIdxE f (i + 1) as
    .ok (b :: bs)

/-- A step of the forward pass (guidance.py:592-636): the states of all plans and the controls are computed before any
plan is changed. -/
def fwdStep {n : ℕ} (ext : Ext n) (xs : List (Vec n)) (kk : ℕ) (gs : List (Plan n)) : Except GErr (List (Plan n)) := do
  let cur ← mapIdxE (fun _ g => getE g.means kk) 0 gs
  let gs1 ← mapIdxE (fun _ g => ctrlStep kk kk g) 0 gs
  mapIdxE (fwdOne ext kk cur xs) 0 gs1

/-- The state before the current one (guidance.py:659-662). -/
def prevState {n : ℕ} (kk : ℕ) (g : Plan n) : Except GErr (Vec n) := do
  let x ← getE g.means (kk + 1)
  let t ← tabE g
  let u ← getE t.rows kk
  applyDyn g.invDyn 0 x u

/-- A step of the backward pass (guidance.py:652-696). -/
def bwdStep {n : ℕ} (ext : Ext n) (xs : List (Vec n)) (kk : ℕ) (gs : List (Plan n)) : Except GErr (List (Plan n)) := do
  let gs1 ← mapIdxE (fun _ g => ctrlStep kk (kk + 1) g) 0 gs
  let prev ← mapIdxE (fun _ g => prevState kk g) 0 gs1
  mapIdxE (bwdOne ext kk prev xs) 0 gs1

/-- A loop over indices. -/
def loopE {σ : Type} (f : ℕ → σ → Except GErr σ) : List ℕ → σ → Except GErr σ
  | [], s => .ok s
  | k :: ks, s => do
    let s' ← f k s
    loopE f ks s'

/-- An array used as an `n x n` matrix. -/
def Arr.toMat (n : ℕ) (a : Arr) : Except GErr (Mat n) :=
  if a.rows = n ∧ a.cols = n then .ok fun i j => a.val i j else .error .value

/-- An array used as a column of length `n`. -/
def Arr.toVec (n : ℕ) (a : Arr) : Except GErr (Vec n) :=
  if a.rows = n ∧ a.cols = 1 then .ok fun i => a.val i 0 else .error .value

/-- Replacing the last element. -/
def setLast {α : Type} (l : List α) (a : α) : List α := l.set (l.length - 1) a

/-- The final cost and the last state of one plan (guidance.py:639-649). Arrays of other shapes are rejected; numpy would
broadcast some of them. -/
noncomputable def finalOne {n : ℕ} (ext : Ext n) (targets : List (Comp n)) (g : Plan n) : Except GErr (Plan n) := do
  let x ← lastE g.means
  let t ← tabE g
  let u ← lastE t.rows
  let (m, v) ← ext.quadFinal x u (nearestTarget targets x)
  let _ ← lastE g.ctgMat
  let _ ← lastE g.ctgVec
  let ccm ← lastE g.ctcMat
  let ccv ← lastE g.ctcVec
  let a ← m.toMat n
  let b ← ccm.toMat n
  let p ← v.toVec n
  let q ← ccv.toVec n
  let w ← invE (a + b)
  .ok { g with
      ctgMat := setLast g.ctgMat m, ctgVec := setLast g.ctgVec v, means := setLast g.means (-(w *ᵥ (p + q))) }

/-- The weight of a plan; NaN makes the cost NaN. -/
def weightE {n : ℕ} (g : Plan n) : Except GErr ℝ :=
  match g.weight with
  | none => .error .nan
  | some w => .ok w

/-- The plans at the given states, as the objects of the density based cost (guidance.py:699-709). -/
def objects {n : ℕ} : List (Plan n) → List (Vec n) → Except GErr (List (Comp n))
  | g :: gs, x :: xs => do
    let w ← weightE g
    let os ← objects gs xs
    .ok (⟨x, g.cov, w⟩ :: os)
  | _, _ => .ok []

/-- The next state of a plan under its feedback law (guidance.py:712-718): `m` is the number of inputs of the first plan. -/
def rollOne {n : ℕ} (m kk : ℕ) (g : Plan n) (x : Vec n) : Except GErr (Vec n) := do
  let fb ← getE g.feedback kk
  let ff ← getE g.feedforward kk
  let u ← control fb ff x m
  applyDyn g.dyn x x u

/-- The next states of all plans (guidance.py:711-718). -/
def rollAll {n : ℕ} (m kk : ℕ) : List (Plan n) → List (Vec n) → Except GErr (List (Vec n))
  | g :: gs, x :: xs => do
    let y ← rollOne m kk g x
    let ys ← rollAll m kk gs xs
    .ok (y :: ys)
  | _, xs => .ok xs

/-- `final_cost_function` (guidance.py:728-743). -/
noncomputable def finalCost {n : ℕ} (ext : Ext n) (targets : List (Comp n)) : List (Vec n) → Except GErr ℝ
  | [] => .ok 0
  | x :: xs => do
    let a ← ext.final x (nearestTarget targets x)
    let b ← finalCost ext targets xs
    .ok (a + b)

/-- The loop that computes the real cost (guidance.py:706-718): it changes the states. -/
noncomputable def realCost {n : ℕ} (d : Density n) (m : ℕ) (gs : List (Plan n)) : List ℕ → List (Vec n) → ℝ →
    Except GErr (List (Vec n) × ℝ)
  | [], xs, c => .ok (xs, c)
  | k :: ks, xs, c => do
    let os ← objects gs xs
    let j ← densityCost d os
    let ys ← rollAll m k gs xs
    realCost d m gs ks ys (c + j)

/-- The settings of a call of `iterate`. -/
structure Conf (n : ℕ) where
  ext : Ext n
  dens : Density n
  horizon : ℕ
  maxIters : ℕ
  tol : ℝ

/-- The number of inputs of the first plan (guidance.py:702). -/
def firstInputs {n : ℕ} (gs : List (Plan n)) : Except GErr ℕ := do
  let g ← getE gs 0
  let fb ← getE g.feedback 0
  .ok fb.rows

/-- One round of the optimisation (guidance.py:591-719): the new plans, the array `x_starts` and the cost. `states` is the
same array as `x_starts`, so the states at the end of the horizon are left in it. -/
noncomputable def round {n : ℕ} (cf : Conf n) (gs : List (Plan n)) (xs : List (Vec n)) :
    Except GErr (List (Plan n) × List (Vec n) × ℝ) := do
  let g1 ← loopE (fwdStep cf.ext xs) (List.range (cf.horizon - 1)) gs
  let g2 ← mapIdxE (fun _ g => finalOne cf.ext cf.dens.targets g) 0 g1
  let g3 ← loopE (bwdStep cf.ext xs) (List.range (cf.horizon - 1)).reverse g2
  let m ← firstInputs g3
  let (ys, c) ← realCost cf.dens m g3 (List.range (cf.horizon - 1)) xs 0
  let f ← finalCost cf.ext cf.dens.targets ys
  .ok (g3, ys, c + f)

/-- `np.abs(old_cost - cur_cost) < self.cost_tol` (guidance.py:722); `none` is infinity. -/
noncomputable def converged (tol : ℝ) (old : Option ℝ) (c : ℝ) : Bool := old.any fun o => |o - c| < tol

/-- The loop over the rounds (guidance.py:588-726). -/
noncomputable def iterLoop {n : ℕ} (cf : Conf n) : ℕ → Option ℝ → List (Plan n) → List (Vec n) → Except GErr (List (Plan n))
  | 0, _, gs, _ => .ok gs
  | t + 1, old, gs, xs => do
    let (gs', xs', c) ← round cf gs xs
    if converged cf.tol old c then .ok gs' else iterLoop cf t (some c) gs' xs'

/-- `iterate` (guidance.py:557-726): the new value of `self.gaussians`. If it fails only the exception is modelled. A cost
that is NaN is a failure here; the code would go on. With a horizon of 1 the code fails when it reads the second row
of the means, as the model does. -/
noncomputable def iterate {n : ℕ} (cf : Conf n) (thr : Option ℝ) (est : Est n) (meas : List (Comp n)) (gs : List (Plan n)) :
    Except GErr (List (Plan n)) :=
  let r := initPlans thr cf.horizon est meas gs
  match r.err with
  | some e => .error e
  | none =>
    if r.new = [] then .ok []
    else do
      let xs ← mapIdxE (fun _ g => getE g.means 1) 0 r.new
      iterLoop cf cf.maxIters none r.new xs

end Gasur.Elqr
