import Verif.Model.Crash

/-!
# The PHD filter with explicit references

Source: `/repo/src/gasur/swarm_estimator/tracker.py`, class `ProbabilityHypothesisDensity`, lines 575-587 and 651-929;
`deepcopy` in the base class, line 67.

`Verif/Model/Crash.lean` treats lists and arrays as values. In Python they are objects: the filter shares arrays between its
mixture, its birth terms and its reports, and it changes list objects in place. Here the methods are modelled once more with a
heap.

* A reference is a position in the heap; a new object gets the next position.
* Objects: mean vectors, covariance matrices, measurements (numpy arrays), lists of floats, lists of references.
* The `GaussianMixture` object of the filter is only reachable through the filter, so it is a triple of references to its three
  lists; so are the mixtures in `birth_terms`. The outer lists `_states`, `_covs`, `_meas_tab`, `birth_terms` are fields of the
  filter object.
* Lists that are built up in local variables are allocated when they are complete. `deepcopy` copies every array of a list
  separately (Python keeps sharing inside one copy).
* The inner filter (gncpy, external) may raise; it returns new arrays and changes no array in place. Arithmetic on numpy arrays
  (`_merge`) gives new arrays.
* Measurement gating is off; `save_covs = True`.
-/

namespace Gasur.PhdHeap

open Gasur.Phd Gasur.Crash

/-- An object on the heap. -/
inductive Cell (K V P Z : Type*)
  | vec (v : V)
  | mat (p : P)
  | obs (z : Z)
  | nums (l : List K)
  | refs (l : List ℕ)

/-- A `GaussianMixture` (distributions.py:29-41): references to its three lists. -/
structure HMix where
  w : ℕ
  m : ℕ
  p : ℕ

/-- Heap and filter object: `_gaussMix`, `birth_terms`, `_states` with `_covs` (references to the lists of one extraction),
`_meas_tab` (tracker.py:585, 64-82). -/
structure HS (K V P Z : Type*) where
  heap : List (Cell K V P Z)
  mix : HMix
  births : List HMix
  states : List (ℕ × ℕ)
  meas : List ℕ

variable {K V P Z : Type*}

/-- A new object. -/
def new (c : Cell K V P Z) : M (HS K V P Z) ℕ := fun s => ({ s with heap := s.heap ++ [c] }, .ok s.heap.length)

/-- Changing an object in place. -/
def put (r : ℕ) (c : Cell K V P Z) : M (HS K V P Z) Unit := assign fun s => { s with heap := s.heap.set r c }

/-- Reading an object; an object of another kind raises. -/
def get {α : Type*} (sel : Cell K V P Z → Option α) (r : ℕ) : M (HS K V P Z) α := fun s =>
  match (s.heap[r]?).bind sel with
  | some a => (s, .ok a)
  | none => (s, .raised)

/-- The content of a mean vector. -/
def Cell.vec? : Cell K V P Z → Option V
  | .vec v => some v
  | _ => none

/-- The content of a covariance matrix. -/
def Cell.mat? : Cell K V P Z → Option P
  | .mat p => some p
  | _ => none

/-- The content of a measurement. -/
def Cell.obs? : Cell K V P Z → Option Z
  | .obs z => some z
  | _ => none

/-- The content of a list of floats. -/
def Cell.nums? : Cell K V P Z → Option (List K)
  | .nums l => some l
  | _ => none

/-- The content of a list of references. -/
def Cell.refs? : Cell K V P Z → Option (List ℕ)
  | .refs l => some l
  | _ => none

/-- Reading all objects of a list of references. -/
def getAll {α : Type*} (sel : Cell K V P Z → Option α) : List ℕ → M (HS K V P Z) (List α)
  | [] => done []
  | r :: rs => andThen (get sel r) fun a => andThen (getAll sel rs) fun l => done (a :: l)

/-- `deepcopy` of the arrays of a list. -/
def copyAll {α : Type*} (sel : Cell K V P Z → Option α) (mk : α → Cell K V P Z) : List ℕ → M (HS K V P Z) (List ℕ)
  | [] => done []
  | r :: rs =>
    andThen (get sel r) fun a => andThen (new (mk a)) fun r' => andThen (copyAll sel mk rs) fun l => done (r' :: l)

/-- The lists of the mixture of the filter. -/
def lookMix : M (HS K V P Z) (List K × List ℕ × List ℕ) :=
  andThen (look fun s => s.mix) fun x =>
  andThen (get Cell.nums? x.w) fun ws =>
  andThen (get Cell.refs? x.m) fun rm =>
  andThen (get Cell.refs? x.p) fun rp => done (ws, rm, rp)

/-- `self._gaussMix.weights = l` for a new list (tracker.py:761, 852, 870). -/
def newW (l : List K) : M (HS K V P Z) Unit :=
  andThen (new (.nums l)) fun r => assign fun s => { s with mix := { s.mix with w := r } }

/-- `self._gaussMix.means = l` for a new list (tracker.py:763, 853). -/
def newM (l : List ℕ) : M (HS K V P Z) Unit :=
  andThen (new (.refs l)) fun r => assign fun s => { s with mix := { s.mix with m := r } }

/-- `self._gaussMix.covariances = l` for a new list (tracker.py:765, 854). -/
def newP (l : List ℕ) : M (HS K V P Z) Unit :=
  andThen (new (.refs l)) fun r => assign fun s => { s with mix := { s.mix with p := r } }

section field
variable [Field K] [LinearOrder K]

/-- The loop of `_predict_prob_density` (tracker.py:705-709). -/
def hPredAll (f : PFilt K V P Z) : List (ℕ × ℕ) → M (HS K V P Z) (List (ℕ × ℕ))
  | [] => done []
  | mp :: l =>
    andThen (get Cell.vec? mp.1) fun v =>
    andThen (get Cell.mat? mp.2) fun p =>
    match f.fpred v p with
    | none => fail
    | some x =>
      andThen (new (.mat x.2)) fun rp =>
      andThen (new (.vec x.1)) fun rv =>
      andThen (hPredAll f l) fun r => done ((rv, rp) :: r)

/-- The loop over the birth terms (tracker.py:675-678): `extend` changes the lists of the filter in place. -/
def hAddBirths : List HMix → M (HS K V P Z) Unit
  | [] => done ()
  | b :: bs =>
    andThen (get Cell.nums? b.w) fun bw =>
    andThen (look fun s => s.mix.w) fun w => andThen (get Cell.nums? w) fun ws =>
    andThen (put w (.nums (ws ++ bw))) fun _ =>
    andThen (get Cell.refs? b.m) fun bm =>
    andThen (look fun s => s.mix.m) fun m => andThen (get Cell.refs? m) fun ms =>
    andThen (put m (.refs (ms ++ bm))) fun _ =>
    andThen (get Cell.refs? b.p) fun bp =>
    andThen (look fun s => s.mix.p) fun p => andThen (get Cell.refs? p) fun ps =>
    andThen (put p (.refs (ps ++ bp))) fun _ => hAddBirths bs

/-- `self._gaussMix = gm` for a new mixture with new lists (tracker.py:672-673, 703-711). -/
def newMix (ws : List K) (rm rp : List ℕ) : M (HS K V P Z) Unit :=
  andThen (new (.nums ws)) fun a =>
  andThen (new (.refs rm)) fun b =>
  andThen (new (.refs rp)) fun c => assign fun s => { s with mix := ⟨a, b, c⟩ }

/-- `predict` (tracker.py:651-678). -/
def hPredict (pr : Params K) (f : PFilt K V P Z) : M (HS K V P Z) Unit :=
  andThen lookMix fun x =>
  andThen (hPredAll f (x.2.1.zip x.2.2)) fun l =>
  andThen (newMix (x.1.map fun x => pr.probSurvive * x) (l.map Prod.fst) (l.map Prod.snd)) fun _ =>
  andThen (look fun s => s.births) fun bs => hAddBirths bs

/-- Inner loop of `_correct_prob_density` for one measurement (tracker.py:791-800). -/
def hCorJ (f : PFilt K V P Z) (rm rp : List ℕ) (detW : List K) (z : Z) :
    List ℕ → M (HS K V P Z) (List ℕ × List ℕ × List K)
  | [] => done ([], [], [])
  | j :: js =>
    match rp[j]?, rm[j]?, detW[j]? with
    | some p, some m, some dw =>
      andThen (get Cell.mat? p) fun pv =>
      andThen (get Cell.vec? m) fun mv =>
      match f.fcor z mv pv with
      | none => fail
      | some x =>
        andThen (new (.vec x.1)) fun rv =>
        andThen (new (.mat x.2.2)) fun rc =>
        andThen (hCorJ f rm rp detW z js) fun y => done (rv :: y.1, rc :: y.2.1, (x.2.1 * dw) :: y.2.2)
    | _, _, _ => fail

/-- `_correct_prob_density` (tracker.py:767-804): the lists of the new mixture. -/
def hCorAll (pr : Params K) (f : PFilt K V P Z) (ws : List K) (rm rp : List ℕ) :
    List ℕ → M (HS K V P Z) (List K × List ℕ × List ℕ)
  | [] => done ([], [], [])
  | z :: zs =>
    andThen (get Cell.obs? z) fun zv =>
    andThen (hCorJ f rm rp (ws.map fun x => pr.probDetection * x) zv (List.range rm.length)) fun y =>
    match normalise pr y.2.2 with
    | .error _ => eval .nan
    | .ok ws' =>
      andThen (hCorAll pr f ws rm rp zs) fun g => done (ws' ++ g.1, y.1 ++ g.2.1, y.2.1 ++ g.2.2)

/-- `correct` (tracker.py:713-765); `z` is the list object of the caller. The mixture is copied (756) before the new arrays are
made. -/
def hCorrect (pr : Params K) (f : PFilt K V P Z) (z : ℕ) : M (HS K V P Z) Unit :=
  andThen (get Cell.refs? z) fun zr =>
  andThen (copyAll Cell.obs? Cell.obs zr) fun zc =>
  andThen (new (.refs zc)) fun zl =>
  andThen (assign fun s => { s with meas := s.meas ++ [zl] }) fun _ =>
  andThen lookMix fun x =>
  andThen (copyAll Cell.vec? Cell.vec x.2.1) fun cm =>
  andThen (copyAll Cell.mat? Cell.mat x.2.2) fun cp =>
  andThen (hCorAll pr f x.1 x.2.1 x.2.2 zc) fun g =>
  andThen (newW (g.1 ++ x.1.map fun x => pr.probMiss * x)) fun _ =>
  andThen (newM (g.2.1 ++ cm)) fun _ =>
  newP (g.2.2 ++ cp)

/-- `del means[i]; del weights[i]; del covariances[i]` for several positions (tracker.py:815-818, 866-869), in place. -/
def hDel : List ℕ → M (HS K V P Z) Unit
  | [] => done ()
  | i :: is =>
    andThen (look fun s => s.mix.m) fun m => andThen (get Cell.refs? m) fun rm =>
    andThen (if i < rm.length then put m (.refs (rm.eraseIdx i)) else fail) fun _ =>
    andThen (look fun s => s.mix.w) fun w => andThen (get Cell.nums? w) fun ws =>
    andThen (if i < ws.length then put w (.nums (ws.eraseIdx i)) else fail) fun _ =>
    andThen (look fun s => s.mix.p) fun p => andThen (get Cell.refs? p) fun rp =>
    andThen (if i < rp.length then put p (.refs (rp.eraseIdx i)) else fail) fun _ => hDel is

/-- `_prune` (tracker.py:806-818). -/
def hPrune (pr : Params K) : M (HS K V P Z) Unit :=
  andThen (look fun s => s.mix.w) fun w => andThen (get Cell.nums? w) fun ws =>
  hDel (sortDesc (whereIdx (fun w => decide (w < pr.pruneThreshold)) ws))

/-- `_cap` (tracker.py:856-870). -/
def hCap (argsort : List K → List ℕ) (pr : Params K) : M (HS K V P Z) Unit :=
  andThen (look fun s => s.mix.w) fun w => andThen (get Cell.nums? w) fun ws =>
  if pr.maxGauss < ws.length then
    andThen (hDel (sortDesc (dropEnd (argsort ws) pr.maxGauss))) fun _ =>
    andThen (look fun s => s.mix.w) fun w' => andThen (get Cell.nums? w') fun ws' =>
    if ws' ≠ [] ∧ ws'.sum = 0 then eval .nan
    else newW (ws'.map fun x => x * (ws.sum / ws'.sum))
  else done ()

/-- `extract_states` (tracker.py:872-890): the new lists hold the arrays of the mixture themselves, not copies. The loop over
positions is the one of `Verif/Model/Phd.lean`, applied to references. -/
def hExtract [FloorRing K] (pr : Params K) : M (HS K V P Z) Unit :=
  andThen lookMix fun x =>
  match extract pr ⟨x.1, x.2.1, x.2.2⟩ with
  | .error _ => fail
  | .ok y =>
    andThen (new (.refs y.1)) fun a =>
    andThen (new (.refs y.2)) fun b => assign fun s => { s with states := s.states ++ [(a, b)] }

variable [AddCommGroup V] [Module K V] [AddCommGroup P] [Module K P]

/-- The `while` loop of `_merge` (tracker.py:827-850): the list of weights is changed in place, sums are new arrays. -/
def hMergeLoop (inv : P → Option (V → K)) (thr : K) :
    ℕ → List ℕ → List K × List ℕ × List ℕ → M (HS K V P Z) (List K × List ℕ × List ℕ)
  | _, [], acc => done acc
  | 0, _ :: _, _ => eval .nan
  | fuel + 1, i :: is, acc =>
    andThen lookMix fun x =>
    andThen (getAll Cell.vec? x.2.1) fun ms =>
    andThen (getAll Cell.mat? x.2.2) fun ps =>
    match argmax x.1 with
    | none => fail
    | some jj =>
      match ps[jj]?, ms[jj]? with
      | some p, some mj =>
        match inv p with
        | none => fail
        | some q =>
          match compInds (fun _ d => q d) thr ms p mj (i :: is) with
          | none => fail
          | some comp =>
            match wtot x.1 comp, wsum x.1 ms comp, wsum x.1 ps comp with
            | some w, some sm, some sp =>
              if w = 0 then eval .nan
              else
                andThen (new (.vec (w⁻¹ • sm))) fun rv =>
                andThen (new (.mat (w⁻¹ • sp))) fun rc =>
                andThen (look fun s => s.mix.w) fun wl =>
                andThen (put wl (.nums (mark x.1 comp))) fun _ =>
                hMergeLoop inv thr fuel ((i :: is).filter fun x => decide (x ∉ comp))
                  (acc.1 ++ [w], acc.2.1 ++ [rv], acc.2.2 ++ [rc])
            | _, _, _ => fail
      | _, _ => fail

/-- `_merge` (tracker.py:820-854). -/
def hMerge (inv : P → Option (V → K)) (pr : Params K) : M (HS K V P Z) Unit :=
  andThen lookMix fun x =>
  andThen (hMergeLoop inv pr.mergeThreshold x.2.1.length (List.range x.2.1.length) ([], [], [])) fun g =>
  andThen (newW g.1) fun _ => andThen (newM g.2.1) fun _ => newP g.2.2

/-- `cleanup` (tracker.py:892-929). -/
def hCleanup [FloorRing K] (inv : P → Option (V → K)) (argsort : List K → List ℕ) (pr : Params K)
    (bp bm bc be : Bool) : M (HS K V P Z) Unit :=
  andThen (when bp (hPrune pr)) fun _ =>
  andThen (when bm (hMerge inv pr)) fun _ =>
  andThen (when bc (hCap argsort pr)) fun _ =>
  when be (hExtract pr)

/-- A call on the filter object; the measurements are a list object. -/
inductive HOp (K V P Z : Type*)
  | predict (f : PFilt K V P Z)
  | correct (f : PFilt K V P Z) (meas : ℕ)
  | cleanup (prune merge cap extract : Bool)
  | extract

/-- One call. -/
def hcall [FloorRing K] (inv : P → Option (V → K)) (argsort : List K → List ℕ) (pr : Params K) :
    HOp K V P Z → M (HS K V P Z) Unit
  | .predict f => hPredict pr f
  | .correct f z => hCorrect pr f z
  | .cleanup bp bm bc be => hCleanup inv argsort pr bp bm bc be
  | .extract => hExtract pr

end field

/-- `deepcopy(birth_terms)` (tracker.py:67): new arrays and new lists for every term. -/
def copyBirths : List HMix → M (HS K V P Z) (List HMix)
  | [] => done []
  | b :: bs =>
    andThen (get Cell.nums? b.w) fun ws =>
    andThen (get Cell.refs? b.m) fun rm =>
    andThen (get Cell.refs? b.p) fun rp =>
    andThen (copyAll Cell.vec? Cell.vec rm) fun cm =>
    andThen (copyAll Cell.mat? Cell.mat rp) fun cp =>
    andThen (new (.nums ws)) fun a =>
    andThen (new (.refs cm)) fun c =>
    andThen (new (.refs cp)) fun d =>
    andThen (copyBirths bs) fun l => done (⟨a, c, d⟩ :: l)

/-- The constructor (tracker.py:58-82, 575-587) for birth terms `bs` of the caller, in the heap `h`. -/
def construct (h : List (Cell K V P Z)) (bs : List HMix) : HS K V P Z × Res Unit :=
  (andThen (copyBirths bs) fun l =>
   andThen (new (.nums [])) fun a =>
   andThen (new (.refs [])) fun b =>
   andThen (new (.refs [])) fun c =>
   assign fun s => { s with mix := ⟨a, b, c⟩, births := l }) ⟨h, ⟨0, 0, 0⟩, [], [], []⟩

end Gasur.PhdHeap
