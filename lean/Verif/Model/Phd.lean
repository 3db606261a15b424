import Mathlib.Algebra.Order.Field.Basic
import Mathlib.Algebra.Module.Defs
import Mathlib.Algebra.Order.Floor.Defs
import Mathlib.Algebra.Ring.Int.Parity
import Mathlib.Data.List.Sort

/-!
# Model of the PHD filter

Source: `/repo/src/gasur/swarm_estimator/tracker.py`, class `ProbabilityHypothesisDensity`,
lines 547-929.

* A Gaussian mixture is kept, as in the code, as three parallel lists.
* Weights are elements of a linearly ordered field `K` (exact arithmetic); means and covariances are
  elements of `K`-modules `V` and `P`.
* The inner filter (gncpy, external) is a parameter: `fpred m P` and `fcor z m P` return the new mean,
  covariance (and likelihood). Their `timestep` and keyword arguments are fixed inside the parameter.
* `diff.T @ inv(P) @ diff` in `_merge` is the parameter `quad P diff` (a singular covariance raises in
  numpy; not modelled).
* `np.argsort` breaks ties in an unspecified way; it is the parameter `argsort`.
* Measurement gating is modelled separately (`Verif/Model/Gating.lean`); `correct` here receives the
  measurements that are used.
* A division by zero (NaN, `inf` or `ZeroDivisionError` in Python) is the error `zeroDiv`.
-/

namespace Gasur.Phd

/-- Failures: `index`: IndexError; `zeroDiv`: division by zero; `loop`: fuel used up. -/
inductive PErr
  | index
  | zeroDiv
  | loop
  deriving DecidableEq, Repr

/-- `gasdist.GaussianMixture` (distributions.py:16-47): three parallel lists. -/
structure Mix (K V P : Type*) where
  ws : List K
  ms : List V
  ps : List P

/-- Filter parameters used by the PHD filter (tracker.py:56-75, 575-587). -/
structure Params (K : Type*) where
  probSurvive : K
  probDetection : K
  probMiss : K
  clutterRate : K
  clutterDen : K
  extractThreshold : K
  pruneThreshold : K
  mergeThreshold : K
  maxGauss : ℕ

/-- External inner filter. `fcor` returns mean, likelihood `qz` and covariance. -/
structure Filt (K V P Z : Type*) where
  fpred : V → P → V × P
  fcor : Z → V → P → V × K × P

variable {K V P Z : Type*}

section field
variable [Field K] [LinearOrder K]

/-- `_predict_prob_density` (tracker.py:680-711). -/
def predictDensity (pr : Params K) (f : Filt K V P Z) (m : Mix K V P) : Mix K V P :=
  { ws := m.ws.map fun x => pr.probSurvive * x
    ms := (m.ms.zip m.ps).map fun mp => (f.fpred mp.1 mp.2).1
    ps := (m.ms.zip m.ps).map fun mp => (f.fpred mp.1 mp.2).2 }

/-- Adding one birth term (tracker.py:675-678). -/
def extend (m b : Mix K V P) : Mix K V P :=
  { ws := m.ws ++ b.ws, ms := m.ms ++ b.ms, ps := m.ps ++ b.ps }

/-- `predict` (tracker.py:651-678). -/
def predict (pr : Params K) (f : Filt K V P Z) (births : List (Mix K V P)) (m : Mix K V P) :
    Mix K V P :=
  births.foldl extend (predictDensity pr f m)

/-- Inner loop of `_correct_prob_density` for one measurement (tracker.py:791-800): means, covariances
and unnormalised weights for `jj` in the given list. -/
def corOne (f : Filt K V P Z) (m : Mix K V P) (detW : List K) (z : Z) :
    List ℕ → Except PErr (List V × List P × List K)
  | [] => .ok ([], [], [])
  | j :: js =>
    match m.ps[j]?, m.ms[j]?, detW[j]? with
    | some p, some s, some dw =>
      match corOne f m detW z js with
      | .error e => .error e
      | .ok (vs, cs, ws) =>
        .ok ((f.fcor z s p).1 :: vs, (f.fcor z s p).2.2 :: cs, ((f.fcor z s p).2.1 * dw) :: ws)
    | _, _, _ => .error .index

/-- `[x / (clutter_rate * clutter_den + sum(w_lst)) for x in w_lst]` (tracker.py:801-802). -/
def normalise (pr : Params K) (ws : List K) : Except PErr (List K) :=
  if ws ≠ [] ∧ pr.clutterRate * pr.clutterDen + ws.sum = 0 then .error .zeroDiv
  else .ok (ws.map fun x => x / (pr.clutterRate * pr.clutterDen + ws.sum))

/-- `_correct_prob_density` (tracker.py:767-804). -/
def correctDensity (pr : Params K) (f : Filt K V P Z) (m : Mix K V P) :
    List Z → Except PErr (Mix K V P)
  | [] => .ok ⟨[], [], []⟩
  | z :: zs =>
    match corOne f m (m.ws.map fun x => pr.probDetection * x) z (List.range m.ms.length) with
    | .error e => .error e
    | .ok (vs, cs, ws) =>
      match normalise pr ws with
      | .error e => .error e
      | .ok ws' =>
        match correctDensity pr f m zs with
        | .error e => .error e
        | .ok g => .ok { ws := ws' ++ g.ws, ms := vs ++ g.ms, ps := cs ++ g.ps }

/-- `correct` (tracker.py:713-765) for the measurements that are used (after gating). -/
def correct (pr : Params K) (f : Filt K V P Z) (meas : List Z) (m : Mix K V P) :
    Except PErr (Mix K V P) :=
  match correctDensity pr f m meas with
  | .error e => .error e
  | .ok g => .ok
    { ws := g.ws ++ m.ws.map fun x => pr.probMiss * x
      ms := g.ms ++ m.ms
      ps := g.ps ++ m.ps }

/-- `del means[index]; del weights[index]; del covariances[index]` (tracker.py:816-818, 867-869). -/
def delAt (m : Mix K V P) (i : ℕ) : Except PErr (Mix K V P) :=
  if i < m.ms.length ∧ i < m.ws.length ∧ i < m.ps.length then
    .ok { ws := m.ws.eraseIdx i, ms := m.ms.eraseIdx i, ps := m.ps.eraseIdx i }
  else .error .index

/-- Deleting several positions one after the other. -/
def delAll (m : Mix K V P) : List ℕ → Except PErr (Mix K V P)
  | [] => .ok m
  | i :: is =>
    match delAt m i with
    | .error e => .error e
    | .ok m' => delAll m' is

/-- `sorted(idx, reverse=True)` (tracker.py:815, 866). -/
def sortDesc (l : List ℕ) : List ℕ := l.insertionSort (fun a b => b ≤ a)

/-- `np.where(weights < threshold)` (tracker.py:812-814). -/
def whereIdx (q : K → Bool) (ws : List K) : List ℕ :=
  (List.range ws.length).filter fun i => (ws[i]?).any q

/-- `_prune` (tracker.py:806-818). -/
def prune (pr : Params K) (m : Mix K V P) : Except PErr (Mix K V P) :=
  delAll m (sortDesc (whereIdx (fun w => decide (w < pr.pruneThreshold)) m.ws))

/-- `np.argmax`: first position of a maximal element (tracker.py:828). -/
def argmax : List K → Option ℕ
  | [] => none
  | x :: l =>
    match argmax l with
    | none => some 0
    | some i => match l[i]? with
      | some y => if x < y then some (i + 1) else some 0
      | none => some 0

/-- Setting the weights at the given positions to `-1` (tracker.py:849-850). -/
def mark (ws : List K) (is : List ℕ) : List K := is.foldl (fun l i => l.set i (-1)) ws

/-- `sum([weights[ii] * xs[ii] for ii in comp_inds])` (tracker.py:838-843). -/
def wsum {E : Type*} [AddCommMonoid E] [Module K E] (ws : List K) (xs : List E) (is : List ℕ) :
    Option E :=
  match is with
  | [] => some 0
  | i :: is =>
    match ws[i]?, xs[i]?, wsum ws xs is with
    | some w, some x, some s => some (w • x + s)
    | _, _, _ => none

/-- `sum([weights[ii] for ii in comp_inds])` (tracker.py:837). -/
def wtot (ws : List K) : List ℕ → Option K
  | [] => some 0
  | i :: is =>
    match ws[i]?, wtot ws is with
    | some w, some s => some (w + s)
    | _, _ => none

section module
variable [AddCommGroup V] [Module K V] [AddCommGroup P] [Module K P]

/-- Positions to be merged with position `jj` (tracker.py:829-835). -/
def compInds (quad : P → V → K) (thr : K) (ms : List V) (p : P) (mj : V) (inds : List ℕ) :
    Option (List ℕ) :=
  match inds with
  | [] => some []
  | i :: is =>
    match ms[i]?, compInds quad thr ms p mj is with
    | some mi, some r => if quad p (mi - mj) ≤ thr then some (i :: r) else some r
    | _, _ => none

/-- The `while len(loop_inds) > 0` loop of `_merge` (tracker.py:827-850); `inds` is the set
`loop_inds` (its iteration order only affects the order of exact sums), `acc` collects
`w_lst, m_lst, p_lst`. -/
def mergeLoop (quad : P → V → K) (thr : K) (ms : List V) (ps : List P) :
    ℕ → List ℕ → List K → Mix K V P → Except PErr (Mix K V P)
  | _, [], _, acc => .ok acc
  | 0, _ :: _, _, _ => .error .loop
  | fuel + 1, i :: is, ws, acc =>
    match argmax ws with
    | none => .error .index
    | some jj =>
      match ps[jj]?, ms[jj]? with
      | some p, some mj =>
        match compInds quad thr ms p mj (i :: is) with
        | none => .error .index
        | some comp =>
          match wtot ws comp, wsum ws ms comp, wsum ws ps comp with
          | some w, some sm, some sp =>
            if w = 0 then .error .zeroDiv
            else
              mergeLoop quad thr ms ps fuel ((i :: is).filter fun x => decide (x ∉ comp))
                (mark ws comp)
                { ws := acc.ws ++ [w], ms := acc.ms ++ [w⁻¹ • sm], ps := acc.ps ++ [w⁻¹ • sp] }
          | _, _, _ => .error .index
      | _, _ => .error .index

/-- `_merge` (tracker.py:820-854). -/
def merge (quad : P → V → K) (pr : Params K) (m : Mix K V P) : Except PErr (Mix K V P) :=
  mergeLoop quad pr.mergeThreshold m.ms m.ps m.ms.length (List.range m.ms.length) m.ws ⟨[], [], []⟩

end module

/-- Python's `idx[0:-k]`: for `k = 0` this is `idx[0:0]`, the empty list (tracker.py:866). -/
def dropEnd (l : List ℕ) (k : ℕ) : List ℕ := if k = 0 then [] else l.take (l.length - k)

/-- `_cap` (tracker.py:856-870). -/
def cap (argsort : List K → List ℕ) (pr : Params K) (m : Mix K V P) : Except PErr (Mix K V P) :=
  if pr.maxGauss < m.ws.length then
    match delAll m (sortDesc (dropEnd (argsort m.ws) pr.maxGauss)) with
    | .error e => .error e
    | .ok m' =>
      if m'.ws ≠ [] ∧ m'.ws.sum = 0 then .error .zeroDiv
      else .ok { m' with ws := m'.ws.map fun x => x * (m.ws.sum / m'.ws.sum) }
  else .ok m

/-- Python's `round` (round half to even). -/
def pyRound [FloorRing K] (x : K) : ℤ :=
  if x - (⌊x⌋ : K) < 1 / 2 then ⌊x⌋
  else if 1 / 2 < x - (⌊x⌋ : K) then ⌊x⌋ + 1
  else if Even ⌊x⌋ then ⌊x⌋ else ⌊x⌋ + 1

/-- Loop of `extract_states` (tracker.py:881-886): mean and covariance lists. A negative repetition
count gives an empty list in Python. -/
def extractLoop [FloorRing K] (m : Mix K V P) : List ℕ → Except PErr (List V × List P)
  | [] => .ok ([], [])
  | j :: js =>
    match m.ws[j]?, m.ms[j]?, m.ps[j]? with
    | some w, some v, some p =>
      match extractLoop m js with
      | .error e => .error e
      | .ok (vs, cs) => .ok (List.replicate (pyRound w).toNat v ++ vs,
          List.replicate (pyRound w).toNat p ++ cs)
    | _, _, _ => .error .index

/-- `extract_states` (tracker.py:872-890): the lists appended to `_states` and `_covs`
(`save_covs = True`). -/
def extract [FloorRing K] (pr : Params K) (m : Mix K V P) : Except PErr (List V × List P) :=
  extractLoop m (whereIdx (fun w => decide (pr.extractThreshold ≤ w)) m.ws)

end field

/-! ### Whole-filter operations -/

section ops
variable [Field K] [LinearOrder K] [AddCommGroup V] [Module K V] [AddCommGroup P] [Module K P]

/-- External pieces of one filter. -/
structure Env (K V P Z : Type*) where
  quad : P → V → K
  argsort : List K → List ℕ

/-- A call on the filter object. Inner filter (it may differ from call to call: time step, arguments),
births and measurements are arguments. `cleanup` takes its four flags. -/
inductive Op (K V P Z : Type*)
  | predict (f : Filt K V P Z) (births : List (Mix K V P))
  | correct (f : Filt K V P Z) (meas : List Z)
  | cleanup (prune merge cap extract : Bool)
  | extract

/-- Filter state: mixture and the list of extracted states per call (`_states`, `_covs`). -/
structure PState (K V P : Type*) where
  mix : Mix K V P
  states : List (List V × List P)

/-- `Except` sequencing of an optional step. -/
def optStep (b : Bool) (g : Mix K V P → Except PErr (Mix K V P)) (m : Mix K V P) :
    Except PErr (Mix K V P) := if b then g m else .ok m

/-- One extraction. -/
def doExtract [FloorRing K] (pr : Params K) (s : PState K V P) : Except PErr (PState K V P) :=
  match extract pr s.mix with
  | .error e => .error e
  | .ok x => .ok { s with states := s.states ++ [x] }

/-- `cleanup` (tracker.py:892-929): prune, merge, cap, extract. -/
def cleanup [FloorRing K] (env : Env K V P Z) (pr : Params K) (bp bm bc be : Bool)
    (s : PState K V P) : Except PErr (PState K V P) :=
  match optStep bp (prune pr) s.mix with
  | .error e => .error e
  | .ok m1 =>
    match optStep bm (merge env.quad pr) m1 with
    | .error e => .error e
    | .ok m2 =>
      match optStep bc (cap env.argsort pr) m2 with
      | .error e => .error e
      | .ok m3 => if be then doExtract pr { s with mix := m3 } else .ok { s with mix := m3 }

/-- One call. -/
def step [FloorRing K] (env : Env K V P Z) (pr : Params K) (s : PState K V P) :
    Op K V P Z → Except PErr (PState K V P)
  | .predict f b => .ok { s with mix := predict pr f b s.mix }
  | .correct f z =>
    match correct pr f z s.mix with
    | .error e => .error e
    | .ok m => .ok { s with mix := m }
  | .cleanup bp bm bc be => cleanup env pr bp bm bc be s
  | .extract => doExtract pr s

/-- A sequence of calls. -/
def run [FloorRing K] (env : Env K V P Z) (pr : Params K) (s : PState K V P) :
    List (Op K V P Z) → Except PErr (PState K V P)
  | [] => .ok s
  | o :: os =>
    match step env pr s o with
    | .error e => .error e
    | .ok s' => run env pr s' os

/-- A freshly constructed filter (tracker.py:585, 64-66). -/
def init : PState K V P := { mix := ⟨[], [], []⟩, states := [] }

end ops

end Gasur.Phd
