import Verif.Model.Phd
import Mathlib.Analysis.SpecialFunctions.Log.Basic
import Mathlib.Analysis.SpecialFunctions.Sqrt
import Mathlib.Algebra.Order.Floor.Ring
import Mathlib.Data.Real.Archimedean

/-!
# Model of the cardinalized PHD filter

Source: `/repo/src/gasur/swarm_estimator/tracker.py`, class `CardinalizedPHD`, lines 1296-1593 (the parent class is
`Verif/Model/Phd.lean`).

* Exact real arithmetic. `np.log` of a number that is not positive is `-inf` or NaN in the code; then the whole
  cardinality distribution becomes NaN (a factor `0 * log(0)` or the final `0 / 0`); this is the error `nan` here.
  So is a final division by a sum that is zero.
* `get_elem_sym_fnc` (gncpy, external) is the parameter `esf`; it returns a list.
* `np.argsort` is the parameter `argsort`. Measurement gating is modelled separately (`Verif/Model/Gating.lean`);
  `correct` receives the measurements that are used.
* The likelihood, mean and covariance of the inner filter are the parameter `Filt` of the PHD model.
* Mixtures whose three lists differ in length are the error `malformed` (the code raises different exceptions
  depending on the lengths).
* `save_covs = True`; warnings and plots are not modelled.
-/

namespace Gasur.Cphd

open Gasur.Phd

/-- Failures. -/
inductive CErr
  | phd (e : PErr)
  | nan
  | index
  | zeroDiv
  | malformed
  deriving DecidableEq

variable {V P Z : Type*}

/-- `prob_death` (tracker.py:176-179). -/
def probDeath (pr : Params ℝ) : ℝ := 1 - pr.probSurvive

/-- `np.sum(np.log(range(1, n + 1)))` (tracker.py:1369-1371, 1386, 1494-1495). -/
noncomputable def logFact (n : ℕ) : ℝ := ∑ x ∈ Finset.range n, Real.log (x + 1)

/-- Entry of the cardinality distribution. -/
def at' (c : List ℝ) (i : ℕ) : ℝ := (c[i]?).getD 0

/-! ### Prediction -/

/-- `survive_cdn_predict[j]` (tracker.py:1364-1375); the loop leaves out `j = max_expected_card`. -/
noncomputable def survPredict (N : ℕ) (ps pd : ℝ) (c : List ℝ) (j : ℕ) : ℝ :=
  if j < N then
    ∑ i ∈ Finset.Ico j (N + 1), Real.exp (logFact i + -logFact j + logFact (i - j) + j * Real.log ps +
      ((i - j : ℕ) : ℝ) * Real.log pd) * at' c i
  else 0

/-- `birth[b] = self.birth_terms[b].weights[0]` for all `b` (tracker.py:1382-1384). -/
def firstWeights : List (Mix ℝ V P) → Except CErr (List ℝ)
  | [] => .ok []
  | b :: bs =>
    match b.ws with
    | [] => .error .index
    | w :: _ =>
      match firstWeights bs with
      | .error e => .error e
      | .ok l => .ok (w :: l)

/-- `cdn_predict[n]` (tracker.py:1378-1389); `b` is the sum of the birth weights. -/
noncomputable def cdnPredict (N : ℕ) (ps pd b : ℝ) (c : List ℝ) (n : ℕ) : ℝ :=
  ∑ j ∈ Finset.range (n + 1), Real.exp (b + ((n - j : ℕ) : ℝ) * Real.log b + -logFact (n - j)) *
    survPredict N ps pd c j

/-- Dividing by the sum (tracker.py:1390, 1553). -/
noncomputable def normalize (l : List ℝ) : Except CErr (List ℝ) :=
  if l.sum = 0 then .error .nan else .ok (l.map fun x => x / l.sum)

/-- The cardinality part of `predict` (tracker.py:1363-1390). -/
noncomputable def cardPredict (N : ℕ) (ps pd b : ℝ) (c : List ℝ) : Except CErr (List ℝ) :=
  if ps ≤ 0 ∨ pd ≤ 0 ∨ b ≤ 0 then .error .nan
  else normalize ((List.range (N + 1)).map (cdnPredict N ps pd b c))

/-! ### Correction -/

/-- `xivals` (tracker.py:1463-1466) for the components `(w, m, P)`. -/
noncomputable def xi (pdc : ℝ) (f : Filt ℝ V P Z) (cs : List (ℝ × V × P)) (z : Z) : ℝ :=
  pdc * (cs.map fun c => c.1 * (f.fcor z c.2.1 c.2.2).2.1).sum

/-- One summand of the `ups` sums (tracker.py:1490-1498, 1503-1513, 1520-1530): `zl` and `j` fix the clutter part, `k` is
`jj` or `jj + 1`. -/
noncomputable def upsTerm (lam pd W : ℝ) (zl n j k : ℕ) (e : ℝ) : ℝ :=
  Real.exp ((-lam + ((zl - j : ℕ) : ℝ) * Real.log lam) + logFact n + -1 * logFact (n - k) +
    ((n - k : ℕ) : ℝ) * Real.log pd + -(k : ℝ) * Real.log W) * e

/-- `ups0_E[n]` (tracker.py:1488-1499). -/
noncomputable def ups0 (lam pd W : ℝ) (zl : ℕ) (e : List ℝ) (n : ℕ) : ℝ :=
  ∑ j ∈ Finset.range (min zl n + 1), upsTerm lam pd W zl n j j (at' e j)

/-- `ups1_E[n]` (tracker.py:1501-1514); also `ups1_D[n, ell]` (tracker.py:1516-1532) with `zl - 1` in place of `zl` and
the elementary symmetric functions of the other measurements. -/
noncomputable def ups1 (lam pd W : ℝ) (zl : ℕ) (e : List ℝ) (n : ℕ) : ℝ :=
  ∑ j ∈ Finset.range (min zl n + 1), if j + 1 ≤ n then upsTerm lam pd W zl n j (j + 1) (at' e j) else 0

/-- `ups.T @ self._card_dist`. -/
noncomputable def dotCard (u : ℕ → ℝ) (c : List ℝ) : ℝ := ((List.range c.length).map fun n => u n * at' c n).sum

/-- The new weights of the missed components (tracker.py:1535-1539). -/
noncomputable def missWeights (pm r : ℝ) (cs : List (ℝ × V × P)) : List ℝ := cs.map fun c => r * pm * c.1

/-- The new components of measurement `z` (tracker.py:1541-1549); `r` is `wt_1`. The covariance is the one that was
computed for the last measurement `zl`, as `cov_temp` has no entry per measurement (tracker.py:1459). -/
noncomputable def detComps (pdet cden r : ℝ) (f : Filt ℝ V P Z) (zl z : Z) (cs : List (ℝ × V × P)) :
    List (ℝ × V × P) :=
  cs.map fun c => (r * (pdet * (f.fcor z c.2.1 c.2.2).2.1 / cden * c.1), (f.fcor z c.2.1 c.2.2).1,
    (f.fcor zl c.2.1 c.2.2).2.2)

/-- The components of a mixture. -/
def comps (m : Mix ℝ V P) : List (ℝ × V × P) := m.ws.zip (m.ms.zip m.ps)

/-- The mixture of a list of components. -/
def mixOf (cs : List (ℝ × V × P)) : Mix ℝ V P := ⟨cs.map fun c => c.1, cs.map fun c => c.2.1, cs.map fun c => c.2.2⟩

/-- `np.std` (tracker.py:1555). -/
noncomputable def npStd (l : List ℝ) : ℝ :=
  Real.sqrt ((l.map fun x => (x - l.sum / l.length) ^ 2).sum / l.length)

/-- `_correct_prob_density` (tracker.py:1435-1557) on the components `cs`: the new components, and the new cardinality
distribution. -/
noncomputable def correctComps (esf : List ℝ → List ℝ) (pr : Params ℝ) (f : Filt ℝ V P Z) (zs : List Z)
    (cs : List (ℝ × V × P)) (card : List ℝ) : Except CErr (List (ℝ × V × P) × List ℝ) :=
  if cs = [] then .error .index
  else if pr.clutterDen = 0 then .error .zeroDiv
  else
    let xis := zs.map (xi (pr.probDetection / pr.clutterDen) f cs)
    let W := (cs.map fun c => c.1).sum
    if pr.clutterRate ≤ 0 ∨ probDeath pr ≤ 0 ∨ W ≤ 0 then .error .nan
    else
      let d0 := dotCard (ups0 pr.clutterRate (probDeath pr) W zs.length (esf xis)) card
      let d1 := dotCard (ups1 pr.clutterRate (probDeath pr) W zs.length (esf xis)) card
      if d0 = 0 then .error .nan
      else
        let miss := List.zipWith (fun w c => (w, c.2)) (missWeights pr.probMiss (d1 / d0) cs) cs
        let det := (zs.zipIdx).flatMap fun ze =>
          detComps pr.probDetection pr.clutterDen
            (dotCard (ups1 pr.clutterRate (probDeath pr) W (zs.length - 1) (esf (xis.eraseIdx ze.2))) card / d0) f
            (zs.getLast?.getD ze.1) ze.1 cs
        match normalize ((List.range card.length).map fun n =>
            ups0 pr.clutterRate (probDeath pr) W zs.length (esf xis) n * at' card n) with
        | .error e => .error e
        | .ok c' => .ok (miss ++ det, c')

/-! ### The filter -/

/-- Filter state: mixture, cardinality distribution, its history, extracted states and covariances per call, number of
agents of each state of the last extraction. -/
structure CState (V P : Type*) where
  mix : Mix ℝ V P
  card : List ℝ
  hist : List (ℕ × ℝ)
  states : List (List V × List P)
  agents : List ℤ

/-- The distribution that is certain of zero objects (tracker.py:1319-1320, 1333-1334). -/
def zeroCard (N : ℕ) : List ℝ := 1 :: List.replicate N 0

/-- A new filter with `max_expected_card = N` (tracker.py:1313-1324). -/
def init (N : ℕ) : CState V P :=
  { mix := ⟨[], [], []⟩, card := zeroCard N, hist := [], states := [], agents := [] }

/-- `max_expected_card`: the length of the distribution is always one more (tracker.py:1319, 1333). -/
def maxCard (s : CState V P) : ℕ := s.card.length - 1

/-- `cardinality` (tracker.py:1337-1340). -/
noncomputable def cardinality (s : CState V P) : ℕ := (argmax s.card).getD 0

/-- `predict` (tracker.py:1342-1390). -/
noncomputable def predict (pr : Params ℝ) (f : Filt ℝ V P Z) (births : List (Mix ℝ V P)) (s : CState V P) :
    Except CErr (CState V P) :=
  match firstWeights births with
  | .error e => .error e
  | .ok l =>
    match cardPredict (maxCard s) pr.probSurvive (probDeath pr) l.sum s.card with
    | .error e => .error e
    | .ok c => .ok { s with mix := Phd.predict pr f births s.mix, card := c }

/-- `correct` (tracker.py:1392-1433) for the measurements that are used (after gating). -/
noncomputable def correct (esf : List ℝ → List ℝ) (pr : Params ℝ) (f : Filt ℝ V P Z) (zs : List Z) (s : CState V P) :
    Except CErr (CState V P) :=
  if s.mix.ws.length = s.mix.ms.length ∧ s.mix.ms.length = s.mix.ps.length then
    match correctComps esf pr f zs (comps s.mix) s.card with
    | .error e => .error e
    | .ok (cs, c) => .ok { s with mix := mixOf cs, card := c, hist := s.hist ++ [((argmax c).getD 0, npStd c)] }
  else .error .malformed

/-- The loop of `extract_states` (tracker.py:1571-1587) over the indices `s_weights[ii:]`: mean, covariance and number
of agents for each round. -/
noncomputable def extractLoop (m : Mix ℝ V P) (card : ℤ) : List ℕ → ℤ → Except CErr (List (V × P × ℤ))
  | [], _ => .ok []
  | i :: is, tot =>
    if tot < card then
      match m.ws[i]? with
      | none => .error .index
      | some w =>
        if pyRound w ≤ 0 then .ok []
        else
          match m.ms[i]?, m.ps[i]? with
          | some v, some p =>
            match extractLoop m card is (tot + pyRound w) with
            | .error e => .error e
            | .ok l => .ok ((v, p, pyRound w) :: l)
          | _, _ => .error .index
    else .ok []

/-- `extract_states` (tracker.py:1559-1593). -/
noncomputable def extract (argsort : List ℝ → List ℕ) (s : CState V P) : Except CErr (CState V P) :=
  match extractLoop s.mix (cardinality s) (argsort s.mix.ws).reverse 0 with
  | .error e => .error e
  | .ok l => .ok { s with
      states := s.states ++ [(l.map fun x => x.1, l.map fun x => x.2.1)]
      agents := l.map fun x => x.2.2 }

/-- Errors of the parent class. -/
def liftE {α : Type*} : Except PErr α → Except CErr α
  | .ok a => .ok a
  | .error e => .error (.phd e)

variable [AddCommGroup V] [Module ℝ V] [AddCommGroup P] [Module ℝ P]

/-- `cleanup`, inherited (tracker.py:892-929): prune, merge, cap, extract. -/
noncomputable def cleanup (env : Env ℝ V P Z) (pr : Params ℝ) (bp bm bc be : Bool) (s : CState V P) :
    Except CErr (CState V P) :=
  match liftE (optStep bp (prune pr) s.mix) with
  | .error e => .error e
  | .ok m1 =>
    match liftE (optStep bm (merge env.quad pr) m1) with
    | .error e => .error e
    | .ok m2 =>
      match liftE (optStep bc (cap env.argsort pr) m2) with
      | .error e => .error e
      | .ok m3 => if be then extract env.argsort { s with mix := m3 } else .ok { s with mix := m3 }

/-- A call on the filter object. -/
inductive Op (V P Z : Type*)
  | predict (f : Filt ℝ V P Z) (births : List (Mix ℝ V P))
  | correct (f : Filt ℝ V P Z) (meas : List Z)
  | cleanup (prune merge cap extract : Bool)
  | extract
  | setMax (n : ℕ)

/-- One call; `setMax` is the setter of `max_expected_card` (tracker.py:1331-1335). -/
noncomputable def step (env : Env ℝ V P Z) (esf : List ℝ → List ℝ) (pr : Params ℝ) (s : CState V P) :
    Op V P Z → Except CErr (CState V P)
  | .predict f b => predict pr f b s
  | .correct f z => correct esf pr f z s
  | .cleanup bp bm bc be => cleanup env pr bp bm bc be s
  | .extract => extract env.argsort s
  | .setMax n => .ok { s with card := zeroCard n }

/-- A sequence of calls. -/
noncomputable def run (env : Env ℝ V P Z) (esf : List ℝ → List ℝ) (pr : Params ℝ) (s : CState V P) :
    List (Op V P Z) → Except CErr (CState V P)
  | [] => .ok s
  | o :: os =>
    match step env esf pr s o with
    | .error e => .error e
    | .ok s' => run env esf pr s' os

end Gasur.Cphd
