import Verif.Model.Crash
import Verif.Model.Cphd

/-!
# The CPHD filter when a call raises

Source: `/repo/src/gasur/swarm_estimator/tracker.py`, class `CardinalizedPHD`, lines 1296-1593, and its parent class.

`Verif/Model/Cphd.lean` stops at the first exception. Here `predict`, `correct`, `cleanup`, `extract_states` and the setter
of `max_expected_card` are modelled again, assignment by assignment (`Verif/Model/Crash.lean`), so that the attributes of
the filter are known also after an exception that the caller catches. The same exceptions are modelled (the inner filter
may raise at every call, a covariance may have no inverse), and those of the class itself (a birth term without
components, a correction without components, `clutter_den = 0`). NaN is `Res.nan`: the object is not followed further.
-/

namespace Gasur.CphdCrash

open Gasur.Crash Gasur.Phd Gasur.Cphd

variable {V P Z : Type*}

/-- The filter object: the attributes of the parent class, `_card_dist`, `_card_time_hist`, `agents_per_state`
(tracker.py:1313-1324). -/
structure XObj (V P Z : Type*) where
  ph : Crash.Obj ℝ V P Z
  card : List ℝ
  hist : List (ℕ × ℝ)
  agents : List ℤ

/-- Code of the parent class. -/
def onPhd {α : Type*} (x : M (Crash.Obj ℝ V P Z) α) : M (XObj V P Z) α := fun s =>
  ({ s with ph := (x s.ph).1 }, (x s.ph).2)

/-- How an expression of `Verif/Model/Cphd.lean` ends. -/
def ofC {α : Type*} : Except CErr α → Res α
  | .ok a => .ok a
  | .error .nan => .nan
  | .error .malformed => .nan
  | .error (.phd _) => .nan
  | .error .index => .raised
  | .error .zeroDiv => .raised

/-- `predict` (tracker.py:1342-1390): the parent's `predict` is finished before the birth terms are looked at. -/
noncomputable def xPredict (pr : Params ℝ) (f : PFilt ℝ V P Z) (births : List (Mix ℝ V P)) : M (XObj V P Z) Unit :=
  andThen (onPhd (cPredict pr f births)) fun _ =>
  andThen (look fun s => s.card) fun c =>
  andThen (eval (ofC (firstWeights births))) fun l =>
  andThen (eval (ofC (cardPredict (c.length - 1) pr.probSurvive (probDeath pr) l.sum c))) fun c' =>
  assign fun s => { s with card := c' }

/-- The inner filter where it does not raise. -/
def answered [Zero V] [Zero P] (f : PFilt ℝ V P Z) : Filt ℝ V P Z :=
  ⟨fun m p => (f.fpred m p).getD (0, 0), fun z m p => (f.fcor z m p).getD (0, 0, 0)⟩

/-- Whether the inner filter raises in the loops over measurements and components (tracker.py:1450-1460). -/
def corFault (f : PFilt ℝ V P Z) (zs : List Z) (cs : List (ℝ × V × P)) : Bool :=
  zs.any fun z => cs.any fun c => (f.fcor z c.2.1 c.2.2).isNone

/-- `correct` and `_correct_prob_density` (tracker.py:1392-1557): the measurements are recorded first (1428), then the
distribution (1553), its history (1554) and the mixture (1433) are assigned. -/
noncomputable def xCorrect [Zero V] [Zero P] (esf : List ℝ → List ℝ) (pr : Params ℝ) (f : PFilt ℝ V P Z) (zs : List Z) :
    M (XObj V P Z) Unit :=
  andThen (assign fun s => { s with ph := { s.ph with meas := s.ph.meas ++ [zs] } }) fun _ =>
  andThen (look fun s => s) fun s =>
  if s.ph.mix.ws.length = s.ph.mix.ms.length ∧ s.ph.mix.ms.length = s.ph.mix.ps.length then
    andThen (eval (if corFault f zs (comps s.ph.mix) then .raised
      else ofC (correctComps esf pr (answered f) zs (comps s.ph.mix) s.card))) fun r =>
    andThen (assign fun s => { s with card := r.2 }) fun _ =>
    andThen (assign fun s => { s with hist := s.hist ++ [((argmax r.2).getD 0, npStd r.2)] }) fun _ =>
    onPhd (setMix fun _ => mixOf r.1)
  else eval .nan

/-- The loop of `extract_states` (tracker.py:1571-1587): `agents_per_state` grows in every round. -/
noncomputable def xExtLoop (card : ℤ) : List ℕ → ℤ → M (XObj V P Z) (List (V × P))
  | [], _ => done []
  | i :: is, tot =>
    if tot < card then
      andThen (look fun s => s.ph.mix) fun m =>
      match m.ws[i]? with
      | none => fail
      | some w =>
        if pyRound w ≤ 0 then done []
        else
          andThen (assign fun s => { s with agents := s.agents ++ [pyRound w] }) fun _ =>
          match m.ms[i]?, m.ps[i]? with
          | some v, some p => andThen (xExtLoop card is (tot + pyRound w)) fun l => done ((v, p) :: l)
          | _, _ => fail
    else done []

/-- `extract_states` (tracker.py:1559-1593): `agents_per_state` is emptied first (1568). -/
noncomputable def xExtract (argsort : List ℝ → List ℕ) : M (XObj V P Z) Unit :=
  andThen (assign fun s => { s with agents := [] }) fun _ =>
  andThen (look fun s => s) fun s =>
  andThen (xExtLoop ((argmax s.card).getD 0 : ℕ) (argsort s.ph.mix.ws).reverse 0) fun l =>
  assign fun s => { s with ph := { s.ph with states := s.ph.states ++ [(l.map fun x => x.1, l.map fun x => x.2)] } }

variable [AddCommGroup V] [Module ℝ V] [AddCommGroup P] [Module ℝ P]

/-- `cleanup`, inherited (tracker.py:892-929): prune, merge and cap as in the parent class, then the class's own
`extract_states`. -/
noncomputable def xCleanup (inv : P → Option (V → ℝ)) (argsort : List ℝ → List ℕ) (pr : Params ℝ) (bp bm bc be : Bool) :
    M (XObj V P Z) Unit :=
  andThen (onPhd (cCleanup inv argsort pr bp bm bc false)) fun _ => when be (xExtract argsort)

/-- A call on the filter object (compare `Cphd.Op`). -/
inductive XOp (V P Z : Type*)
  | predict (f : PFilt ℝ V P Z) (births : List (Mix ℝ V P))
  | correct (f : PFilt ℝ V P Z) (meas : List Z)
  | cleanup (prune merge cap extract : Bool)
  | extract
  | setMax (n : ℕ)

/-- One call; `setMax`: tracker.py:1331-1335. -/
noncomputable def xCall (inv : P → Option (V → ℝ)) (argsort : List ℝ → List ℕ) (esf : List ℝ → List ℝ) (pr : Params ℝ) :
    XOp V P Z → M (XObj V P Z) Unit
  | .predict f b => xPredict pr f b
  | .correct f z => xCorrect esf pr f z
  | .cleanup bp bm bc be => xCleanup inv argsort pr bp bm bc be
  | .extract => xExtract argsort
  | .setMax n => assign fun s => { s with card := zeroCard n }

/-- Calls one after the other, where the caller catches every exception and goes on: the object at the end and which
calls ended normally. `none`: there was NaN. -/
noncomputable def xPlay (inv : P → Option (V → ℝ)) (argsort : List ℝ → List ℕ) (esf : List ℝ → List ℝ) (pr : Params ℝ) :
    XObj V P Z → List (XOp V P Z) → Option (XObj V P Z × List Bool)
  | s, [] => some (s, [])
  | s, o :: os =>
    match xCall inv argsort esf pr o s with
    | (_, .nan) => none
    | (s', .raised) => (xPlay inv argsort esf pr s' os).map fun r => (r.1, false :: r.2)
    | (s', .ok _) => (xPlay inv argsort esf pr s' os).map fun r => (r.1, true :: r.2)

/-- A new filter with `max_expected_card = N`. -/
def xFresh (N : ℕ) : XObj V P Z := ⟨Crash.fresh, zeroCard N, [], []⟩

end Gasur.CphdCrash
