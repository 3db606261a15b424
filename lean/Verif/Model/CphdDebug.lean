import Verif.Model.Cphd
import Verif.Model.Plot

/-!
# Model: the debugging record of the CPHD filter

Source: `/repo/src/gasur/swarm_estimator/tracker.py`, lines 1322, 1569-1593 and 1725-1773 (`debug_plots`). The rest of the
filter is `Model/Cphd.lean`. Simplification: `debug_plots` is not changed after construction.
-/

namespace Gasur.Cphd

open Gasur.Phd

variable {V P Z : Type*}

/-- The value of `ii` after the loop of `extract_states` (tracker.py:1569-1587) over the indices `s_weights[ii:]`. -/
noncomputable def loopCount (m : Mix ℝ V P) (card : ℤ) : List ℕ → ℤ → ℕ → Except CErr ℕ
  | [], _, ii => .ok ii
  | i :: is, tot, ii =>
    if tot < card then
      match m.ws[i]? with
      | none => .error .index
      | some w =>
        if pyRound w ≤ 0 then .ok ii
        else loopCount m card is (tot + pyRound w) (ii + 1)
    else .ok ii

/-- The filter object with `_n_states_per_time` (tracker.py:1322). -/
structure DState (V P : Type*) where
  st : CState V P
  counts : List ℕ

/-- `extract_states` with the debugging record (tracker.py:1559-1593). -/
noncomputable def extractD (debug : Bool) (argsort : List ℝ → List ℕ) (s : DState V P) : Except CErr (DState V P) :=
  match extract argsort s.st with
  | .error e => .error e
  | .ok st' =>
    match loopCount s.st.mix (cardinality s.st) (argsort s.st.mix.ws).reverse 0 0 with
    | .error e => .error e
    | .ok ii => .ok { st := st', counts := if debug then s.counts ++ [ii] else s.counts }

variable [AddCommGroup V] [Module ℝ V] [AddCommGroup P] [Module ℝ P]

/-- One call (tracker.py:892-929, 1342-1433, 1559-1593); only `extract_states` touches the record. -/
noncomputable def stepD (env : Env ℝ V P Z) (esf : List ℝ → List ℝ) (pr : Params ℝ) (debug : Bool) (s : DState V P) :
    Op V P Z → Except CErr (DState V P)
  | .cleanup bp bm bc true =>
    match cleanup env pr bp bm bc false s.st with
    | .error e => .error e
    | .ok st' => extractD debug env.argsort { s with st := st' }
  | .extract => extractD debug env.argsort s
  | o =>
    match step env esf pr s.st o with
    | .error e => .error e
    | .ok st' => .ok { s with st := st' }

/-- A sequence of calls. -/
noncomputable def runD (env : Env ℝ V P Z) (esf : List ℝ → List ℝ) (pr : Params ℝ) (debug : Bool) (s : DState V P) :
    List (Op V P Z) → Except CErr (DState V P)
  | [] => .ok s
  | o :: os =>
    match stepD env esf pr debug s o with
    | .error e => .error e
    | .ok s' => runD env esf pr debug s' os

end Gasur.Cphd
