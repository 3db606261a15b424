import Verif.Model.Cphd
import Verif.Model.JglmbHeap

/-!
# The cardinalized PHD filter with explicit references to arrays

Source: `/repo/src/gasur/swarm_estimator/tracker.py`, class `CardinalizedPHD`, lines 1313-1593; inherited: 58-82, 651-711, 806-929.

`Verif/Model/Cphd.lean` treats means, covariances and measurements as values. Here they are references into a store of numpy
arrays, with the conventions of `Verif/Model/GlmbHeap.lean`: a store for each kind of array, a new array gets the next free
reference, lists are values, the inner filter (gncpy, external) returns new arrays and changes none in place, and after an
exception the store is not followed further. Two views of the same memory are the same reference: the covariances of the corrected
components are views of the array `cov_temp`, which has one entry per predicted component and none per measurement (1459, 1549).
`deepcopy` copies every array of a list separately. Gating is off; `save_covs = True`.
-/

namespace Gasur.CphdHeap

open Gasur.Phd Gasur.Cphd Gasur.GlmbHeap Gasur.JglmbHeap

variable {V P Z : Type*}

/-- Arrays and filter object: the filter state and the birth terms hold references, `meas` is `_meas_tab`. -/
structure HX (V P Z : Type*) where
  mem : Mem V P Z
  st : CState ℕ ℕ
  births : List (Mix ℝ ℕ ℕ)
  meas : List (List ℕ)

/-- A mixture with the contents of its arrays. -/
def readMix (m : Mem V P Z) (x : Mix ℝ ℕ ℕ) : Mix ℝ V P := { ws := x.ws, ms := x.ms.map m.s, ps := x.ps.map m.c }

/-- The filter state with the contents of its arrays. -/
def readSt (m : Mem V P Z) (s : CState ℕ ℕ) : CState V P :=
  { mix := readMix m s.mix, card := s.card, hist := s.hist, states := s.states.map fun x => (x.1.map m.s, x.2.map m.c)
    agents := s.agents }

/-- What the filter and the caller see. -/
def HX.read (h : HX V P Z) : CState V P := readSt h.mem h.st

/-- The recorded measurements. -/
def HX.readMeas (h : HX V P Z) : List (List Z) := h.meas.map (List.map h.mem.z)

/-- `deepcopy` of a mixture (tracker.py:67). -/
def copyMix (m : Mem V P Z) (x : Mix ℝ ℕ ℕ) : Mem V P Z × Mix ℝ ℕ ℕ :=
  let a := newS m (x.ms.map m.s)
  let b := newC a.1 (x.ps.map a.1.c)
  (b.1, { x with ms := a.2, ps := b.2 })

/-- The constructor (tracker.py:1313-1324, 58-82) with `max_expected_card = N` for the birth terms `bs` of the caller. -/
def construct (N : ℕ) (m : Mem V P Z) (bs : List (Mix ℝ ℕ ℕ)) : HX V P Z :=
  let r := threadP copyMix m bs
  { mem := r.1, st := Cphd.init N, births := r.2, meas := [] }

/-- `predict` (tracker.py:1342-1390, 651-711): the predicted arrays are new, the arrays of the birth terms are shared. -/
noncomputable def hPredict (pr : Params ℝ) (f : Filt ℝ V P Z) (h : HX V P Z) : Except CErr (HX V P Z) :=
  match firstWeights h.births with
  | .error e => .error e
  | .ok l =>
    match cardPredict (maxCard h.st) pr.probSurvive (probDeath pr) l.sum h.st.card with
    | .error e => .error e
    | .ok c =>
      let rs := (h.st.mix.ms.zip h.st.mix.ps).map fun x => f.fpred (h.mem.s x.1) (h.mem.c x.2)
      let a := newS h.mem (rs.map Prod.fst)
      let b := newC a.1 (rs.map Prod.snd)
      .ok { h with
        mem := b.1
        st := { h.st with
          mix := h.births.foldl extend { ws := h.st.mix.ws.map fun x => pr.probSurvive * x, ms := a.2, ps := b.2 }
          card := c } }

/-- The contents of `cov_temp` after the loops (tracker.py:1459-1470): the covariances for the last measurement. -/
def covTemp (f : Filt ℝ V P Z) (cs : List (ℝ × V × P)) (zs : List Z) : List P :=
  match zs.getLast? with
  | none => []
  | some z => cs.map fun c => (f.fcor z c.2.1 c.2.2).2.2

/-- `correct` (tracker.py:1392-1557): the measurements are copied (1417, 1424), the mixture is copied (1426, 1535), corrected means
are new arrays (1548), and the covariances of the components for every measurement are the entries of `cov_temp` (1549). -/
noncomputable def hCorrect (esf : List ℝ → List ℝ) (pr : Params ℝ) (f : Filt ℝ V P Z) (zs : List ℕ) (h : HX V P Z) :
    Except CErr (HX V P Z) :=
  let d := newZ h.mem (zs.map h.mem.z)
  let x := readMix h.mem h.st.mix
  if x.ws.length = x.ms.length ∧ x.ms.length = x.ps.length then
    match correctComps esf pr f (zs.map h.mem.z) (comps x) h.st.card with
    | .error e => .error e
    | .ok (cs, c) =>
      let a := newS d.1 (cs.map fun y => y.2.1)
      let b := newC a.1 x.ps
      let q := newC b.1 (covTemp f (comps x) (zs.map h.mem.z))
      .ok { h with
        mem := q.1
        meas := h.meas ++ [d.2]
        st := { h.st with
          mix := { ws := cs.map fun y => y.1, ms := a.2, ps := b.2 ++ (List.replicate zs.length q.2).flatten }
          card := c
          hist := h.st.hist ++ [((argmax c).getD 0, npStd c)] } }
  else .error .malformed

variable [AddCommGroup V] [Module ℝ V] [AddCommGroup P] [Module ℝ P]

/-- `_merge` (tracker.py:820-854), if it is done: all arrays of the new mixture are new. -/
noncomputable def hMerge (env : Env ℝ V P Z) (pr : Params ℝ) (b : Bool) (m : Mem V P Z) (x : Mix ℝ ℕ ℕ) :
    Except CErr (Mem V P Z × Mix ℝ ℕ ℕ) :=
  if b then
    match liftE (merge env.quad pr (readMix m x)) with
    | .error e => .error e
    | .ok y =>
      let a := newS m y.ms
      let c := newC a.1 y.ps
      .ok (c.1, { ws := y.ws, ms := a.2, ps := c.2 })
  else .ok (m, x)

/-- `cleanup` (tracker.py:892-929): pruning, capping and extraction (1559-1593) move references around. -/
noncomputable def hCleanup (env : Env ℝ V P Z) (pr : Params ℝ) (bp bm bc be : Bool) (h : HX V P Z) :
    Except CErr (HX V P Z) :=
  match liftE (optStep bp (prune pr) h.st.mix) with
  | .error e => .error e
  | .ok m1 =>
    match hMerge env pr bm h.mem m1 with
    | .error e => .error e
    | .ok (mem, m2) =>
      match liftE (optStep bc (cap env.argsort pr) m2) with
      | .error e => .error e
      | .ok m3 =>
        if be then
          match extract env.argsort { h.st with mix := m3 } with
          | .error e => .error e
          | .ok s => .ok { h with mem := mem, st := s }
        else .ok { h with mem := mem, st := { h.st with mix := m3 } }

/-- A call on the filter; the measurements are arrays of the caller. -/
inductive XOp (V P Z : Type*)
  | predict (f : Filt ℝ V P Z)
  | correct (f : Filt ℝ V P Z) (meas : List ℕ)
  | cleanup (prune merge cap extract : Bool)
  | extract
  | setMax (n : ℕ)

/-- One call; `setMax` is the setter of `max_expected_card` (tracker.py:1331-1335). -/
noncomputable def hStep (env : Env ℝ V P Z) (esf : List ℝ → List ℝ) (pr : Params ℝ) (h : HX V P Z) :
    XOp V P Z → Except CErr (HX V P Z)
  | .predict f => hPredict pr f h
  | .correct f z => hCorrect esf pr f z h
  | .cleanup bp bm bc be => hCleanup env pr bp bm bc be h
  | .extract =>
    match extract env.argsort h.st with
    | .error e => .error e
    | .ok s => .ok { h with st := s }
  | .setMax n => .ok { h with st := { h.st with card := zeroCard n } }

/-- Actions of a program: making and changing arrays, and calls of the filter. -/
inductive XAct (V P Z : Type*)
  | mem (a : MemAct V P Z)
  | call (o : XOp V P Z)

/-- One action. -/
noncomputable def xact (env : Env ℝ V P Z) (esf : List ℝ → List ℝ) (pr : Params ℝ) (h : HX V P Z) :
    XAct V P Z → Except CErr (HX V P Z)
  | .mem a => .ok { h with mem := memAct h.mem a }
  | .call o => hStep env esf pr h o

/-- A program. -/
noncomputable def xacts (env : Env ℝ V P Z) (esf : List ℝ → List ℝ) (pr : Params ℝ) (h : HX V P Z) :
    List (XAct V P Z) → Except CErr (HX V P Z)
  | [] => .ok h
  | a :: l =>
    match xact env esf pr h a with
    | .error e => .error e
    | .ok h' => xacts env esf pr h' l

end Gasur.CphdHeap
