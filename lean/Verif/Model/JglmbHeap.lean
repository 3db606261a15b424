import Verif.Model.GlmbHeap
import Verif.Model.Jglmb

/-!
# The joint GLMB filter with explicit references to arrays

Source: `/repo/src/gasur/swarm_estimator/tracker.py`, `JointGeneralizedLabeledMultiBernoulli`: `predict` 3483-3511,
`_gen_cor_tab` 3519-3540, `correct` 3542-3691; everything else is inherited. Conventions as in `Verif/Model/GlmbHeap.lean`.

* `_gen_cor_tab` copies the whole track for a missed detection (`deepcopy`, line 3524) where the GLMB filter shares the arrays.
* The measurements are always recorded, as copies (line 3594).
* The order of the loops over tracks and measurements (3529-3530) is exchanged, as in `Verif/Model/Jglmb.lean`; this changes only
  the numbers of new references.
-/

namespace Gasur.JglmbHeap

open Gasur.Glmb Gasur.GlmbHeap Gasur.Jglmb

/-- Arrays and filter object. -/
structure JHF (K τ F S C Z : Type*) where
  mem : Mem S C Z
  st : JSt K τ F ℕ ℕ
  meas : List (List ℕ)

variable {K τ F S C Z : Type*}

/-- What the filter and the caller see. -/
def JHF.read (h : JHF K τ F S C Z) : JSt K τ F S C := { g := readSt h.mem h.st.g, oldLen := h.st.oldLen }

/-- The recorded measurements. -/
def JHF.readMeas (h : JHF K τ F S C Z) : List (List Z) := h.meas.map (List.map h.mem.z)

/-- A function over a list, left to right, with the store. -/
def threadP {α β : Type*} (f : Mem S C Z → α → Mem S C Z × β) : Mem S C Z → List α → Mem S C Z × List β
  | m, [] => (m, [])
  | m, a :: l =>
    let x := f m a
    let y := threadP f x.1 l
    (y.1, x.2 :: y.2)

/-- `deepcopy` of the arrays of a track (tracker.py:3524). -/
def copyEntry (m : Mem S C Z) (e : Entry K τ F ℕ ℕ) : Mem S C Z × Entry K τ F ℕ ℕ :=
  let a := threadP (fun m' l => newS m' (l.map m'.s)) m e.sHist
  let b := threadP (fun m' l => newC m' (l.map m'.c)) a.1 e.cHist
  (b.1, { e with sHist := a.2, cHist := b.2 })

section field
variable [Field K] [LinearOrder K]

/-- `predict` (tracker.py:3483-3511). -/
def jhPredict (env : Env K τ F S C Z) (lab : τ) (births : List (Birth K F ℕ ℕ)) (h : JHF K τ F S C Z) :
    Except JErr (JHF K τ F S C Z) :=
  if births.any (fun b => decide (b.prob = 1)) then .error (.glmb .nan)
  else
    match thread copyBirth h.mem births with
    | .error e => .error (.glmb e)
    | .ok (m1, bs) =>
      match thread (hPredictEntry env) m1 h.st.g.tab with
      | .error e => .error (.glmb e)
      | .ok (m2, survTab) => .ok { h with
          mem := m2
          st := { h.st with g := { h.st.g with tab := birthTab lab h.st.g.cntr bs ++ survTab } } }

variable [FloorRing K]

/-- `correct` (tracker.py:3542-3691). -/
def jhCorrect (env : Env K τ F S C Z) (jp : JParams K) (births : List (Birth K F ℕ ℕ)) (draws : ℕ → ℕ → ℕ → K) (zs : List ℕ)
    (h : JHF K τ F S C Z) : Except JErr (JHF K τ F S C Z) :=
  let d := newZ h.mem (zs.map h.mem.z)
  let c := threadP copyEntry d.1 h.st.g.tab
  match thread (hCorBlock env jp.base h.st.g.tab) c.1 (zs.map h.mem.z).zipIdx with
  | .error e => .error (.glmb e)
  | .ok (m1, blocks) =>
    if births.length + h.st.oldLen ≠ h.st.g.tab.length then .error .shape
    else
      match traverseE (fun (hn : Hyp K × ℕ) => corOne env jp (births.map (readBirth m1)) h.st.oldLen h.st.g.tab.length
          (blocks.map (readBlock m1)) (sumSqrt env h.st.g.hyps) (draws hn.2) hn.1) h.st.g.hyps.zipIdx with
      | .error e => .error e
      | .ok ls =>
        match normHyps ls.flatten with
        | .error e => .error (.glmb e)
        | .ok hs =>
          match cleanUpd (upTab c.2 blocks) (cleanPred hs) with
          | .error e => .error (.glmb e)
          | .ok (tab', hs') => .ok
            { mem := m1
              meas := h.meas ++ [d.2]
              st := { g := { h.st.g with tab := tab', hyps := hs', card := calcCard hs }, oldLen := tab'.length } }

/-- A call of the filter: birth terms and measurements are given by the arrays of the caller. -/
inductive JHOp (K τ F S C Z : Type*)
  | predict (env : Env K τ F S C Z) (lab : τ) (births : List (Birth K F ℕ ℕ))
  | correct (env : Env K τ F S C Z) (births : List (Birth K F ℕ ℕ)) (draws : ℕ → ℕ → ℕ → K) (zs : List ℕ)
  | cleanup (env : Env K τ F S C Z) (bp bc be update calcS : Bool)
  | extract (update calcS : Bool)

variable [DecidableEq τ]

/-- One call; `cleanup` and `extract_states` are inherited. -/
def jhStep (jp : JParams K) (h : JHF K τ F S C Z) : JHOp K τ F S C Z → Except JErr (JHF K τ F S C Z)
  | .predict env lab births => jhPredict env lab births h
  | .correct env births draws zs => jhCorrect env jp births draws zs h
  | .cleanup env bp bc be u c =>
    match Glmb.cleanup (refEnv env) jp.base bp bc be u c h.st.g with
    | .error e => .error (.glmb e)
    | .ok g => .ok { h with st := { h.st with g := g } }
  | .extract u c =>
    match Glmb.extract u c h.st.g with
    | .error e => .error (.glmb e)
    | .ok (g, _) => .ok { h with st := { h.st with g := g } }

/-- The call with the contents of the arrays at the time of the call. -/
def JHOp.read (m : Mem S C Z) : JHOp K τ F S C Z → JOp K τ F S C Z
  | .predict env lab births => .predict env lab (births.map (readBirth m))
  | .correct env births draws zs => .correct env (births.map (readBirth m)) draws (zs.map m.z)
  | .cleanup env bp bc be u c => .cleanup env bp bc be u c
  | .extract u c => .extract u c

/-! ### A program that uses the filter -/

/-- What a program does with arrays: new arrays, changing arrays in place. -/
inductive MemAct (S C Z : Type*)
  | newS (v : S)
  | newC (v : C)
  | newZ (v : Z)
  | setS (a : ℕ) (v : S)
  | setC (a : ℕ) (v : C)
  | setZ (a : ℕ) (v : Z)

/-- The arrays after such an action. -/
def memAct (m : Mem S C Z) : MemAct S C Z → Mem S C Z
  | .newS v => (newS m [v]).1
  | .newC v => (newC m [v]).1
  | .newZ v => (newZ m [v]).1
  | .setS a v => { m with s := Function.update m.s a v }
  | .setC a v => { m with c := Function.update m.c a v }
  | .setZ a v => { m with z := Function.update m.z a v }

/-- Actions of a program. -/
inductive JAct (K τ F S C Z : Type*)
  | mem (a : MemAct S C Z)
  | call (o : JHOp K τ F S C Z)

/-- One action. -/
def jact (jp : JParams K) (h : JHF K τ F S C Z) : JAct K τ F S C Z → Except JErr (JHF K τ F S C Z)
  | .mem a => .ok { h with mem := memAct h.mem a }
  | .call o => jhStep jp h o

/-- A program. -/
def jacts (jp : JParams K) (h : JHF K τ F S C Z) : List (JAct K τ F S C Z) → Except JErr (JHF K τ F S C Z)
  | [] => .ok h
  | a :: l =>
    match jact jp h a with
    | .error e => .error e
    | .ok h' => jacts jp h' l

end field

end Gasur.JglmbHeap
