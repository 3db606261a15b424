import Verif.Model.Glmb

/-!
# The GLMB filter with explicit references to arrays

Source: `/repo/src/gasur/swarm_estimator/tracker.py`: `_TabEntry.setup` 1825-1838, `_init_filt_states` 2025-2040,
`_gen_birth_tab` 2042-2058, `_predict_track_tab_entry` 2086-2100, `predict` 2210-2252, `_correct_track_tab_entry` 2267-2297,
`_gen_cor_tab` 2299-2319, `correct` 2426-2480, `_clean_updates` 2398-2424, `extract_states` 2533-2590, `cleanup` 2708-2749.

`Verif/Model/Glmb.lean` treats state vectors, covariance matrices and measurements as values. They are numpy arrays: `setup`
copies the lists of a track but not the arrays in them, `_extract_helper` (2482-2493) takes the arrays of the track, and `states`
and `covariances` hand the very same arrays to the caller. Here an array is a reference into a store.

* There is one store for each kind of array (states, covariances, measurements); a new array gets the next free reference.
* Lists (`state_hist`, `_states`, ...) are values: a method that changes a list has made it itself or copied it before
  (1828, 1831-1834, 2093-2095, 2517-2531, 2561-2563). Hypothesis objects are followed in `Verif/Model/Snapshot.lean`.
* The inner filter (gncpy, external) returns new arrays and changes no array in place; its saved states are values
  (`setup` copies them, line 1829). Arrays made for a track before depletion is noticed are unreachable and not allocated.
* After an exception the store is not followed further.
-/

namespace Gasur.GlmbHeap

open Gasur.Glmb

/-- The arrays: contents and the next free references. -/
structure Mem (S C Z : Type*) where
  s : ℕ → S
  c : ℕ → C
  z : ℕ → Z
  ns : ℕ
  nc : ℕ
  nz : ℕ

/-- Arrays and filter object; the filter state holds references (`St` with references for states and covariances), `meas` is
`_meas_tab`. -/
structure HF (K τ F S C Z : Type*) where
  mem : Mem S C Z
  st : St K τ F ℕ ℕ
  meas : List (List ℕ)

variable {K τ F S C Z : Type*}

/-- New state arrays. -/
def newS (m : Mem S C Z) : List S → Mem S C Z × List ℕ
  | [] => (m, [])
  | v :: l =>
    let r := newS { m with s := Function.update m.s m.ns v, ns := m.ns + 1 } l
    (r.1, m.ns :: r.2)

/-- New covariance arrays. -/
def newC (m : Mem S C Z) : List C → Mem S C Z × List ℕ
  | [] => (m, [])
  | v :: l =>
    let r := newC { m with c := Function.update m.c m.nc v, nc := m.nc + 1 } l
    (r.1, m.nc :: r.2)

/-- New measurement arrays. -/
def newZ (m : Mem S C Z) : List Z → Mem S C Z × List ℕ
  | [] => (m, [])
  | v :: l =>
    let r := newZ { m with z := Function.update m.z m.nz v, nz := m.nz + 1 } l
    (r.1, m.nz :: r.2)

/-- A track with the contents of its arrays. -/
def readEntry (m : Mem S C Z) (e : Entry K τ F ℕ ℕ) : Entry K τ F S C :=
  { label := e.label, wHist := e.wHist, fStates := e.fStates, mHist := e.mHist,
    sHist := e.sHist.map (List.map m.s), cHist := e.cHist.map (List.map m.c), tIdx := e.tIdx }

/-- A birth term with the contents of its arrays. -/
def readBirth (m : Mem S C Z) (b : Birth K F ℕ ℕ) : Birth K F S C :=
  { fStates := b.fStates, ws := b.ws, states := b.states.map m.s, covs := b.covs.map m.c, prob := b.prob }

/-- An extraction history with the contents of its arrays. -/
def readExt (m : Mem S C Z) (e : Ext τ ℕ ℕ) : Ext τ S C :=
  { label := e.label, mHist := e.mHist, tIdx := e.tIdx, states := e.states.map m.s, covs := e.covs.map m.c }

/-- The filter state with the contents of the arrays. -/
def readSt (m : Mem S C Z) (s : St K τ F ℕ ℕ) : St K τ F S C :=
  { tab := s.tab.map (readEntry m), hyps := s.hyps, card := s.card, cntr := s.cntr, ext := s.ext.map (readExt m),
    states := s.states.map (List.map m.s), labels := s.labels, covs := s.covs.map (List.map m.c) }

/-- What the filter and the caller see. -/
def HF.read (h : HF K τ F S C Z) : St K τ F S C := readSt h.mem h.st

/-- The recorded measurements. -/
def HF.readMeas (h : HF K τ F S C Z) : List (List Z) := h.meas.map (List.map h.mem.z)

/-- A fallible function over a list, left to right, with the store. -/
def thread {α β : Type*} (f : Mem S C Z → α → Except GErr (Mem S C Z × β)) :
    Mem S C Z → List α → Except GErr (Mem S C Z × List β)
  | m, [] => .ok (m, [])
  | m, a :: l =>
    match f m a with
    | .error e => .error e
    | .ok (m1, b) =>
      match thread f m1 l with
      | .error e => .error e
      | .ok (m2, r) => .ok (m2, b :: r)

/-- `_init_filt_states` (tracker.py:2025-2040): `m.copy()` for every mean, `c.copy()` for every covariance. -/
def copyBirth (m : Mem S C Z) (b : Birth K F ℕ ℕ) : Except GErr (Mem S C Z × Birth K F ℕ ℕ) :=
  let r := newS m (b.states.map m.s)
  let q := newC r.1 (b.covs.map m.c)
  .ok (q.1, { b with states := r.2, covs := q.2 })

section field
variable [Field K] [LinearOrder K]

/-- `_predict_track_tab_entry` (tracker.py:2086-2100): the lists are copied by `setup`, the old arrays are shared, the predicted
ones are new. -/
def hPredictEntry (env : Env K τ F S C Z) (m : Mem S C Z) (e : Entry K τ F ℕ ℕ) :
    Except GErr (Mem S C Z × Entry K τ F ℕ ℕ) :=
  match e.sHist.getLast?, e.wHist.getLast? with
  | some s, some w =>
    if e.fStates.length = s.length then
      let rs := List.zipWith (fun f x => env.predF f (m.s x)) e.fStates s
      let a := newS m (rs.map fun r => r.2.1)
      let b := newC a.1 (rs.map fun r => r.2.2)
      .ok (b.1, { e with
        fStates := rs.map fun r => r.1
        sHist := e.sHist ++ [a.2]
        cHist := e.cHist ++ [b.2]
        wHist := e.wHist ++ [w] })
    else .error .malformed
  | _, _ => .error .index

/-- `_correct_track_tab_entry` (tracker.py:2267-2297). -/
def hCorrectEntry (env : Env K τ F S C Z) (pr : Params K) (z : Z) (m : Mem S C Z) (e : Entry K τ F ℕ ℕ) :
    Except GErr (Mem S C Z × Option (Entry K τ F ℕ ℕ) × K) :=
  match e.sHist.getLast?, e.wHist.getLast? with
  | some s, some w =>
    if e.fStates.length = s.length ∧ s.length = w.length ∧ e.cHist ≠ [] then
      match traverseE (fun x : F × S × K => optE (env.corF z x.1 x.2.1 x.2.2)) (e.fStates.zip ((s.map m.s).zip w)) with
      | .error _ => .ok (m, none, 0)
      | .ok rs =>
        if rs ≠ [] ∧ (rs.map fun r => r.2.2.2 + pr.eps).sum = 0 then .error .nan
        else
          let a := newS m (rs.map fun r => r.2.1)
          let b := newC a.1 (rs.map fun r => r.2.2.1)
          .ok (b.1,
            some { e with
              fStates := rs.map fun r => r.1
              sHist := e.sHist.dropLast ++ [a.2]
              cHist := e.cHist.dropLast ++ [b.2]
              wHist := e.wHist.dropLast ++
                [rs.map fun r => (r.2.2.2 + pr.eps) / (rs.map fun r => r.2.2.2 + pr.eps).sum] },
            (rs.map fun r => r.2.2.2 + pr.eps).sum)
    else .error .malformed
  | _, _ => .error .index

/-- The block of `up_tab` for one measurement (tracker.py:2310-2318). -/
def hCorBlock (env : Env K τ F S C Z) (pr : Params K) (tab : List (Entry K τ F ℕ ℕ)) (m : Mem S C Z) (ze : Z × ℕ) :
    Except GErr (Mem S C Z × List (Option (Entry K τ F ℕ ℕ) × K)) :=
  match thread (hCorrectEntry env pr ze.1) m tab with
  | .error e => .error e
  | .ok (m', l) => .ok (m', l.map fun ec => (ec.1.map (addMeas (some ze.2)), ec.2))

/-- The blocks with the contents of their arrays. -/
def readBlock (m : Mem S C Z) (b : List (Option (Entry K τ F ℕ ℕ) × K)) : List (Option (Entry K τ F S C) × K) :=
  b.map fun x => (x.1.map (readEntry m), x.2)

variable [FloorRing K]

/-- `predict` (tracker.py:2210-2252). -/
def hPredict (env : Env K τ F S C Z) (pr : Params K) (lab : τ) (births : List (Birth K F ℕ ℕ)) (h : HF K τ F S C Z) :
    Except GErr (HF K τ F S C Z) :=
  match thread copyBirth h.mem births with
  | .error e => .error e
  | .ok (m1, bs) =>
    match traverseE (logOdds env) (births.map fun b => b.prob) with
    | .error e => .error e
    | .ok costs =>
      match kList env pr costs pr.reqBirths with
      | .error e => .error e
      | .ok paths =>
        match birthHyps env (births.map (readBirth h.mem)) paths with
        | .error e => .error e
        | .ok bh =>
          match thread (hPredictEntry env) m1 h.st.tab with
          | .error e => .error e
          | .ok (m2, survTab) =>
            match survHyps env pr (h.st.tab.map (readEntry m2)) h.st.hyps with
            | .error e => .error e
            | .ok sh =>
              match setPredHyps births.length bh sh with
              | .error e => .error e
              | .ok hs => .ok { h with
                  mem := m2
                  st := { h.st with tab := birthTab lab h.st.cntr bs ++ survTab, card := calcCard sh, hyps := cleanPred hs } }

/-- `correct` (tracker.py:2426-2480); the recorded measurements are copies (line 2463). -/
def hCorrect (env : Env K τ F S C Z) (pr : Params K) (saveMeas : Bool) (zs : List ℕ) (h : HF K τ F S C Z) :
    Except GErr (HF K τ F S C Z) :=
  let d := if saveMeas then newZ h.mem (zs.map h.mem.z) else (h.mem, [])
  let meas := if saveMeas then h.meas ++ [d.2] else h.meas
  match thread (hCorBlock env pr h.st.tab) d.1 (zs.map h.mem.z).zipIdx with
  | .error e => .error e
  | .ok (m1, blocks) =>
    match corHyps env pr (h.st.tab.map (readEntry m1)) (blocks.map (readBlock m1)) h.st.hyps with
    | .error e => .error e
    | .ok hs =>
      match cleanUpd (upTab h.st.tab blocks) hs with
      | .error e => .error e
      | .ok (tab', hs') => .ok
        { mem := m1, meas := meas, st := { h.st with tab := tab', hyps := hs', card := calcCard hs } }

/-- The parameters of a call that needs no inner filter, for references (only `num`, `sortInds` and `argsort` are used). -/
def refEnv (env : Env K τ F S C Z) : Env K τ F ℕ ℕ Z :=
  { num := env.num, sortInds := env.sortInds, argsort := env.argsort, predF := fun f x => (f, x, 0),
    corF := fun _ _ _ _ => none, psurv := fun _ => 0, pdet := fun _ => 0 }

/-- A call of the filter: birth terms and measurements are given by the arrays of the caller. -/
inductive HOp (K τ F S C Z : Type*)
  | predict (env : Env K τ F S C Z) (lab : τ) (births : List (Birth K F ℕ ℕ))
  | correct (env : Env K τ F S C Z) (zs : List ℕ)
  | cleanup (env : Env K τ F S C Z) (bp bc be update calcS : Bool)
  | extract (update calcS : Bool)

variable [DecidableEq τ]

/-- One call. `cleanup` (tracker.py:2708-2749) and `extract_states` (2533-2590) make no arrays: the reports hold the arrays of the
tracks. -/
def hStep (pr : Params K) (saveMeas : Bool) (h : HF K τ F S C Z) : HOp K τ F S C Z → Except GErr (HF K τ F S C Z)
  | .predict env lab births => hPredict env pr lab births h
  | .correct env zs => hCorrect env pr saveMeas zs h
  | .cleanup env bp bc be u c =>
    match Glmb.cleanup (refEnv env) pr bp bc be u c h.st with
    | .error e => .error e
    | .ok st => .ok { h with st := st }
  | .extract u c =>
    match Glmb.extract u c h.st with
    | .error e => .error e
    | .ok (st, _) => .ok { h with st := st }

/-- The call with the contents of the arrays at the time of the call. -/
def HOp.read (m : Mem S C Z) : HOp K τ F S C Z → Op K τ F S C Z
  | .predict env lab births => .predict env lab (births.map (readBirth m))
  | .correct env zs => .correct env (zs.map m.z)
  | .cleanup env bp bc be u c => .cleanup env bp bc be u c
  | .extract u c => .extract u c

/-! ### A program that uses the filter -/

/-- What the caller does between and with calls: new arrays, changing arrays in place, calls. -/
inductive Act (K τ F S C Z : Type*)
  | newS (v : S)
  | newC (v : C)
  | newZ (v : Z)
  | setS (a : ℕ) (v : S)
  | setC (a : ℕ) (v : C)
  | setZ (a : ℕ) (v : Z)
  | call (o : HOp K τ F S C Z)

/-- One action of the caller. -/
def act (pr : Params K) (saveMeas : Bool) (h : HF K τ F S C Z) : Act K τ F S C Z → Except GErr (HF K τ F S C Z)
  | .newS v => .ok { h with mem := (newS h.mem [v]).1 }
  | .newC v => .ok { h with mem := (newC h.mem [v]).1 }
  | .newZ v => .ok { h with mem := (newZ h.mem [v]).1 }
  | .setS a v => .ok { h with mem := { h.mem with s := Function.update h.mem.s a v } }
  | .setC a v => .ok { h with mem := { h.mem with c := Function.update h.mem.c a v } }
  | .setZ a v => .ok { h with mem := { h.mem with z := Function.update h.mem.z a v } }
  | .call o => hStep pr saveMeas h o

/-- A program. -/
def acts (pr : Params K) (saveMeas : Bool) (h : HF K τ F S C Z) : List (Act K τ F S C Z) → Except GErr (HF K τ F S C Z)
  | [] => .ok h
  | a :: l =>
    match act pr saveMeas h a with
    | .error e => .error e
    | .ok h' => acts pr saveMeas h' l

end field

end Gasur.GlmbHeap
