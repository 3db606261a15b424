import Verif.Model.KShortest
import Verif.Model.Murty
import Verif.Model.Phd

/-!
# Model of the GLMB filter

Source: `/repo/src/gasur/swarm_estimator/tracker.py`, class `GeneralizedLabeledMultiBernoulli`,
lines 1776-2749 (saving/loading is in `Verif/Model/SaveLoad.lean`).

* Numbers are elements of a linearly ordered field `K` with a floor; `sqrt`, `x ↦ -log x` and
  `x ↦ exp (-x)` are the parameter `Num`; `Verif/Props/Glmb.lean` instantiates them with the real
  functions. Probabilities that the code keeps temporarily in the logarithmic domain are kept in the
  linear domain: `log a + log b` is `a * b`, `log 0 = -inf` is `0`, and `exp (x - log_sum_exp xs)` is
  division by the sum.
* A NaN or an infinity produced by a division by zero or by the logarithm of a non-positive number is
  the error `nan`; the model does not follow NaNs further. Exception: the cost of a birth or survival probability of
  zero is `+inf` and goes to `k_shortest` (`kShortestInf`). `log_sum_exp` of the empty list is assumed
  not to raise. Average probabilities above 1 (logarithm of a negative number) are outside the model.
* The inner filter is a parameter: `predF` (`_inner_predict`, tracker.py:2075-2084) and `corF`
  (`_inner_correct`, tracker.py:2254-2265; `none` stands for the three depletion exceptions caught at
  tracker.py:2283-2286). Average survival and detection probabilities of a track are parameters (constant
  in the base class, tracker.py:2149-2153 and 2392-2396; computed from the particles in the SMC class).
* `np.argsort` is a parameter. `hash` at tracker.py:2196 is assumed collision free.
* `save_covs = True`. With `False` the covariance lists hold `None` place holders: `Verif/Model/GlmbNoCov.lean`.
* Copies made by `_TabEntry.setup` are invisible in a functional model.
-/

namespace Gasur.Glmb

open Gasur.KShortest Gasur.Murty

/-- Failures. `index`: index out of range (or `argmax` of an empty list); `nan`: NaN or infinity;
`malformed`: lists of a track that should be parallel are not; `kshort`, `murty`: failure of the
subroutine. -/
inductive GErr
  | index
  | nan
  | malformed
  | kshort (e : KErr)
  | murty (e : MErr)

/-- Numerical functions. -/
structure Num (K : Type*) where
  sqrt : K → K
  negLog : K → K
  expNeg : K → K

/-- `_TabEntry` (tracker.py:1811-1838). `τ` is the type of rounded times, `F`, `S`, `C` those of inner
filter states, states and covariances. -/
structure Entry (K τ F S C : Type*) where
  label : τ × ℕ
  wHist : List (List K)
  fStates : List F
  mHist : List (Option ℕ)
  sHist : List (List S)
  cHist : List (List C)
  tIdx : ℕ

/-- `_HypothesisHelper` (tracker.py:1840-1847). -/
structure Hyp (K : Type*) where
  prob : K
  tracks : List ℕ

/-- One birth term after `_init_filt_states` (tracker.py:2025-2040), with its birth probability. -/
structure Birth (K F S C : Type*) where
  fStates : List F
  ws : List K
  states : List S
  covs : List C
  prob : K

/-- `_ExtractHistHelper` (tracker.py:1849-1855). -/
structure Ext (τ S C : Type*) where
  label : τ × ℕ
  mHist : List (Option ℕ)
  tIdx : ℕ
  states : List S
  covs : List C

/-- Filter parameters (tracker.py:1857-1868, 59-75). `eps` and `fmax` are
`np.finfo(float).eps` and `np.finfo(float).max`. -/
structure Params (K : Type*) where
  reqBirths : ℕ
  reqSurv : ℕ
  reqUpd : ℕ
  pruneThreshold : K
  maxHyps : ℕ
  clutterRate : K
  clutterDen : K
  eps : K
  fmax : K

/-- External pieces. -/
structure Env (K τ F S C Z : Type*) where
  num : Num K
  sortInds : (n : ℕ) → (Fin n → WithTop K) → Equiv.Perm (Fin n)
  argsort : List K → List ℕ
  predF : F → S → F × S × C
  corF : Z → F → S → K → Option (F × S × C × K)
  psurv : Entry K τ F S C → K
  pdet : Entry K τ F S C → K

/-- Filter state (tracker.py:1870-1889). -/
structure St (K τ F S C : Type*) where
  tab : List (Entry K τ F S C)
  hyps : List (Hyp K)
  card : List K
  cntr : ℕ
  ext : List (Ext τ S C)
  states : List (List S)
  labels : List (List (τ × ℕ))
  covs : List (List C)

/-- Run a fallible function over a list, left to right. -/
def traverseE {α β ε : Type*} (f : α → Except ε β) : List α → Except ε (List β)
  | [] => .ok []
  | a :: l =>
    match f a with
    | .error e => .error e
    | .ok b =>
      match traverseE f l with
      | .error e => .error e
      | .ok r => .ok (b :: r)

/-- List access that raises `IndexError`. -/
def getE {α : Type*} (l : List α) (i : ℕ) : Except GErr α :=
  match l[i]? with
  | some a => .ok a
  | none => .error .index

/-- `none` (depletion) as an exception. -/
def optE {α : Type*} : Option α → Except Unit α
  | some a => .ok a
  | none => .error ()

variable {K τ F S C Z : Type*}

section field
variable [Field K] [LinearOrder K]

/-- `k_shortest` on a list of costs; the elements of a path are list positions. -/
def kList (env : Env K τ F S C Z) (pr : Params K) (costs : List (WithTop K)) (k : ℕ) :
    Except GErr (List (List ℕ × WithTop K)) :=
  match kShortestInf (fun i : Fin costs.length => costs[i])
      (env.sortInds costs.length fun i => costs[i]) pr.eps k with
  | .error e => .error (.kshort e)
  | .ok l => .ok (l.map fun pc => (pc.1.map fun i => i.val, pc.2))

/-- `exp (-c)` of a possibly infinite cost. -/
def expNegTop (env : Env K τ F S C Z) : WithTop K → K
  | ⊤ => 0
  | (x : K) => env.num.expNeg x

/-- `-log (p / (1 - p))` (tracker.py:2046-2047, 2123-2125); it is `+inf` for `p = 0`. A probability outside `[0, 1)`
raises (`p = 1` for a birth term) or makes all the weights NaN (`log_cost` and the logarithm of the death probability
are then `-inf` or NaN). -/
def logOdds (env : Env K τ F S C Z) (p : K) : Except GErr (WithTop K) :=
  if p = 0 then .ok ⊤ else if 0 < p ∧ p < 1 then .ok (env.num.negLog (p / (1 - p)) : K) else .error .nan

/-- Normalisation `exp (x - log_sum_exp xs)` (tracker.py:2069-2071, 2143-2145, 2386-2388), or division
by the total (tracker.py:2169-2171, 2664-2666, 2697-2703). -/
def normHyps (hyps : List (Hyp K)) : Except GErr (List (Hyp K)) :=
  if hyps ≠ [] ∧ (hyps.map fun h => h.prob).sum = 0 then .error .nan
  else .ok (hyps.map fun h => { h with prob := h.prob / (hyps.map fun h => h.prob).sum })

/-- `_gen_birth_tab`, the entries (tracker.py:2042-2058); `lab` is `round(timestep, decimal_places)`. -/
def birthTab (lab : τ) (cntr : ℕ) (births : List (Birth K F S C)) : List (Entry K τ F S C) :=
  births.zipIdx.map fun bi =>
    { label := (lab, bi.2), wHist := [bi.1.ws], fStates := bi.1.fStates, mHist := [],
      sHist := [bi.1.states], cHist := [bi.1.covs], tIdx := cntr }

/-- `_gen_birth_hyps` (tracker.py:2060-2073). -/
def birthHyps (env : Env K τ F S C Z) (births : List (Birth K F S C))
    (paths : List (List ℕ × WithTop K)) : Except GErr (List (Hyp K)) :=
  normHyps (paths.map fun pc =>
    { prob := (births.map fun b => 1 - b.prob).prod * expNegTop env pc.2, tracks := pc.1 })

/-- `_predict_track_tab_entry` (tracker.py:2086-2100). -/
def predictEntry (env : Env K τ F S C Z) (e : Entry K τ F S C) : Except GErr (Entry K τ F S C) :=
  match e.sHist.getLast?, e.wHist.getLast? with
  | some s, some w =>
    if e.fStates.length = s.length then
      .ok { e with
        fStates := List.zipWith (fun f x => (env.predF f x).1) e.fStates s
        sHist := e.sHist ++ [List.zipWith (fun f x => (env.predF f x).2.1) e.fStates s]
        cHist := e.cHist ++ [List.zipWith (fun f x => (env.predF f x).2.2) e.fStates s]
        wHist := e.wHist ++ [w] }
    else .error .malformed
  | _, _ => .error .index

variable [FloorRing K]

/-- Number of hypotheses requested for one hypothesis, `round(req * sqrt(p) / sum_sqrt)`
(tracker.py:2126-2127, 2368-2370). -/
def share (env : Env K τ F S C Z) (req : ℕ) (p sumSqrt : K) : Except GErr ℕ :=
  if sumSqrt = 0 then .error .nan
  else .ok (Phd.pyRound ((req : K) * env.num.sqrt p / sumSqrt)).toNat

/-- The surviving hypotheses made from one hypothesis (tracker.py:2116-2141), not normalised. -/
def survOne (env : Env K τ F S C Z) (pr : Params K) (tab : List (Entry K τ F S C)) (sumSqrt : K)
    (h : Hyp K) : Except GErr (List (Hyp K)) :=
  if h.tracks = [] then .ok [h]
  else
    match traverseE (getE tab) h.tracks with
    | .error e => .error e
    | .ok ents =>
      match traverseE (logOdds env) (ents.map env.psurv) with
      | .error e => .error e
      | .ok costs =>
        match share env pr.reqSurv h.prob sumSqrt with
        | .error e => .error e
        | .ok k =>
          match kList env pr costs k with
          | .error e => .error e
          | .ok paths =>
            traverseE (fun pc =>
              match traverseE (getE h.tracks) pc.1 with
              | .error e => .error e
              | .ok ts => .ok
                { prob := (ents.map fun e => 1 - env.psurv e).prod * h.prob * expNegTop env pc.2
                  tracks := ts }) paths

/-- `sum_sqrt_w` (tracker.py:2113-2115, 2336-2338). -/
def sumSqrt (env : Env K τ F S C Z) (hyps : List (Hyp K)) : K :=
  (hyps.map fun h => env.num.sqrt h.prob).sum

/-- `_gen_surv_hyps` (tracker.py:2111-2147). -/
def survHyps (env : Env K τ F S C Z) (pr : Params K) (tab : List (Entry K τ F S C))
    (hyps : List (Hyp K)) : Except GErr (List (Hyp K)) :=
  match traverseE (survOne env pr tab (sumSqrt env hyps)) hyps with
  | .error e => .error e
  | .ok ls => normHyps ls.flatten

/-- `_set_pred_hyps` (tracker.py:2155-2171); `nb` is the number of birth entries. -/
def setPredHyps (nb : ℕ) (bh sh : List (Hyp K)) : Except GErr (List (Hyp K)) :=
  normHyps (bh.flatMap fun b => sh.map fun s =>
    { prob := b.prob * s.prob, tracks := b.tracks ++ s.tracks.map fun x => x + nb })

/-- `_calc_card_dist` (tracker.py:2173-2185). -/
def calcCard (hyps : List (Hyp K)) : List K :=
  if hyps = [] then [1]
  else (List.range ((hyps.map fun h => h.tracks.length).foldr max 0 + 1)).map fun n =>
    ((hyps.filter fun h => decide (h.tracks.length = n)).map fun h => h.prob).sum

/-- The sorted track set, which identifies a hypothesis in `_clean_predictions`
(tracker.py:2189-2196). -/
def key (h : Hyp K) : List ℕ := h.tracks.insertionSort (· ≤ ·)

/-- Adding one hypothesis to the list of distinct ones (tracker.py:2201-2207). -/
def addHyp : List (Hyp K) → Hyp K → List (Hyp K)
  | [], h => [h]
  | a :: l, h => if key a = key h then { a with prob := a.prob + h.prob } :: l else a :: addHyp l h

/-- `_clean_predictions` (tracker.py:2187-2208). -/
def cleanPred (hyps : List (Hyp K)) : List (Hyp K) := hyps.foldl addHyp []

/-- `predict` (tracker.py:2210-2252). -/
def predict (env : Env K τ F S C Z) (pr : Params K) (lab : τ) (births : List (Birth K F S C))
    (st : St K τ F S C) : Except GErr (St K τ F S C) :=
  match traverseE (logOdds env) (births.map fun b => b.prob) with
  | .error e => .error e
  | .ok costs =>
    match kList env pr costs pr.reqBirths with
    | .error e => .error e
    | .ok paths =>
      match birthHyps env births paths with
      | .error e => .error e
      | .ok bh =>
        match traverseE (predictEntry env) st.tab with
        | .error e => .error e
        | .ok survTab =>
          match survHyps env pr st.tab st.hyps with
          | .error e => .error e
          | .ok sh =>
            match setPredHyps births.length bh sh with
            | .error e => .error e
            | .ok hs => .ok { st with
                tab := birthTab lab st.cntr births ++ survTab
                card := calcCard sh
                hyps := cleanPred hs }

/-! ### Correction -/

/-- `_correct_track_tab_entry` (tracker.py:2267-2297): the updated entry (`none` if the inner filter
reported depletion) and its cost. -/
def correctEntry (env : Env K τ F S C Z) (pr : Params K) (z : Z) (e : Entry K τ F S C) :
    Except GErr (Option (Entry K τ F S C) × K) :=
  match e.sHist.getLast?, e.wHist.getLast? with
  | some s, some w =>
    if e.fStates.length = s.length ∧ s.length = w.length ∧ e.cHist ≠ [] then
      match traverseE (fun x : F × S × K => optE (env.corF z x.1 x.2.1 x.2.2))
          (e.fStates.zip (s.zip w)) with
      | .error _ => .ok (none, 0)
      | .ok rs =>
        if rs ≠ [] ∧ (rs.map fun r => r.2.2.2 + pr.eps).sum = 0 then .error .nan
        else .ok
          (some { e with
            fStates := rs.map fun r => r.1
            sHist := e.sHist.dropLast ++ [rs.map fun r => r.2.1]
            cHist := e.cHist.dropLast ++ [rs.map fun r => r.2.2.1]
            wHist := e.wHist.dropLast ++
              [rs.map fun r => (r.2.2.2 + pr.eps) / (rs.map fun r => r.2.2.2 + pr.eps).sum] },
           (rs.map fun r => r.2.2.2 + pr.eps).sum)
    else .error .malformed
  | _, _ => .error .index

/-- Appending to the association history (tracker.py:2306, 2317). -/
def addMeas (m : Option ℕ) (e : Entry K τ F S C) : Entry K τ F S C := { e with mHist := e.mHist ++ [m] }

/-- The block of `up_tab` and the column of `all_cost_m` for one measurement (tracker.py:2310-2318). -/
def corBlock (env : Env K τ F S C Z) (pr : Params K) (tab : List (Entry K τ F S C)) (ze : Z × ℕ) :
    Except GErr (List (Option (Entry K τ F S C) × K)) :=
  match traverseE (correctEntry env pr ze.1) tab with
  | .error e => .error e
  | .ok l => .ok (l.map fun ec => (ec.1.map (addMeas (some ze.2)), ec.2))

/-- `_gen_cor_tab` (tracker.py:2299-2319): the blocks, one per measurement. The table is
`(missed detections) ++ (blocks)`, `all_cost_m[ts, emm]` is the cost of entry `ts` of block `emm`. -/
def corBlocks (env : Env K τ F S C Z) (pr : Params K) (tab : List (Entry K τ F S C)) (meas : List Z) :
    Except GErr (List (List (Option (Entry K τ F S C) × K))) :=
  traverseE (corBlock env pr tab) meas.zipIdx

/-- `up_tab` (tracker.py:2301-2314). -/
def upTab (tab : List (Entry K τ F S C)) (blocks : List (List (Option (Entry K τ F S C) × K))) :
    List (Option (Entry K τ F S C)) :=
  tab.map (fun e => some (addMeas none e)) ++ blocks.flatMap fun b => b.map Prod.fst

/-- One entry of `cost_m` for a track (tracker.py:2346-2365): `(pd / pmd) * cost / clutter`, with
non-positive values replaced by `eps`. If `pmd = 0` the ratio is infinite: the entry becomes `fmax`, or
NaN if `cost = 0`. -/
def costEntry (pr : Params K) (clutter pd c : K) : Except GErr K :=
  if 1 - pd = 0 then (if 0 < pd * c then .ok pr.fmax else .error .nan)
  else .ok (if pd / (1 - pd) * c / clutter ≤ 0 then pr.eps else pd / (1 - pd) * c / clutter)

/-- The entry of `cost_m` for one track and one block (tracker.py:2346-2365). -/
def blockCost (env : Env K τ F S C Z) (pr : Params K) (te : ℕ × Entry K τ F S C)
    (b : List (Option (Entry K τ F S C) × K)) : Except GErr K :=
  match getE b te.1 with
  | .error e => .error e
  | .ok x => costEntry pr (pr.clutterRate * pr.clutterDen) (env.pdet te.2) x.2

/-- The rows of `cost_m` for a hypothesis (tracker.py:2346-2365). -/
def costRows (env : Env K τ F S C Z) (pr : Params K)
    (blocks : List (List (Option (Entry K τ F S C) × K))) (tracks : List ℕ)
    (ents : List (Entry K τ F S C)) : Except GErr (List (List K)) :=
  traverseE (fun te => traverseE (blockCost env pr te) blocks) (tracks.zip ents)

/-- `neg_log` (tracker.py:2366). -/
def costMat (env : Env K τ F S C Z) (rows : List (List K)) (r n : ℕ) : Fin r → Fin n → WithTop K :=
  fun i j => ((env.num.negLog ((((rows[i.val]?).getD [])[j.val]?).getD 0) : K) : WithTop K)

/-- The updated hypotheses made from one hypothesis, not normalised (tracker.py:2325-2330 and
2339-2384). -/
def corOne (env : Env K τ F S C Z) (pr : Params K) (tab : List (Entry K τ F S C))
    (blocks : List (List (Option (Entry K τ F S C) × K))) (ssW : K) (h : Hyp K) :
    Except GErr (List (Hyp K)) :=
  match traverseE (getE tab) h.tracks with
  | .error e => .error e
  | .ok ents =>
    let pmd := (ents.map fun e => 1 - env.pdet e).prod
    if blocks = [] then
      .ok [{ h with prob := env.num.expNeg pr.clutterRate * pmd * h.prob }]
    else
      let clutter := pr.clutterRate * pr.clutterDen
      let base := env.num.expNeg pr.clutterRate * clutter ^ blocks.length
      if clutter ≤ 0 then .error .nan
      else if h.tracks = [] then .ok [{ h with prob := base * h.prob }]
      else
        match costRows env pr blocks h.tracks ents with
        | .error e => .error e
        | .ok rows =>
          match share env pr.reqUpd h.prob ssW with
          | .error e => .error e
          | .ok m =>
            match murty (costMat env rows h.tracks.length blocks.length) m with
            | .error e => .error (.murty e)
            | .ok assigns =>
              .ok (assigns.map fun ac =>
                { prob := base * pmd * h.prob * env.num.expNeg ac.2
                  tracks := (List.finRange h.tracks.length).map fun i =>
                    h.tracks[i] + tab.length * ac.1 i })

/-- `_gen_cor_hyps` (tracker.py:2321-2390). -/
def corHyps (env : Env K τ F S C Z) (pr : Params K) (tab : List (Entry K τ F S C))
    (blocks : List (List (Option (Entry K τ F S C) × K))) (hyps : List (Hyp K)) :
    Except GErr (List (Hyp K)) :=
  match traverseE (corOne env pr tab blocks (sumSqrt env hyps)) hyps with
  | .error e => .error e
  | .ok ls => normHyps ls.flatten

/-- `used` in `_clean_updates` (tracker.py:2399-2404): entry `i` exists and some hypothesis uses it. -/
def isUsed (tab : List (Option (Entry K τ F S C))) (hyps : List (Hyp K)) (i : ℕ) : Bool :=
  ((tab[i]?).any Option.isSome) && hyps.any fun h => decide (i ∈ h.tracks)

/-- `nnz_inds` (tracker.py:2405). -/
def usedInds (tab : List (Option (Entry K τ F S C))) (hyps : List (Hyp K)) : List ℕ :=
  (List.range tab.length).filter (isUsed tab hyps)

/-- `_clean_updates` (tracker.py:2398-2424): the new table and hypotheses. -/
def cleanUpd (tab : List (Option (Entry K τ F S C))) (hyps : List (Hyp K)) :
    Except GErr (List (Entry K τ F S C) × List (Hyp K)) :=
  if hyps.any (fun h => h.tracks.any fun i => decide (tab.length ≤ i)) then .error .index
  else
    let nnz := usedInds tab hyps
    .ok (nnz.filterMap (fun i => (tab[i]?).getD none),
      (hyps.filter fun h => h.tracks.all fun i => decide (i ∈ nnz)).map fun h =>
        { h with tracks := h.tracks.map fun i => nnz.idxOf i })

/-- `correct` (tracker.py:2426-2480). -/
def correct (env : Env K τ F S C Z) (pr : Params K) (meas : List Z) (st : St K τ F S C) :
    Except GErr (St K τ F S C) :=
  match corBlocks env pr st.tab meas with
  | .error e => .error e
  | .ok blocks =>
    match corHyps env pr st.tab blocks st.hyps with
    | .error e => .error e
    | .ok hs =>
      match cleanUpd (upTab st.tab blocks) hs with
      | .error e => .error e
      | .ok (tab', hs') => .ok { st with tab := tab', hyps := hs', card := calcCard hs }

/-! ### Clean-up -/

/-- `_prune` (tracker.py:2648-2669). -/
def prune (pr : Params K) (st : St K τ F S C) : Except GErr (St K τ F S C) :=
  match normHyps (st.hyps.filter fun h => decide (pr.pruneThreshold < h.prob)) with
  | .error e => .error e
  | .ok hs => .ok { st with hyps := hs, card := calcCard hs }

/-- `_cap` (tracker.py:2671-2706). -/
def cap (env : Env K τ F S C Z) (pr : Params K) (st : St K τ F S C) : Except GErr (St K τ F S C) :=
  if pr.maxHyps < st.hyps.length then
    match traverseE (getE st.hyps)
        (((env.argsort (st.hyps.map fun h => h.prob)).reverse).take pr.maxHyps) with
    | .error e => .error e
    | .ok kept =>
      match normHyps kept with
      | .error e => .error e
      | .ok hs => .ok { st with hyps := hs, card := calcCard hs }
  else .ok st

/-! ### Extraction -/

/-- `np.argmax` that raises on an empty list. -/
def argmaxE (l : List K) : Except GErr ℕ :=
  match Phd.argmax l with
  | some i => .ok i
  | none => .error .index

/-- `_extract_helper` (tracker.py:2482-2493) for one time step. -/
def bestState (x : List K × List S × List C) : Except GErr (S × C) :=
  match argmaxE x.1 with
  | .error e => .error e
  | .ok i =>
    match getE x.2.1 i, getE x.2.2 i with
    | .ok s, .ok c => .ok (s, c)
    | _, _ => .error .index

/-- The new `_ExtractHistHelper` of a track (tracker.py:2501-2507 and 2482-2493). -/
def mkExt (e : Entry K τ F S C) : Except GErr (Ext τ S C) :=
  if e.wHist.length = e.sHist.length ∧ e.sHist.length = e.cHist.length then
    match traverseE bestState (e.wHist.zip (e.sHist.zip e.cHist)) with
    | .error e => .error e
    | .ok l => .ok
      { label := e.label, mHist := e.mHist, tIdx := e.tIdx,
        states := l.map Prod.fst, covs := l.map Prod.snd }
  else .error .malformed

/-- The lists in `used_meas_inds = [[]] * n` are one and the same list object (tracker.py:2496), so one
list `used` is enough; only the range of the time index is checked (tracker.py:2511-2514). -/
def addUsed (cntr tIdx : ℕ) : List (Option ℕ × ℕ) → List ℕ → Except GErr (List ℕ)
  | [], used => .ok used
  | (none, _) :: l, used => addUsed cntr tIdx l used
  | (some m, k) :: l, used =>
    if tIdx + k < cntr then addUsed cntr tIdx l (if m ∈ used then used else used ++ [m])
    else .error .index

/-- `used_meas_inds` after all tracks of the hypothesis (tracker.py:2499-2514). -/
def allUsed (cntr : ℕ) : List (Ext τ S C) → List ℕ → Except GErr (List ℕ)
  | [], used => .ok used
  | e :: es, used =>
    match addUsed cntr e.tIdx e.mHist.zipIdx used with
    | .error x => .error x
    | .ok used' => allUsed cntr es used'

/-- Whether an old history shares a measurement (tracker.py:2522-2526). -/
def clashes (cntr tIdx : ℕ) (used : List ℕ) : List (Option ℕ × ℕ) → Except GErr Bool
  | [] => .ok false
  | (none, _) :: l => clashes cntr tIdx used l
  | (some m, k) :: l =>
    if tIdx + k < cntr then (if m ∈ used then .ok true else clashes cntr tIdx used l)
    else .error .index

variable [DecidableEq τ]

/-- Old histories that are kept (tracker.py:2516-2530). -/
def keepOld (cntr : ℕ) (labels : List (τ × ℕ)) (used : List ℕ) :
    List (Ext τ S C) → Except GErr (List (Ext τ S C))
  | [] => .ok []
  | e :: es =>
    if e.label ∈ labels then keepOld cntr labels used es
    else
      match clashes cntr e.tIdx used e.mHist.zipIdx with
      | .error x => .error x
      | .ok b =>
        match keepOld cntr labels used es with
        | .error x => .error x
        | .ok r => .ok (if b then r else e :: r)

/-- `_update_extract_hist` (tracker.py:2495-2531). -/
def updateExt (st : St K τ F S C) (idx : ℕ) : Except GErr (List (Ext τ S C)) :=
  match getE st.hyps idx with
  | .error e => .error e
  | .ok h =>
    match traverseE (getE st.tab) h.tracks with
    | .error e => .error e
    | .ok ents =>
      match traverseE mkExt ents with
      | .error e => .error e
      | .ok news =>
        match allUsed st.cntr news [] with
        | .error e => .error e
        | .ok used =>
          match keepOld st.cntr (news.map fun e => e.label) used st.ext with
          | .error e => .error e
          | .ok old => .ok (old ++ news)

/-- Appending `x` at position `i` (tracker.py:2576-2583). -/
def appendAt {α : Type*} (l : List (List α)) (i : ℕ) (x : α) : List (List α) :=
  l.modify i (fun y => y ++ [x])

/-- Reporting one history (tracker.py:2572-2583); the state is `(states, labels, covs)`. -/
def reportOne (cntr : ℕ) (label : τ × ℕ) (tIdx : ℕ) :
    List ((S × C) × ℕ) → List (List S) × List (List (τ × ℕ)) × List (List C) →
      Except GErr (List (List S) × List (List (τ × ℕ)) × List (List C))
  | [], r => .ok r
  | ((s, c), k) :: l, r =>
    if tIdx + k < cntr then
      reportOne cntr label tIdx l
        (appendAt r.1 (tIdx + k) s, appendAt r.2.1 (tIdx + k) label, appendAt r.2.2 (tIdx + k) c)
    else .error .index

/-- Reporting all histories (tracker.py:2570-2583). -/
def report (cntr : ℕ) : List (Ext τ S C) → List (List S) × List (List (τ × ℕ)) × List (List C) →
      Except GErr (List (List S) × List (List (τ × ℕ)) × List (List C))
  | [], r => .ok r
  | e :: es, r =>
    match reportOne cntr e.label e.tIdx (e.states.zip e.covs).zipIdx r with
    | .error x => .error x
    | .ok r' => report cntr es r'

/-- `weight_per_hyp * (tracks_per_hyp == card)` (tracker.py:2566). -/
def maskedWeights (card : ℕ) (hyps : List (Hyp K)) : List K :=
  hyps.map fun h => if h.tracks.length = card then h.prob else 0

/-- `extract_states` (tracker.py:2533-2590): the new state and the returned index. -/
def extract (update calcS : Bool) (st : St K τ F S C) :
    Except GErr (St K τ F S C × Option ℕ) :=
  match argmaxE st.card with
  | .error e => .error e
  | .ok card =>
    let blank : St K τ F S C := { st with
      states := List.replicate st.cntr [], labels := List.replicate st.cntr []
      covs := List.replicate st.cntr [] }
    if st.hyps = [] then .ok (blank, none)
    else
      match argmaxE (maskedWeights card st.hyps) with
      | .error e => .error e
      | .ok idx =>
        match (if update then updateExt blank idx else .ok blank.ext) with
        | .error e => .error e
        | .ok ext =>
          if calcS then
            match report st.cntr ext (blank.states, blank.labels, blank.covs) with
            | .error e => .error e
            | .ok r => .ok ({ blank with ext := ext, states := r.1, labels := r.2.1, covs := r.2.2 },
                some idx)
          else .ok ({ blank with ext := ext }, some idx)

/-- `cleanup` (tracker.py:2708-2749). -/
def cleanup (env : Env K τ F S C Z) (pr : Params K) (bp bc be update calcS : Bool)
    (st : St K τ F S C) : Except GErr (St K τ F S C) :=
  match (if bp then prune pr { st with cntr := st.cntr + 1 } else .ok { st with cntr := st.cntr + 1 }) with
  | .error e => .error e
  | .ok s1 =>
    match (if bc then cap env pr s1 else .ok s1) with
    | .error e => .error e
    | .ok s2 =>
      if be then
        match extract update calcS s2 with
        | .error e => .error e
        | .ok (s3, _) => .ok s3
      else .ok s2

/-- Setting the probability of hypothesis `idx` to zero (tracker.py:2627, 2641). -/
def zeroAt (st : St K τ F S C) (idx : ℕ) : St K τ F S C :=
  { st with hyps := st.hyps.modify idx fun h => { h with prob := 0 } }

/-- The `while True` loop of `extract_most_prob_states` (tracker.py:2628-2644) with a bound on the number
of rounds (`none`: still running); collects the extracted label lists and probabilities. -/
def mostProbLoop (thresh : K) : ℕ → St K τ F S C → List (List (List (τ × ℕ)) × K) →
    Except GErr (Option (List (List (List (τ × ℕ)) × K)))
  | 0, _, _ => .ok none
  | n + 1, st, acc =>
    match extract true true st with
    | .error e => .error e
    | .ok (_, none) => .ok (some acc)
    | .ok (st', some idx) =>
      match st'.hyps[idx]? with
      | none => .error .index
      | some h =>
        if thresh ≤ h.prob then mostProbLoop thresh n (zeroAt st' idx) (acc ++ [(st'.labels, h.prob)])
        else .ok (some acc)

/-- `extract_most_prob_states` (tracker.py:2592-2646), on a deep copy of the filter. -/
def mostProb (thresh : K) (fuel : ℕ) (st : St K τ F S C) :
    Except GErr (Option (List (List (List (τ × ℕ)) × K))) :=
  match extract true true st with
  | .error e => .error e
  | .ok (_, none) => .ok (some [])
  | .ok (st', some idx) =>
    match st'.hyps[idx]? with
    | none => .error .index
    | some h => mostProbLoop thresh fuel (zeroAt st' idx) [(st'.labels, h.prob)]

/-! ### Sequences of calls -/

/-- A call on the filter. -/
inductive Op (K τ F S C Z : Type*)
  | predict (env : Env K τ F S C Z) (lab : τ) (births : List (Birth K F S C))
  | correct (env : Env K τ F S C Z) (meas : List Z)
  | cleanup (env : Env K τ F S C Z) (bp bc be update calcS : Bool)
  | extract (update calcS : Bool)

/-- One call. -/
def step (pr : Params K) (st : St K τ F S C) : Op K τ F S C Z → Except GErr (St K τ F S C)
  | .predict env lab births => predict env pr lab births st
  | .correct env meas => correct env pr meas st
  | .cleanup env bp bc be u c => cleanup env pr bp bc be u c st
  | .extract u c =>
    match extract u c st with
    | .error e => .error e
    | .ok (s, _) => .ok s

/-- A sequence of calls. -/
def run (pr : Params K) (st : St K τ F S C) : List (Op K τ F S C Z) → Except GErr (St K τ F S C)
  | [] => .ok st
  | o :: os =>
    match step pr st o with
    | .error e => .error e
    | .ok s => run pr s os

/-- A new filter (tracker.py:1870-1889): one hypothesis with no track. -/
def init : St K τ F S C :=
  { tab := [], hyps := [{ prob := 1, tracks := [] }], card := [], cntr := 0, ext := [], states := [],
    labels := [], covs := [] }

end field

end Gasur.Glmb
