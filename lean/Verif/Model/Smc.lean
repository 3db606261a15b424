import Verif.Model.Glmb

/-!
# Model of the particle (SMC) and Student's t (STM) variants of the GLMB filters

Source: `/repo/src/gasur/swarm_estimator/tracker.py`, classes `_SMCGLMBBase` (lines 3247-3407) and `_STMGLMBBase`
(lines 3188-3203). Both classes only replace methods of the GLMB filter, so that their filters are the GLMB filter
(`Verif/Model/Glmb.lean`) with another inner filter; `smcEnv` is that environment.

* The particle filter of gncpy is a parameter. Its state is its particle distribution (particles and weights) and `rest`,
  whatever else it saves.
* `compute_prob_survive` and `compute_prob_detection` return one number per particle; their extra arguments
  (`_prob_surv_args`, `_prob_det_args`) are part of the functions. `zipWith` stands for the elementwise products of
  arrays of equal length.
* Weights that sum to zero or infinity (the NaN and `inf` branch at tracker.py:3295-3298) are outside the model.
* `save_covs = True`, as in `Verif/Model/Glmb.lean`.
* `extract_most_prob_states` (tracker.py:3395-3407) only issues a warning.
-/

namespace Gasur.Smc

open Gasur.Glmb

/-- State of the particle filter, from `save_filter_state`: the particles and weights of `_particleDist` and the rest. -/
structure PState (K X G : Type*) where
  parts : List X
  ws : List K
  rest : G

/-- The particle filter: `predict` (new state, estimate), `correct` (`none`: one of the exceptions caught by the tracker;
otherwise new state, estimate, likelihood of each particle) and the attribute `cov`. -/
structure PFilter (K X G S C Z : Type*) where
  predict : PState K X G → PState K X G × S
  correct : Z → PState K X G → Option (PState K X G × S × List K)
  cov : PState K X G → C

variable {K τ X G S C Z : Type*} [Field K] [LinearOrder K]

/-- A distribution object passed as birth term: particles, weights, mean and covariance. -/
structure Dist (K X S C : Type*) where
  parts : List X
  ws : List K
  mean : S
  cov : C

/-- `_init_filt_states` (tracker.py:3259-3269) and the birth probability: one filter state holding the particles, the
weight 1; `rest` is the remaining state of `_baseFilter`. -/
def smcBirth (rest : G) (d : Dist K X S C) (p : K) : Birth K (PState K X G) S C :=
  { fStates := [⟨d.parts, d.ws, rest⟩], ws := [1], states := [d.mean], covs := [d.cov], prob := p }

/-- `np.sum(weights * q(particles))` for the first filter state of an entry (tracker.py:3271-3283, 3328-3340). An entry
without filter states (`IndexError`) does not occur. -/
def avgProb (q : List X → List K) (e : Entry K τ (PState K X G) S C) : K :=
  match e.fStates with
  | [] => 0
  | f :: _ => (List.zipWith (· * ·) f.ws (q f.parts)).sum

/-- `update_weights` with normalised weights (tracker.py:3294-3299, 3352-3353). -/
def normTo (f : PState K X G) (l : List K) : PState K X G := { f with ws := l.map fun w => w / l.sum }

/-- `_inner_predict` (tracker.py:3285-3312). -/
def innerPredict (pf : PFilter K X G S C Z) (ps : List X → List K) (f : PState K X G) (s : S) : PState K X G × S × C :=
  if f.parts = [] then (f, s, pf.cov f)
  else
    let g := (pf.predict f).1
    let f' := normTo g (List.zipWith (· * ·) g.ws (ps g.parts))
    (f', (pf.predict f).2, pf.cov f')

/-- `pd_weight` (tracker.py:3352). -/
def detWeights (eps : K) (pd : List X → List K) (f : PState K X G) : List K :=
  List.zipWith (fun d w => d * w + eps) (pd f.parts) f.ws

/-- `_inner_correct` (tracker.py:3342-3374); the weight of the mixture component is not used. -/
def innerCorrect (eps : K) (pf : PFilter K X G S C Z) (pd : List X → List K) (z : Z) (f : PState K X G) (s : S) (_ : K) :
    Option (PState K X G × S × C × K) :=
  if f.parts = [] then some (f, s, pf.cov f, 0)
  else
    match pf.correct z f with
    | none => none
    | some (g, s', likely) =>
      let f' := normTo g (detWeights eps pd g)
      some (f', s', pf.cov f', (List.zipWith (· * ·) likely (detWeights eps pd g)).sum)

/-- The SMC-GLMB filter is the GLMB filter with this environment (method resolution order, tracker.py:3411-3412).
`predict` and `correct` (tracker.py:3314-3326, 3376-3393) store the extra arguments and call the parent. -/
def smcEnv (num : Num K) (sortInds : (n : ℕ) → (Fin n → WithTop K) → Equiv.Perm (Fin n)) (argsort : List K → List ℕ) (eps : K)
    (pf : PFilter K X G S C Z) (ps pd : List X → List K) : Env K τ (PState K X G) S C Z :=
  { num := num, sortInds := sortInds, argsort := argsort, predF := innerPredict pf ps, corF := innerCorrect eps pf pd,
    psurv := avgProb ps, pdet := avgProb pd }

/-! ### Gaussian mixtures -/

/-- State of a Kalman filter: covariance and the rest (with the sigma points of an unscented filter). -/
structure KState (P G : Type*) where
  cov : P
  rest : G

/-- A Gaussian mixture passed as birth term. -/
structure GDist (K S P : Type*) where
  means : List S
  covs : List P
  ws : List K

/-- Loop of `_init_filt_states` (tracker.py:2033-2038) over the components: the saved states and `_baseFilter`
afterwards. `sig m c g` is the rest of the state after `init_sigma_points(m)`; for a filter without sigma points it
is `g`. -/
def gmLoop {P : Type*} (sig : S → P → G → G) : KState P G → List (S × P) → List (KState P G) × KState P G
  | base, [] => ([], base)
  | base, (m, c) :: l =>
    let b : KState P G := { cov := c, rest := sig m c base.rest }
    (b :: (gmLoop sig b l).1, (gmLoop sig b l).2)

/-- `_init_filt_states` of the GLMB class (tracker.py:2025-2040) and `_baseFilter` afterwards. -/
def gmBirth {P : Type*} (sig : S → P → G → G) (base : KState P G) (d : GDist K S P) (p : K) :
    Birth K (KState P G) S P × KState P G :=
  ({ fStates := (gmLoop sig base (d.means.zip d.covs)).1, ws := d.ws, states := d.means, covs := d.covs, prob := p },
   (gmLoop sig base (d.means.zip d.covs)).2)

/-- The loop over the birth terms (tracker.py:2042-2058), starting with `_baseFilter = base`. -/
def gmBirths {P : Type*} (sig : S → P → G → G) : KState P G → List (GDist K S P × K) → List (Birth K (KState P G) S P)
  | _, [] => []
  | base, d :: l => (gmBirth sig base d.1 d.2).1 :: gmBirths sig (gmBirth sig base d.1 d.2).2 l

/-! ### Student's t -/

/-- State of the Student's t filter: scale matrix, degrees of freedom and the rest. -/
structure TState (P D G : Type*) where
  scale : P
  dof : D
  rest : G

/-- A Student's t mixture passed as birth term. -/
structure TDist (K S P D : Type*) where
  means : List S
  scalings : List P
  ws : List K
  dof : D

/-- `_init_filt_states` of the STM class (tracker.py:3192-3207): `base` is `_baseFilter`, `work` is `filter`, `cov` the
attribute of that name. The second component is `_baseFilter` afterwards. Equally many means and scalings. -/
def stmBirth {P D : Type*} (cov : TState P D G → C) (work base : TState P D G) (d : TDist K S P D) (p : K) :
    Birth K (TState P D G) S C × TState P D G :=
  ({ fStates := d.scalings.map fun s => { base with scale := s, dof := d.dof }
     ws := d.ws, states := d.means, covs := d.scalings.map fun _ => cov work, prob := p },
   { base with scale := (d.scalings.getLast?).getD base.scale, dof := d.dof })

/-- The loop over the birth terms (tracker.py:2042-2058), starting with `_baseFilter = base`. -/
def stmBirths {P D : Type*} (cov : TState P D G → C) (work : TState P D G) :
    TState P D G → List (TDist K S P D × K) → List (Birth K (TState P D G) S C)
  | _, [] => []
  | base, d :: l => (stmBirth cov work base d.1 d.2).1 :: stmBirths cov work (stmBirth cov work base d.1 d.2).2 l

end Gasur.Smc
