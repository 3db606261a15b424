import Verif.Proofs.Smc
import Verif.Props.GlmbBest
import Verif.Props.Jglmb

/-!
# Properties C86–C90: the particle (SMC) variant of the GLMB filter
-/

set_option linter.unusedSectionVars false

namespace Gasur.Props

open Gasur.Glmb Gasur.Smc Gasur.Spec

variable {K τ X G S C Z : Type*} [Field K] [LinearOrder K] [IsStrictOrderedRing K] [FloorRing K]
  [DecidableEq τ]

/-! ### C86 -/

/-- One time step of the SMC-GLMB filter: the numerical functions, the particle filter, the probabilities of survival and
detection, the time, the birth terms with their probabilities, the rest of the filter state of a new track, the
measurements and the flags of `cleanup`. -/
structure SmcRound (K τ X G S C Z : Type*) where
  num : Num K
  sortInds : (n : ℕ) → (Fin n → WithTop K) → Equiv.Perm (Fin n)
  argsort : List K → List ℕ
  pf : PFilter K X G S C Z
  ps : List X → List K
  pd : List X → List K
  lab : τ
  rest : G
  births : List (Dist K X S C × K)
  meas : List Z
  flags : Bool × Bool × Bool × Bool × Bool

/-- The calls of a time step: `predict`, `correct`, `cleanup`. -/
def SmcRound.round (pr : Params K) (r : SmcRound K τ X G S C Z) : Round K τ (PState K X G) S C Z :=
  { env := smcEnv r.num r.sortInds r.argsort pr.eps r.pf r.ps r.pd, lab := r.lab
    births := r.births.map fun b => smcBirth r.rest b.1 b.2, meas := r.meas, flags := r.flags }

/-- What the user must provide in a time step: particles with normalised weights and a probability in `[0, 1)` for
each birth, a particle filter that keeps the weights normalised and returns non-negative likelihoods, survival
probabilities in an interval `[a, b]` inside `(0, 1)`, detection probabilities in `[0, d]` with `d < 1`; no log-odds of a
positive birth probability or of a number in `[a, b]` is non-zero but smaller than `eps`. -/
structure SmcRound.OK (pr : Params K) (r : SmcRound K τ X G S C Z) : Prop where
  births : ∀ b ∈ r.births, IsParticleDist (⟨b.1.parts, b.1.ws, r.rest⟩ : PState K X G) ∧ 0 ≤ b.2 ∧ b.2 < 1
  filter : GoodFilter r.pf
  surv : ∃ a b, 0 < a ∧ b < 1 ∧ (∀ xs, (r.ps xs).length = xs.length ∧ ∀ p ∈ r.ps xs, a ≤ p ∧ p ≤ b) ∧
    ∀ p, ((∃ b ∈ r.births, p = b.2) ∨ (a ≤ p ∧ p ≤ b)) →
      p = 0 ∨ r.num.negLog (p / (1 - p)) = 0 ∨ pr.eps ≤ |r.num.negLog (p / (1 - p))|
  det : ∃ d, d < 1 ∧ ∀ xs, (r.pd xs).length = xs.length ∧ ∀ p ∈ r.pd xs, 0 ≤ p ∧ p ≤ d
  exp : ∀ x, 0 < r.num.expNeg x
  sqrt : ∀ x, 0 < x → 0 < r.num.sqrt x
  argsort : ∀ ws, IsArgsort ws (r.argsort ws)

/-- **C86.** Running any number of time steps on a new SMC-GLMB filter never raises, whatever the measurements and flags,
and afterwards the particle weights of every track form a probability distribution. -/
theorem C86_smc_never_fails (pr : Params K) (heps : 0 < pr.eps) (hcl : 0 < pr.clutterRate * pr.clutterDen)
    (rounds : List (SmcRound K τ X G S C Z)) (hok : ∀ r ∈ rounds, r.OK pr) :
    ∃ st, run pr init ((rounds.map (SmcRound.round pr)).flatMap Round.ops) = .ok st ∧ (∀ h ∈ st.hyps, 0 < h.prob) ∧
      ∀ e ∈ st.tab, e.fStates ≠ [] ∧ ∀ f ∈ e.fStates, IsParticleDist f := by
  refine C50_never_fails pr heps hcl IsParticleDist _ ?_
  intro r' hr'
  obtain ⟨r, hr, rfl⟩ := List.mem_map.1 hr'
  obtain ⟨h1, h2, ⟨a, b, ha, hb, h3, h4⟩, ⟨d, hd, h5⟩, h6, h7, h8⟩ := hok r hr
  have hps := fun (e : Entry K τ (PState K X G) S C) (he : ValidEntry IsParticleDist e) =>
    avgProb_bounds (fun xs => (h3 xs).1) (fun xs => (h3 xs).2) he.1 he.2
  refine ⟨?_, ?_, h6, h7, ?_, ?_, ?_, h8, ?_, ?_, ?_⟩
  · intro b' hb'
    obtain ⟨x, hx, rfl⟩ := List.mem_map.1 hb'
    exact ⟨rfl, rfl, rfl, by simp [smcBirth], (h1 x hx).2.1, (h1 x hx).2.2⟩
  · rintro p (⟨b', hb', rfl⟩ | ⟨e, he, rfl⟩)
    · obtain ⟨x, hx, rfl⟩ := List.mem_map.1 hb'
      exact h4 _ (.inl ⟨x, hx, rfl⟩)
    · exact h4 _ (.inr (hps e he))
  · intro e he
    exact ⟨(lt_of_lt_of_le ha (hps e he).1).le, lt_of_le_of_lt (hps e he).2 hb⟩
  · intro e he
    exact lt_of_le_of_lt (avgProb_bounds (fun xs => (h5 xs).1) (fun xs => (h5 xs).2) he.1 he.2).2 hd
  · intro z f s w x hf hx
    exact (innerCorrect_dist (w := w) h2 heps (fun xs => (h5 xs).1) (fun xs => (h5 xs).2) hf hx).2
  · intro b' hb' f hf
    obtain ⟨x, hx, rfl⟩ := List.mem_map.1 hb'
    simp only [smcBirth, List.mem_singleton] at hf
    rw [hf]
    exact (h1 x hx).1
  · intro f s hf
    exact innerPredict_dist h2 ha (fun xs => (h3 xs).1) (fun xs => (h3 xs).2) s hf
  · intro z f s w x hf hx
    exact (innerCorrect_dist (w := w) h2 heps (fun xs => (h5 xs).1) (fun xs => (h5 xs).2) hf hx).1

/-! ### An example -/

/-- A particle filter on the line: `predict` mirrors the particles at 1/2, `correct` has the likelihood 1 for every
particle. -/
noncomputable def smcPf : PFilter ℝ ℝ Unit Unit Unit ℝ :=
  { predict := fun f => ({ f with parts := f.parts.map fun x => 1 - x }, ())
    correct := fun _ f => some (f, (), f.parts.map fun _ => 1), cov := fun _ => () }

theorem smcPf_good : GoodFilter smcPf := by
  refine ⟨?_, ?_⟩
  · rintro f ⟨h1, h2, h3, h4⟩
    exact ⟨by simpa [smcPf] using h1, by simpa [smcPf] using h2, h3, h4⟩
  · rintro z f g s likely hf h
    simp only [smcPf, Option.some.injEq, Prod.mk.injEq] at h
    obtain ⟨rfl, _, rfl⟩ := h
    refine ⟨hf, by simp, ?_⟩
    intro l hl
    obtain ⟨_, _, rfl⟩ := List.mem_map.1 hl
    norm_num

/-- The environment with survival probability `ps x` and detection probability `pd x` of a particle `x`. -/
noncomputable def smcEx (ps pd : ℝ → ℝ) : Env ℝ ℝ (PState ℝ ℝ Unit) Unit Unit ℝ :=
  smcEnv realNum (fun _ _ => Equiv.refl _) (realEnv (some (1 / 2))).argsort (1 / 2 ^ 52) smcPf (List.map ps) (List.map pd)

/-- A birth with the given particles and weights and probability 9/10. -/
noncomputable def smcB (parts ws : List ℝ) : Birth ℝ (PState ℝ ℝ Unit) Unit Unit :=
  smcBirth () ⟨parts, ws, (), ()⟩ (9 / 10)

theorem realOddsAbs : (1 / 2 ^ 52 : ℝ) ≤ |realNum.negLog ((9 / 10 : ℝ) / (1 - 9 / 10))| := by
  have h1 := realOdds
  rw [abs_of_nonpos (h1.trans (by norm_num))]
  linarith

/-- The conditions of C86 can be met: two particles at 0 and 1, survival probability 9/10, detection probability 0 or
1/2. -/
example : ∃ r : SmcRound ℝ ℝ ℝ Unit Unit Unit ℝ, r.OK (realPr 2 2 3 5) ∧ r.births ≠ [] ∧ r.meas ≠ [] := by
  refine ⟨⟨realNum, fun _ _ => Equiv.refl _, (realEnv (some (1 / 2))).argsort, smcPf, List.map fun _ => 9 / 10,
    List.map fun x => if x = 0 then 0 else 1 / 2, 0, (), [(⟨[0, 1], [1 / 4, 3 / 4], (), ()⟩, 9 / 10)], [0, 1],
    true, true, true, true, true⟩, ⟨?_, smcPf_good, ⟨9 / 10, 9 / 10, by norm_num, by norm_num, ?_, ?_⟩,
    ⟨1 / 2, by norm_num, ?_⟩, fun x => Real.exp_pos _, fun x hx => Real.sqrt_pos.2 hx, realArgsort⟩, by simp, by simp⟩
  · intro b hb
    simp only [List.mem_singleton] at hb
    subst hb
    refine ⟨⟨by simp, by simp, ?_, by norm_num⟩, by norm_num, by norm_num⟩
    intro w hw
    simp only [List.mem_cons, List.not_mem_nil, or_false] at hw
    rcases hw with rfl | rfl <;> norm_num
  · intro xs
    refine ⟨by simp, ?_⟩
    intro p hp
    obtain ⟨_, _, rfl⟩ := List.mem_map.1 hp
    exact ⟨le_rfl, le_rfl⟩
  · intro p hp
    have hp9 : p = 9 / 10 := by
      rcases hp with ⟨b, hb, rfl⟩ | ⟨h1, h2⟩
      · simp only [List.mem_singleton] at hb
        subst hb
        rfl
      · linarith
    subst hp9
    exact .inr (.inr realOddsAbs)
  · intro xs
    refine ⟨by simp, ?_⟩
    intro p hp
    obtain ⟨x, _, rfl⟩ := List.mem_map.1 hp
    split <;> norm_num

/-! ### C87: particle weights after the update -/

/-- **C87, partial.** After `correct` every track of the table comes from a track before it. If it was not detected its
filter states and its history of estimates and covariances are unchanged. If it was detected with measurement `z`, each of
its filter states `f` was replaced by the result `g` of the particle filter with weights proportional to
`p_D(x_i) w_i + eps`; its last estimates are those of the particle filter and its last covariances those of the new filter
states.
*Missing:* the weights of a track that was not detected should be multiplied by `1 - p_D(x_i)`; they are not, see
`C87_refuted`. -/
theorem C87_particles_partial (num : Num K) (sortInds : (n : ℕ) → (Fin n → WithTop K) → Equiv.Perm (Fin n))
    (argsort : List K → List ℕ) (pr : Params K) (pf : PFilter K X G S C Z) (ps pd : List X → List K)
    (st st' : St K τ (PState K X G) S C) (meas : List Z)
    (hidx : ∀ h ∈ st.hyps, h.tracks.Nodup ∧ ∀ i ∈ h.tracks, i < st.tab.length)
    (hlen : ∀ e ∈ st.tab, ∀ s w, e.sHist.getLast? = some s → e.wHist.getLast? = some w →
      s.length = e.fStates.length ∧ w.length = e.fStates.length)
    (hparts : ∀ e ∈ st.tab, ∀ f ∈ e.fStates, f.parts ≠ [])
    (h : correct (smcEnv num sortInds argsort pr.eps pf ps pd) pr meas st = .ok st') (e') (he' : e' ∈ st'.tab) :
    ∃ e ∈ st.tab, ∃ m : Option ℕ, e'.label = e.label ∧ e'.mHist = e.mHist ++ [m] ∧
      (m = none → e'.fStates = e.fStates ∧ e'.sHist = e.sHist ∧ e'.cHist = e.cHist) ∧
      ∀ j, m = some j → ∃ z ss, meas[j]? = some z ∧ e'.sHist = e.sHist.dropLast ++ [ss] ∧
        e'.cHist = e.cHist.dropLast ++ [e'.fStates.map pf.cov] ∧ ss.length = e'.fStates.length ∧
        List.Forall₂ (fun f x => ∃ g likely, pf.correct z f = some (g, x.2, likely) ∧ x.1.parts = g.parts ∧
          x.1.rest = g.rest ∧ ∃ c, x.1.ws = List.zipWith (fun p w => (p * w + pr.eps) / c) (pd g.parts) g.ws ∧
            c = (List.zipWith (fun p w => p * w + pr.eps) (pd g.parts) g.ws).sum) e.fStates (e'.fStates.zip ss) := by
  obtain ⟨e, he, m, hu⟩ := correct_tab ⟨fun h hh => (hidx h hh).2, fun h hh => (hidx h hh).1⟩ h he'
  obtain ⟨u1, u2, u3, u4, u5⟩ := isUpdate_spec hu
  refine ⟨e, he, m, u1, u3, fun hm => ⟨(u4 hm).2.2.2, (u4 hm).1, (u4 hm).2.1⟩, ?_⟩
  intro j hj
  obtain ⟨z, rs, s, w, h1, h2, h3, h4, h5, h6, h7, _⟩ := u5 j hj
  obtain ⟨l1, l2⟩ := hlen e he s w h2 h3
  have hz : e.fStates = (e.fStates.zip (s.zip w)).map Prod.fst := by
    rw [List.map_fst_zip]
    rw [List.length_zip, l1, l2]
    omega
  have key : List.Forall₂ (fun (x : PState K X G × S × K) (r : PState K X G × S × C × K) =>
      r.2.2.1 = pf.cov r.1 ∧ ∃ g likely, pf.correct z x.1 = some (g, r.2.1, likely) ∧ r.1.parts = g.parts ∧
          r.1.rest = g.rest ∧ ∃ c, r.1.ws = List.zipWith (fun p w => (p * w + pr.eps) / c) (pd g.parts) g.ws ∧
            c = (List.zipWith (fun p w => p * w + pr.eps) (pd g.parts) g.ws).sum) (e.fStates.zip (s.zip w)) rs := by
    refine (forall₂_and_mem_left h4).imp ?_
    rintro ⟨f, x⟩ r ⟨hr, hm⟩
    have hf : f.parts ≠ [] := hparts e he f (List.of_mem_zip hm).1
    simp only [smcEnv, innerCorrect] at hr
    rw [if_neg hf] at hr
    split at hr
    · simp at hr
    · rename_i g s' likely hc
      rw [Option.some.injEq] at hr
      subst hr
      refine ⟨rfl, g, likely, hc, rfl, rfl, _, ?_, rfl⟩
      simp only [normTo, detWeights]
      rw [List.map_zipWith]
  refine ⟨z, rs.map fun r => r.2.1, h1, h6, ?_, by rw [h5, List.length_map, List.length_map], ?_⟩
  · rw [h7, h5, List.map_map]
    congr 2
    apply List.map_congr_left
    intro r hr
    obtain ⟨x, _, hx⟩ := forall₂_mem_right key hr
    exact hx.1
  · rw [h5, List.zip_map', hz, List.forall₂_map_left_iff, List.forall₂_map_right_iff]
    exact key.imp fun x r hx => hx.2

/-- **C87, without particles.** A track without particles has likelihood zero for every measurement, and neither `predict`
nor `correct` changes its particle distributions and estimates. -/
theorem C87_no_particles (num : Num K) (sortInds : (n : ℕ) → (Fin n → WithTop K) → Equiv.Perm (Fin n))
    (argsort : List K → List ℕ) (eps : K) (pf : PFilter K X G S C Z) (ps pd : List X → List K) (z : Z)
    (e : Entry K τ (PState K X G) S C) (s : List S) (w : List K) (hs : e.sHist.getLast? = some s)
    (hw : e.wHist.getLast? = some w) (hparts : ∀ f ∈ e.fStates, f.parts = []) :
    TrackLikelihood (smcEnv num sortInds argsort eps pf ps pd) 0 z e 0 ∧
    ∀ f ∈ e.fStates, ∀ (x : S) (v : K),
      (smcEnv num sortInds argsort eps pf ps pd : Env K τ _ _ _ _).predF f x = (f, x, pf.cov f) ∧
      ∃ c, (smcEnv num sortInds argsort eps pf ps pd : Env K τ _ _ _ _).corF z f x v = some (f, x, pf.cov f, c) := by
  refine ⟨⟨s, w, (e.fStates.zip (s.zip w)).map fun x => (x.1, x.2.1, pf.cov x.1, 0), hs, hw, ?_, ?_⟩, ?_⟩
  · rw [List.forall₂_map_right_iff]
    refine List.forall₂_same.2 ?_
    rintro ⟨f, x, v⟩ hx
    simp only [smcEnv, innerCorrect]
    rw [if_pos (hparts f (List.of_mem_zip hx).1)]
  · simp [Function.comp_def]
  · intro f hf x v
    simp only [smcEnv, innerCorrect, innerPredict]
    rw [if_pos (hparts f hf), if_pos (hparts f hf)]
    exact ⟨rfl, _, rfl⟩

/-- The conditions can be met: the entry of a birth term without particles. -/
example : ∀ e ∈ birthTab (0 : ℕ) 0 [smcBirth () (⟨[], [], (), ()⟩ : Smc.Dist ℚ ℚ Unit Unit) (9 / 10 : ℚ)],
    ∃ s w, e.sHist.getLast? = some s ∧ e.wHist.getLast? = some w ∧ e.fStates.length = 1 ∧ ∀ f ∈ e.fStates, f.parts = [] := by
  intro e he
  simp only [birthTab, List.zipIdx_cons, List.zipIdx_nil, List.map_cons, List.map_nil, List.mem_singleton] at he
  subst he
  exact ⟨_, _, rfl, rfl, rfl, by simp [smcBirth]⟩

/-! Witnesses: a new filter after one `predict` with one birth. -/

theorem st1_tinv' {F S C : Type*} {b : Birth K F S C} (hb : BirthWF b) (lab : τ) : TInv 1 (st1 lab b) := by
  have hmem : ∀ e ∈ (st1 lab b).tab, e.tIdx = 0 ∧ e.sHist.length = 1 ∧ e.mHist = [] := by
    intro e he
    simp only [st1, birthTab, List.zipIdx_cons, List.zipIdx_nil, List.map_cons, List.map_nil, List.mem_singleton] at he
    subst he
    exact ⟨rfl, rfl, rfl⟩
  refine ⟨⟨?_, ?_⟩, ?_, ?_, ?_, ?_, ?_⟩
  · intro h hh i hi
    simp only [st1, List.mem_singleton] at hh
    subst hh
    simp only [List.mem_singleton] at hi
    subst hi
    simp [st1, birthTab]
  · intro h hh
    simp only [st1, List.mem_singleton] at hh
    subst hh
    simp
  · intro e he
    exact birthTab_wf (lab := lab) (cntr := 0) (births := [b]) (by
      intro b' hb'
      rw [List.mem_singleton] at hb'
      subst hb'
      exact hb) he
  · intro e he
    rw [(hmem e he).1, (hmem e he).2.1]
    simp [st1]
  · intro e he
    rw [(hmem e he).1, (hmem e he).2.2]
    simp [st1]
  · intro h hh
    simp only [st1, List.mem_singleton] at hh
    subst hh
    norm_num
  · intro x hx
    simp [st1] at hx

theorem smcB_wf (parts ws : List ℝ) : BirthWF (smcB parts ws) :=
  ⟨rfl, rfl, rfl, by simp [smcB, smcBirth], by norm_num [smcB, smcBirth], by norm_num [smcB, smcBirth]⟩

/-- The only entry of the table. -/
noncomputable def smcE (parts ws : List ℝ) : Entry ℝ ℝ (PState ℝ ℝ Unit) Unit Unit :=
  { label := (0, 0), wHist := [[1]], fStates := [⟨parts, ws, ()⟩], mHist := [], sHist := [[()]], cHist := [[()]], tIdx := 0 }

theorem smcTab (parts ws : List ℝ) : (st1 (0 : ℝ) (smcB parts ws)).tab = [smcE parts ws] := rfl

/-- Conditions of the example. -/
structure SmcOk (parts ws : List ℝ) (ps pd : ℝ → ℝ) : Prop where
  dist : IsParticleDist (⟨parts, ws, ()⟩ : PState ℝ ℝ Unit)
  surv : 0 < (List.zipWith (· * ·) ws (parts.map ps)).sum ∧ (List.zipWith (· * ·) ws (parts.map ps)).sum < 1
  odds : realNum.negLog ((List.zipWith (· * ·) ws (parts.map ps)).sum / (1 - (List.zipWith (· * ·) ws (parts.map ps)).sum)) = 0 ∨
    (1 / 2 ^ 52 : ℝ) ≤ |realNum.negLog ((List.zipWith (· * ·) ws (parts.map ps)).sum /
      (1 - (List.zipWith (· * ·) ws (parts.map ps)).sum))|
  det : ∀ x, 0 ≤ pd x ∧ pd x < 1
  det1 : (List.zipWith (· * ·) ws (parts.map pd)).sum < 1

theorem SmcOk.env {parts ws : List ℝ} {ps pd : ℝ → ℝ} (h : SmcOk parts ws ps pd) (nb ns nu mh : ℕ) :
    EnvPos (smcEx ps pd) (realPr nb ns nu mh) [smcE parts ws] := by
  refine ⟨fun x => Real.exp_pos _, fun x hx => Real.sqrt_pos.2 hx, ?_, ?_, ?_, ?_, realArgsort⟩
  · intro e he
    rw [List.mem_singleton] at he
    subst he
    exact .inr h.odds
  · intro e he
    rw [List.mem_singleton] at he
    subst he
    exact ⟨h.surv.1.le, h.surv.2⟩
  · intro e he
    rw [List.mem_singleton] at he
    subst he
    exact h.det1
  · intro e he f hf z s w x hx
    rw [List.mem_singleton] at he
    subst he
    simp only [smcE, List.mem_singleton] at hf
    subst hf
    refine (innerCorrect_dist (z := z) (s := s) (w := w) (eps := 1 / 2 ^ 52) (d := 1) smcPf_good (by positivity) (fun xs => by simp) ?_ h.dist hx).2
    intro xs p hp
    obtain ⟨y, _, rfl⟩ := List.mem_map.1 hp
    exact ⟨(h.det y).1, (h.det y).2.le⟩

theorem smcPredict (parts ws : List ℝ) (ps pd : ℝ → ℝ) (ns nu mh : ℕ) :
    predict (smcEx ps pd) (realPr 1 ns nu mh) 0 [smcB parts ws] init = .ok (st1 0 (smcB parts ws)) :=
  predict_st1 (by norm_num [realPr]) rfl 0 (by norm_num [smcB, smcBirth]) (by norm_num [smcB, smcBirth])
    (fun x => Real.exp_pos _) realOdds

theorem smcCorrect {parts ws : List ℝ} {ps pd : ℝ → ℝ} (h : SmcOk parts ws ps pd) (ns nu mh : ℕ) (meas : List ℝ) :
    ∃ st', correct (smcEx ps pd) (realPr 1 ns nu mh) meas (st1 0 (smcB parts ws)) = .ok st' ∧ TInv 1 st' := by
  obtain ⟨st', h1, h2, _⟩ := correct_total (env := smcEx ps pd) (pr := realPr 1 ns nu mh)
    (st := st1 (0 : ℝ) (smcB parts ws)) (by norm_num [realPr]) (by rw [smcTab]; exact h.env _ _ _ _) (by norm_num [realPr]) meas
    (st1_tinv' (smcB_wf parts ws) (0 : ℝ)) (by
      intro e he
      rw [smcTab, List.mem_singleton] at he
      subst he
      simp [smcE, st1])
  exact ⟨st', h1, h2⟩

/-- The hypotheses of the example after `correct`. -/
theorem smcBest {parts ws : List ℝ} {ps pd : ℝ → ℝ} (h : SmcOk parts ws ps pd)
    (hd : 0 < (List.zipWith (· * ·) ws (parts.map pd)).sum) (ns nu mh : ℕ) {meas : List ℝ}
    (hm : meas = [] ∨ 2 ≤ nu ∧ ∃ z, meas = [z]) {st'}
    (hc : correct (smcEx ps pd) (realPr 1 ns nu mh) meas (st1 0 (smcB parts ws)) = .ok st') :
    ∃ Zc, Zc ≠ 0 ∧ ∀ a : Option ℕ, (∀ j, a = some j → j < meas.length) → ∃ h' ∈ st'.hyps,
      h'.prob * Zc = Real.exp (-1) * (match a with
        | none => 1 - (List.zipWith (· * ·) ws (parts.map pd)).sum
        | some _ => (List.zipWith (· * ·) ws (parts.map pd)).sum *
          ((List.zipWith (· * ·) (parts.map fun _ => 1) (List.zipWith (fun d w => d * w + 1 / 2 ^ 52) (parts.map pd) ws)).sum
            + 1 / 2 ^ 52)) ∧
      ∃ t' e', h'.tracks = [t'] ∧ st'.tab[t']? = some e' ∧ e'.mHist = [a] := by
  have hpne := h.dist.1
  have hL : ∀ z, TrackLikelihood (smcEx ps pd) (realPr 1 ns nu mh).eps z (smcE parts ws)
      ((List.zipWith (· * ·) (parts.map fun _ => 1) (List.zipWith (fun d w => d * w + 1 / 2 ^ 52) (parts.map pd) ws)).sum
            + 1 / 2 ^ 52) := by
    intro z
    refine ⟨[()], [1], [(normTo ⟨parts, ws, ()⟩ (detWeights (1 / 2 ^ 52) (List.map pd) ⟨parts, ws, ()⟩), (), (),
      (List.zipWith (· * ·) (parts.map fun _ => 1) (List.zipWith (fun d w => d * w + 1 / 2 ^ 52) (parts.map pd) ws)).sum)],
      rfl, rfl, .cons ?_ .nil, ?_⟩
    · simp only [smcEx, smcEnv, innerCorrect]
      rw [if_neg hpne]
      rfl
    · simp [realPr]
  have hlpos : 0 < (List.zipWith (· * ·) (parts.map fun _ => 1)
      (List.zipWith (fun d w => d * w + 1 / 2 ^ 52) (parts.map pd) ws)).sum + 1 / 2 ^ 52 := by
    refine add_pos_of_nonneg_of_pos (List.sum_nonneg (zipWith_nonneg ?_)) (by positivity)
    intro a ha b hb
    obtain ⟨_, _, rfl⟩ := List.mem_map.1 ha
    rw [one_mul]
    refine zipWith_nonneg ?_ b hb
    intro p hp w hw
    obtain ⟨y, _, rfl⟩ := List.mem_map.1 hp
    have := mul_nonneg (h.det y).1 (h.dist.2.2.1 w hw)
    positivity
  obtain ⟨Zc, hZ, kids, k1, -, k2⟩ := C85_best_associations _ _ realNum_add (by simp [realNum, smcEx, smcEnv])
    (fun x hx => by simp only [smcEx, smcEnv, realNum, neg_neg]; exact Real.exp_log hx)
    (fun x y hxy => Real.exp_le_exp.2 (by linarith)) (fun x => Real.exp_pos _) (fun x => Real.sqrt_nonneg x) _ st' _
    (fun _ => (List.zipWith (· * ·) ws (parts.map pd)).sum) (fun _ _ => _) (by
      intro t e he
      have := List.mem_of_getElem? he
      rw [smcTab, List.mem_singleton] at this
      subst this
      exact ⟨rfl, hd, h.det1⟩) (by
      intro t e j z he _
      have := List.mem_of_getElem? he
      rw [smcTab, List.mem_singleton] at this
      subst this
      exact ⟨hL z, hlpos⟩) (st1_tinv' (smcB_wf parts ws) (0 : ℝ)).idx.range
      (fun h hh => ((st1_tinv' (smcB_wf parts ws) (0 : ℝ)).pos h hh).le) hc
  rw [show (st1 (0 : ℝ) (smcB parts ws)).hyps = [⟨1, [0]⟩] from rfl] at k1 k2
  cases k1 with
  | cons h1 h2 =>
    rename_i ks rest
    cases h2
    have hall : ∀ a : Option ℕ, (∀ j, a = some j → j < meas.length) → [a] ∈ ks := by
      rcases hm with rfl | ⟨hnu, z, rfl⟩
      · intro a ha
        rw [if_pos (.inr rfl)] at h1
        rw [h1]
        cases a with
        | none => simp
        | some j => exact absurd (ha j rfl) (by simp)
      · rw [if_neg (by simp)] at h1
        obtain ⟨k, hk, q1, q2, q3, q4, q5⟩ := h1
        have hk2 : 2 ≤ k := by
          have hs : (smcEx ps pd).num.sqrt 1 = 1 := Real.sqrt_one
          simp only [List.map_cons, List.map_nil, List.sum_cons, List.sum_nil, add_zero] at hk
          rw [hs, show (realPr 1 ns nu mh).reqUpd = nu from rfl, abs_le] at hk
          have a0 : (2 : ℝ) ≤ nu := by exact_mod_cast hnu
          have a1 : (1 : ℝ) < k := by
            have := hk.1
            rw [mul_one, div_one] at this
            linarith
          have : 1 < k := by exact_mod_cast a1
          omega
        have i0 : ∀ o : Option ℕ, (∀ j, o = some j → j < 1) → IsAssoc 1 1 [o] := by
          intro o ho
          refine ⟨rfl, fun j hj => ho j (List.mem_singleton.1 hj).symm, ?_⟩
          intro i i' j h1 h2
          rw [List.getElem?_eq_some_iff] at h1 h2
          obtain ⟨h1, _⟩ := h1
          obtain ⟨h2, _⟩ := h2
          simp only [List.length_cons, List.length_nil] at h1 h2
          omega
        intro a ha
        by_contra hn
        have hlen := (q5 [a] (i0 a ha) hn).1
        have hsub : ([a] :: ks) ⊆ [[none], [some 0]] := by
          intro b hb
          have hb1 : IsAssoc 1 1 b := by
            rcases List.mem_cons.1 hb with rfl | hb
            · exact i0 a ha
            · exact q2 b hb
          obtain ⟨g1, g2, _⟩ := hb1
          obtain ⟨o, rfl⟩ := List.length_eq_one_iff.1 g1
          cases o with
          | none => simp
          | some j =>
            have := g2 j (by simp)
            have : j = 0 := by omega
            subst this
            simp
        have := (List.subperm_of_subset (List.nodup_cons.2 ⟨hn, q1⟩) hsub).length_le
        simp only [List.length_cons, List.length_nil] at this
        omega
    have hyne : st'.hyps ≠ [] := by
      obtain ⟨h', hh', _⟩ := forall₂_mem_left k2 (a := (⟨1, [0]⟩, [none])) (by
        have := hall none (by simp)
        simpa [familyPairs] using this)
      exact List.ne_nil_of_mem hh'
    refine ⟨Zc, hZ hyne, ?_⟩
    intro a ha
    obtain ⟨h', hh', hp', hu1, hu2⟩ := forall₂_mem_left k2 (a := (⟨1, [0]⟩, [a])) (by
      have := hall a ha
      simpa [familyPairs] using this)
    refine ⟨h', hh', ?_, ?_⟩
    · rw [hp']
      have e1 : (smcEx ps pd).num.expNeg (realPr 1 ns nu mh).clutterRate = Real.exp (-1) := rfl
      have e2 : (realPr 1 ns nu mh).clutterRate * (realPr 1 ns nu mh).clutterDen = 1 := by norm_num [realPr]
      rw [e1, e2, one_pow, mul_one]
      cases a <;> simp [assocWeight, assocFactor]
    · obtain ⟨t', e', g1, g2, _, g4⟩ := hu2 0 0 (smcE parts ws) a rfl (by rw [smcTab]; rfl) rfl
      refine ⟨t', e', ?_, g2, by rw [g4]; rfl⟩
      obtain ⟨x, hx⟩ := List.length_eq_one_iff.1 (show h'.tracks.length = 1 from hu1)
      rw [hx] at g1 ⊢
      simpa using g1

/-- **C87, refuted.** A new track has the particles 0 and 1, both of weight 1/2; it is detected with probability 1/4 if at
0 and 3/4 if at 1. After an update without measurements the weights are unchanged; by Bayes' rule they should be multiplied
by `1 - p_D`. -/
theorem C87_refuted : ∃ (pd : ℝ → ℝ) (b : Birth ℝ (PState ℝ ℝ Unit) Unit Unit)
    (st st' : St ℝ ℝ (PState ℝ ℝ Unit) Unit Unit),
    (∀ x, 0 < pd x ∧ pd x < 1) ∧ (∀ f ∈ b.fStates, IsParticleDist f) ∧
    run (realPr 1 1 1 1) init [.predict (smcEx (fun _ => 9 / 10) pd) 0 [b]] = .ok st ∧
    run (realPr 1 1 1 1) st [.correct (smcEx (fun _ => 9 / 10) pd) []] = .ok st' ∧
    ∃ e ∈ st.tab, ∃ e' ∈ st'.tab, e'.label = e.label ∧ e'.mHist = e.mHist ++ [none] ∧
      ∃ f f', e.fStates = [f] ∧ e'.fStates = [f'] ∧ ¬ IsReweighted (fun x => 1 - pd x) f f' := by
  have hok : SmcOk [0, 1] [1 / 2, 1 / 2] (fun _ => 9 / 10) (fun x => if x = 0 then 1 / 4 else 3 / 4) := by
    refine ⟨⟨by simp, by simp, ?_, by norm_num⟩, ⟨by norm_num, by norm_num⟩, .inr ?_, ?_, by norm_num⟩
    · intro w hw
      simp only [List.mem_cons, List.not_mem_nil, or_false, or_self] at hw
      subst hw
      norm_num
    · have := realOddsAbs
      norm_num at this ⊢
      exact this
    · intro x
      split <;> norm_num
  obtain ⟨st', hc, _⟩ := smcCorrect hok 1 1 1 []
  obtain ⟨Zc, hZ, hh⟩ := smcBest hok (by norm_num) 1 1 1 (.inl rfl) hc
  obtain ⟨h', hh', _, t', e', _, he', hm'⟩ := hh none (by simp)
  have htab := fun e (he : e ∈ (st1 (0 : ℝ) (smcB [0, 1] [1 / 2, 1 / 2])).tab) =>
    List.mem_singleton.1 ((smcTab [0, 1] [1 / 2, 1 / 2]) ▸ he)
  obtain ⟨e, he, m, g1, g2, g3, _⟩ := C87_particles_partial realNum (fun _ _ => Equiv.refl _)
    (realEnv (some (1 / 2))).argsort (realPr 1 1 1 1) smcPf _ _ _ _ []
    (fun h hh => ⟨(st1_tinv' (smcB_wf [0, 1] [1 / 2, 1 / 2]) (0 : ℝ)).idx.nodup h hh,
      (st1_tinv' (smcB_wf [0, 1] [1 / 2, 1 / 2]) (0 : ℝ)).idx.range h hh⟩)
    (by
      intro e he s w h1 h2
      rw [htab e he] at h1 h2 ⊢
      simp only [smcE, List.getLast?_singleton, Option.some.injEq] at h1 h2
      subst h1 h2
      simp [smcE])
    (by
      intro e he f hf
      rw [htab e he] at hf
      simp only [smcE, List.mem_singleton] at hf
      subst hf
      simp) hc e' (List.mem_of_getElem? he')
  have hm : m = none := by
    rw [hm', htab e he] at g2
    simp only [smcE, List.nil_append, List.cons.injEq, and_true] at g2
    exact g2.symm
  have hf := (g3 hm).1
  have hee := htab e he
  refine ⟨fun x => if x = 0 then 1 / 4 else 3 / 4, smcB [0, 1] [1 / 2, 1 / 2], st1 0 (smcB [0, 1] [1 / 2, 1 / 2]), st', ?_, ?_, ?_, ?_, e, he, e', List.mem_of_getElem? he', g1, by rw [g2, hm], ⟨[0, 1], [1 / 2, 1 / 2], ()⟩,
    ⟨[0, 1], [1 / 2, 1 / 2], ()⟩, by rw [hee]; rfl, by rw [hf, hee]; rfl, ?_⟩
  · intro x
    dsimp only
    split <;> norm_num
  · intro f hf
    simp only [smcB, smcBirth, List.mem_singleton] at hf
    subst hf
    exact hok.dist
  · simp only [run, step]
    rw [smcPredict]
  · simp only [run, step]
    rw [hc]
  · rintro ⟨_, h2⟩
    norm_num [partMean] at h2

/-! ### C88: the weight of a detection -/

/-- **C88, partial.** In the SMC-GLMB filter the hypotheses after `correct` are the heaviest associations as in C85, where
the detection probability of a track is the mean over its particles and the likelihood of measurement `j` is
`Σ_i l_i (p_D(x_i) w_i + eps) + eps`, with particles, weights and likelihoods `l_i` after the filter's update.
*Missing:* a detection therefore has the factor `(Σ_i w_i p_D(x_i)) (Σ_i l_i p_D(x_i) w_i) / κ`; by Bayes' rule it is
`(Σ_i l_i p_D(x_i) w_i) / κ`, see `C88_refuted`. -/
theorem C88_detection_weight_partial (num : Num K) (sortInds : (n : ℕ) → (Fin n → WithTop K) → Equiv.Perm (Fin n))
    (argsort : List K → List ℕ) (pr : Params K) (pf : PFilter K X G S C Z) (ps : List X → List K) (pd : X → K)
    (hadd : ∀ x y, num.expNeg (x + y) = num.expNeg x * num.expNeg y)
    (hzero : num.expNeg 0 = 1) (hinv : ∀ x, 0 < x → num.expNeg (num.negLog x) = x)
    (hanti : ∀ x y, x ≤ y → num.expNeg y ≤ num.expNeg x) (hexp : ∀ x, 0 < num.expNeg x) (hsqrt : ∀ x, 0 ≤ num.sqrt x)
    (st st' : St K τ (PState K X G) S C) (meas : List Z) (f : ℕ → PState K X G) (g : ℕ → ℕ → PState K X G)
    (likely : ℕ → ℕ → List K) (s0 s1 : ℕ → S) (w0 : ℕ → K)
    (hf : ∀ (t : ℕ) (e : Entry K τ (PState K X G) S C), st.tab[t]? = some e → e.fStates = [f t] ∧ (f t).parts ≠ [] ∧
      e.sHist.getLast? = some [s0 t] ∧ e.wHist.getLast? = some [w0 t] ∧ 0 < partMean pd (f t) ∧ partMean pd (f t) < 1)
    (hg : ∀ (t : ℕ) (e : Entry K τ (PState K X G) S C) (j : ℕ) (z : Z), st.tab[t]? = some e → meas[j]? = some z →
      pf.correct z (f t) = some (g t j, s1 t, likely t j) ∧
      0 < (List.zipWith (fun l pw => l * (pd pw.1 * pw.2 + pr.eps)) (likely t j) ((g t j).parts.zip (g t j).ws)).sum + pr.eps)
    (hidx : ∀ h ∈ st.hyps, ∀ i ∈ h.tracks, i < st.tab.length) (hp : ∀ h ∈ st.hyps, 0 ≤ h.prob)
    (h : correct (smcEnv num sortInds argsort pr.eps pf ps (List.map pd)) pr meas st = .ok st') :
    ∃ Zc, (st'.hyps ≠ [] → Zc ≠ 0) ∧ ∃ kids : List (List (List (Option ℕ))),
      List.Forall₂ (fun (p : Hyp K) ks =>
        if p.tracks = [] ∨ meas = [] then ks = [List.replicate p.tracks.length none]
        else ∃ k : ℕ, |(k : K) - (pr.reqUpd : K) * num.sqrt p.prob / (st.hyps.map fun h => num.sqrt h.prob).sum| ≤ 1 / 2 ∧
          KBest p.tracks.length meas.length k
            (assocWeight (num.expNeg pr.clutterRate * (pr.clutterRate * pr.clutterDen) ^ meas.length)
              (pr.clutterRate * pr.clutterDen) (fun t => partMean pd (f t))
              (fun t j => (List.zipWith (fun l pw => l * (pd pw.1 * pw.2 + pr.eps)) (likely t j)
                ((g t j).parts.zip (g t j).ws)).sum + pr.eps) p) ks) st.hyps kids ∧
      Zc = ((familyPairs st.hyps kids).map fun x => assocWeight
        (num.expNeg pr.clutterRate * (pr.clutterRate * pr.clutterDen) ^ meas.length)
        (pr.clutterRate * pr.clutterDen) (fun t => partMean pd (f t))
        (fun t j => (List.zipWith (fun l pw => l * (pd pw.1 * pw.2 + pr.eps)) (likely t j)
          ((g t j).parts.zip (g t j).ws)).sum + pr.eps) x.1 x.2).sum ∧
      List.Forall₂ (fun (x : Hyp K × List (Option ℕ)) (h' : Hyp K) =>
        h'.prob * Zc = assocWeight (num.expNeg pr.clutterRate * (pr.clutterRate * pr.clutterDen) ^ meas.length)
          (pr.clutterRate * pr.clutterDen) (fun t => partMean pd (f t))
          (fun t j => (List.zipWith (fun l pw => l * (pd pw.1 * pw.2 + pr.eps)) (likely t j)
            ((g t j).parts.zip (g t j).ws)).sum + pr.eps) x.1 x.2 ∧
        IsUpdated st.tab st'.tab x.1 x.2 h') (familyPairs st.hyps kids) st'.hyps := by
  have hzip : ∀ (f : PState K X G), (List.zipWith (· * ·) f.ws (f.parts.map pd)).sum = partMean pd f := by
    intro f
    unfold partMean
    congr 1
    rw [List.zipWith_map_right, List.zip, List.map_zipWith, List.zipWith_comm]
  have hdet : ∀ (l : List K) (f : PState K X G), List.zipWith (· * ·) l (detWeights pr.eps (List.map pd) f) =
      List.zipWith (fun l pw => l * (pd pw.1 * pw.2 + pr.eps)) l (f.parts.zip f.ws) := by
    intro l f
    unfold detWeights
    rw [List.zipWith_map_left, ← List.map_uncurry_zip_eq_zipWith (f := fun a b => pd a * b + pr.eps),
      List.zipWith_map_right]
    rfl
  exact C85_best_associations
    (smcEnv num sortInds argsort pr.eps pf ps (List.map pd) : Env K τ (PState K X G) S C Z) pr hadd hzero hinv hanti hexp
    hsqrt st st' meas (fun t => partMean pd (f t))
    (fun t j => (List.zipWith (fun l pw => l * (pd pw.1 * pw.2 + pr.eps)) (likely t j)
            ((g t j).parts.zip (g t j).ws)).sum + pr.eps) (by
      intro t e he
      obtain ⟨h1, h2, h3, h4, h5, h6⟩ := hf t e he
      refine ⟨?_, h5, h6⟩
      simp only [smcEnv, avgProb, h1]
      exact (hzip _).symm) (by
      intro t e j z he hz
      obtain ⟨h1, h2, h3, h4, h5, h6⟩ := hf t e he
      obtain ⟨h7, h8⟩ := hg t e j z he hz
      refine ⟨⟨[s0 t], [w0 t], [(normTo (g t j) (detWeights pr.eps (List.map pd) (g t j)), s1 t,
          pf.cov (normTo (g t j) (detWeights pr.eps (List.map pd) (g t j))),
          (List.zipWith (· * ·) (likely t j) (detWeights pr.eps (List.map pd) (g t j))).sum)], h3, h4, ?_, ?_⟩, h8⟩
      · rw [h1]
        refine .cons ?_ .nil
        simp only [smcEnv, innerCorrect]
        rw [if_neg h2, h7]
      · simp only [List.map_cons, List.map_nil, List.sum_cons, List.sum_nil, add_zero]
        rw [hdet]) hidx hp h

/-- **C88, refuted.** One track with one particle, detected with probability 1/2, and one measurement of likelihood 1 and
clutter intensity 1: by Bayes' rule the odds of detection against missed detection are `Σ w p_D g / κ : 1 - Σ w p_D = 1 : 1`,
but the detection gets at most 3/4 of the other's probability. -/
theorem C88_refuted : ∃ (st st' : St ℝ ℝ (PState ℝ ℝ Unit) Unit Unit) (f : PState ℝ ℝ Unit) (h0 h1 : Hyp ℝ)
    (e0 e1 : Entry ℝ ℝ (PState ℝ ℝ Unit) Unit Unit) (t0 t1 : ℕ),
    run (realPr 1 1 2 2) init [.predict (smcEx (fun _ => 9 / 10) fun _ => 1 / 2) 0 [smcB [0] [1]]] = .ok st ∧
    run (realPr 1 1 2 2) st [.correct (smcEx (fun _ => 9 / 10) fun _ => 1 / 2) [0]] = .ok st' ∧
    st.hyps = [⟨1, [0]⟩] ∧ st.tab.map (fun e => e.fStates) = [[f]] ∧ smcPf.correct 0 f = some (f, (), [1]) ∧
    h0 ∈ st'.hyps ∧ h0.tracks = [t0] ∧ st'.tab[t0]? = some e0 ∧ e0.mHist = [none] ∧
    h1 ∈ st'.hyps ∧ h1.tracks = [t1] ∧ st'.tab[t1]? = some e1 ∧ e1.mHist = [some 0] ∧
    h1.prob * (1 - partMean (fun _ => 1 / 2) f) ≠
      h0.prob * (partMean (fun _ => 1 / 2 * 1) f / ((realPr 1 1 2 2).clutterRate * (realPr 1 1 2 2).clutterDen)) ∧
    0 < h1.prob ∧ h1.prob ≤ 3 / 4 * h0.prob := by
  have hok : SmcOk [0] [1] (fun _ => 9 / 10) (fun _ => 1 / 2) := by
    refine ⟨⟨by simp, by simp, by simp, by norm_num⟩, ⟨by norm_num, by norm_num⟩, .inr ?_, fun _ => by norm_num, by norm_num⟩
    have := realOddsAbs
    norm_num at this ⊢
    exact this
  obtain ⟨st', hc, hI⟩ := smcCorrect hok 1 2 2 [0]
  obtain ⟨Zc, hZ, hh⟩ := smcBest hok (by norm_num) 1 2 2 (.inr ⟨le_rfl, 0, rfl⟩) hc
  obtain ⟨h0, hh0, q0, t0, e0, r0, s0, u0⟩ := hh none (by simp)
  obtain ⟨h1, hh1, q1, t1, e1, r1, s1, u1⟩ := hh (some 0) (by simp)
  have p0 := hI.pos h0 hh0
  have p1 := hI.pos h1 hh1
  norm_num at q0 q1
  have hle : h1.prob ≤ 3 / 4 * h0.prob := by
    have hz : 0 < Zc := by
      by_contra hn
      have : h0.prob * Zc ≤ 0 := mul_nonpos_of_nonneg_of_nonpos p0.le (not_lt.1 hn)
      have := Real.exp_pos (-1)
      linarith
    have : h1.prob * Zc ≤ 3 / 4 * h0.prob * Zc := by
      rw [mul_assoc (3 / 4), q0, q1]
      have := Real.exp_pos (-1)
      nlinarith
    exact le_of_mul_le_mul_right this hz
  refine ⟨st1 0 (smcB [0] [1]), st', ⟨[0], [1], ()⟩, h0, h1, e0, e1, t0, t1, ?_, ?_, rfl, rfl, rfl, hh0, r0, s0, u0, hh1, r1, s1, u1, ?_, p1, hle⟩
  · simp only [run, step]
    rw [smcPredict]
  · simp only [run, step]
    rw [hc]
  · norm_num [partMean, realPr]
    intro hn
    linarith

/-! ### C89: particle weights after the prediction -/

/-- **C89, partial.** After `predict` the table consists of the new tracks followed by the old ones in order. Each filter
state `f` of an old track was replaced by the result `g` of the particle filter with weights proportional to
`w'_i p_S(x'_i)`, where `x'_i`, `w'_i` are the particles and weights of `g`; the estimates of the particle filter and the
covariances of the new filter states are appended to the history. If the filter does not change the weights
and the survival probabilities of the moved particles are the same as before, this is the correct reweighting with the
survival probabilities.
*Missing:* in general the survival probability at the particles before the motion should be used; see `C89_refuted`. -/
theorem C89_survival_weights_partial (num : Num K) (sortInds : (n : ℕ) → (Fin n → WithTop K) → Equiv.Perm (Fin n))
    (argsort : List K → List ℕ) (pr : Params K) (pf : PFilter K X G S C Z) (ps : X → K) (pd : List X → List K) (lab : τ)
    (births : List (Birth K (PState K X G) S C)) (st st' : St K τ (PState K X G) S C)
    (hparts : ∀ e ∈ st.tab, ∀ f ∈ e.fStates, f.parts ≠ [])
    (h : predict (smcEnv num sortInds argsort pr.eps pf (List.map ps) pd) pr lab births st = .ok st') :
    List.Forall₂ (fun e e' => e'.label = e.label ∧ e'.mHist = e.mHist ∧
        e'.sHist = e.sHist ++ [e.fStates.map fun f => (pf.predict f).2] ∧
        e'.cHist = e.cHist ++ [e'.fStates.map pf.cov] ∧
        List.Forall₂ (fun f f' => f'.parts = (pf.predict f).1.parts ∧
        f'.rest = (pf.predict f).1.rest ∧ IsReweighted ps (pf.predict f).1 f' ∧
        ((pf.predict f).1.ws = f.ws → (pf.predict f).1.parts.map ps = f.parts.map ps →
          f'.ws = (f.parts.zip f.ws).map fun x => x.2 * ps x.1 / partMean ps f)) e.fStates e'.fStates)
      st.tab (st'.tab.drop births.length) := by
  obtain ⟨survTab, h1, h2, _⟩ := predict_tab h
  rw [h2, ← birthTab_length (K := K) lab st.cntr births, List.drop_left]
  refine (forall₂_and_mem_left h1).imp ?_
  rintro e e' ⟨he, hmem⟩
  unfold predictEntry at he
  split at he
  · rename_i s w hs hw
    split at he
    · rename_i hlen
      rw [Except.ok.injEq] at he
      subst he
      have hgen : ∀ (fs : List (PState K X G)) (s : List S), fs.length = s.length → (∀ f ∈ fs, f.parts ≠ []) →
          List.zipWith (fun f x => ((smcEnv num sortInds argsort pr.eps pf (List.map ps) pd :
            Env K τ (PState K X G) S C Z).predF f x).2.1) fs s = fs.map (fun f => (pf.predict f).2) ∧
          List.zipWith (fun f x => ((smcEnv num sortInds argsort pr.eps pf (List.map ps) pd :
            Env K τ (PState K X G) S C Z).predF f x).2.2) fs s =
            (List.zipWith (fun f x => ((smcEnv num sortInds argsort pr.eps pf (List.map ps) pd :
            Env K τ (PState K X G) S C Z).predF f x).1) fs s).map pf.cov := by
        intro fs
        induction fs with
        | nil => intro s _ _; simp
        | cons f fs ih =>
          intro s hl hp
          cases s with
          | nil => simp at hl
          | cons x s =>
            obtain ⟨i1, i2⟩ := ih s (by simpa using hl) fun f hf => hp f (List.mem_cons_of_mem _ hf)
            have hf := hp f List.mem_cons_self
            refine ⟨?_, ?_⟩
            · rw [List.zipWith_cons_cons, List.map_cons, i1]
              simp only [smcEnv, innerPredict]
              rw [if_neg hf]
            · rw [List.zipWith_cons_cons, List.zipWith_cons_cons, List.map_cons, i2]
              simp only [smcEnv, innerPredict]
              rw [if_neg hf]
      obtain ⟨hg1, hg2⟩ := hgen e.fStates s hlen (hparts e hmem)
      refine ⟨rfl, rfl, by rw [hg1], by rw [hg2], ?_⟩
      rw [List.forall₂_iff_get]
      have hl : (List.zipWith (fun f x => ((smcEnv num sortInds argsort pr.eps pf (List.map ps) pd :
          Env K τ (PState K X G) S C Z).predF f x).1) e.fStates s).length = e.fStates.length := by
        rw [List.length_zipWith, ← hlen, min_self]
      refine ⟨hl.symm, ?_⟩
      intro i hi hi'
      have hp := hparts e hmem (e.fStates.get ⟨i, hi⟩) (List.get_mem _ _)
      have hzip : ∀ f : PState K X G, List.zipWith (· * ·) f.ws (f.parts.map ps) =
          (f.parts.zip f.ws).map fun x => x.2 * ps x.1 := by
        intro f
        rw [List.zipWith_map_right, List.zip, List.map_zipWith, List.zipWith_comm]
      have key : ∀ f : PState K X G, f.parts ≠ [] → ∀ x, ((smcEnv num sortInds argsort pr.eps pf (List.map ps) pd :
          Env K τ (PState K X G) S C Z).predF f x).1 =
          { (pf.predict f).1 with
            ws := ((pf.predict f).1.parts.zip (pf.predict f).1.ws).map fun x => x.2 * ps x.1 / partMean ps (pf.predict f).1 } := by
        intro f hf x
        simp only [smcEnv, innerPredict]
        rw [if_neg hf]
        simp only [normTo, hzip, List.map_map]
        rfl
      simp only [List.get_eq_getElem, List.getElem_zipWith]
      simp only [List.get_eq_getElem] at hp
      rw [key _ hp]
      refine ⟨rfl, rfl, ⟨rfl, rfl⟩, ?_⟩
      intro hws hps
      have : ∀ g f : PState K X G, g.ws = f.ws → g.parts.map ps = f.parts.map ps →
          (g.parts.zip g.ws).map (fun x => x.2 * ps x.1) = (f.parts.zip f.ws).map fun x => x.2 * ps x.1 := by
        intro g f h1 h2
        rw [← hzip, ← hzip, h1, h2]
      have h3 := this _ _ hws hps
      have h4 : ∀ (f : PState K X G) (c : K), (f.parts.zip f.ws).map (fun x => x.2 * ps x.1 / c) =
          ((f.parts.zip f.ws).map fun x => x.2 * ps x.1).map fun y => y / c := by
        intro f c
        rw [List.map_map]
        rfl
      simp only [partMean]
      rw [h4, h4, h3]
    · simp at he
  · simp at he

/-- **C89, refuted.** A track with particles at 0 and 1, both of weight 1/2; it survives with probability 1/4 if at 0 and
3/4 if at 1. The motion exchanges 0 and 1. After the next `predict` the surviving track's particle that came from 0 has
weight 3/4 and the other one 1/4; it should be the other way round. -/
theorem C89_refuted : ∃ (ps : ℝ → ℝ) (st st' : St ℝ ℝ (PState ℝ ℝ Unit) Unit Unit)
    (e e' : Entry ℝ ℝ (PState ℝ ℝ Unit) Unit Unit) (f f' : PState ℝ ℝ Unit),
    (∀ x, 0 < ps x ∧ ps x < 1) ∧
    run (realPr 1 2 1 2) init [.predict (smcEx ps fun _ => 1 / 2) 0 [smcB [0, 1] [1 / 2, 1 / 2]],
      .cleanup (smcEx ps fun _ => 1 / 2) false false false false false] = .ok st ∧
    run (realPr 1 2 1 2) st [.predict (smcEx ps fun _ => 1 / 2) 1 []] = .ok st' ∧
    st.tab = [e] ∧ e.fStates = [f] ∧ st'.tab = [e'] ∧ e'.label = e.label ∧ e'.fStates = [f'] ∧
    f.parts = [0, 1] ∧ f.ws = [1 / 2, 1 / 2] ∧ f'.parts = [1, 0] ∧ f'.ws = [3 / 4, 1 / 4] ∧
    f'.ws ≠ (f.parts.zip f.ws).map fun x => x.2 * ps x.1 / partMean ps f := by
  have hok : SmcOk [0, 1] [1 / 2, 1 / 2] (fun x => if x = 0 then 1 / 4 else 3 / 4) (fun _ => 1 / 2) := by
    refine ⟨⟨by simp, by simp, ?_, by norm_num⟩, ⟨by norm_num, by norm_num⟩, .inl ?_, fun _ => by norm_num, by norm_num⟩
    · intro w hw
      simp only [List.mem_cons, List.not_mem_nil, or_false, or_self] at hw
      subst hw
      norm_num
    · norm_num [realNum]
  set ps : ℝ → ℝ := fun x => if x = 0 then 1 / 4 else 3 / 4 with hps
  set b := smcB [0, 1] [1 / 2, 1 / 2] with hb
  have hI : TInv 0 { st1 (0 : ℝ) b with cntr := 1 } := by
    obtain ⟨h1, h2, h3, h4, h5, h6⟩ := st1_tinv' (smcB_wf [0, 1] [1 / 2, 1 / 2]) (0 : ℝ)
    exact ⟨⟨h1.range, h1.nodup⟩, h2, h3, h4, h5, fun x hx => by simp [st1] at hx⟩
  obtain ⟨st', hc, _⟩ := predict_total (env := smcEx ps fun _ => 1 / 2) (pr := realPr 1 2 1 2) (by norm_num [realPr])
    (st := { st1 (0 : ℝ) b with cntr := 1 }) (hok.env 1 2 1 2) 1 (births := []) (by simp) (by simp) hI
  have hsp := C89_survival_weights_partial realNum (fun _ _ => Equiv.refl _) (realEnv (some (1 / 2))).argsort
    (realPr 1 2 1 2) smcPf ps (List.map fun _ => 1 / 2) (1 : ℝ) [] { st1 (0 : ℝ) b with cntr := 1 } st' (by
      intro e he f hf
      rw [show e = smcE [0, 1] [1 / 2, 1 / 2] from List.mem_singleton.1 he] at hf
      rw [show f = ⟨[0, 1], [1 / 2, 1 / 2], ()⟩ from List.mem_singleton.1 hf]
      simp) hc
  rw [List.length_nil, List.drop_zero, show ({ st1 (0 : ℝ) b with cntr := 1 } : St ℝ ℝ (PState ℝ ℝ Unit) Unit Unit).tab =
    [smcE [0, 1] [1 / 2, 1 / 2]] from rfl] at hsp
  generalize ht : st'.tab = tab' at hsp
  cases hsp with
  | cons h1 h2 =>
    rename_i e' l
    cases h2
    obtain ⟨h1, _, _, _, h3⟩ := h1
    rw [show (smcE [0, 1] [1 / 2, 1 / 2]).fStates = [⟨[0, 1], [1 / 2, 1 / 2], ()⟩] from rfl] at h3
    generalize hf : e'.fStates = fs at h3
    cases h3 with
    | cons g1 g2 =>
      rename_i f' l
      cases g2
      obtain ⟨q1, q2, ⟨q3, q4⟩, _⟩ := g1
      have hw : f'.ws = [3 / 4, 1 / 4] := by
        rw [q4]
        norm_num [smcPf, partMean, hps]
      refine ⟨ps, { st1 (0 : ℝ) b with cntr := 1 }, st', smcE [0, 1] [1 / 2, 1 / 2], e', ⟨[0, 1], [1 / 2, 1 / 2], ()⟩, f',
        ?_, ?_, ?_, rfl, rfl, ht, h1, hf, rfl, rfl, ?_, hw, ?_⟩
      · intro x
        simp only [hps]
        split <;> norm_num
      · simp only [run, step]
        rw [smcPredict]
        rfl
      · simp only [run, step]
        rw [hc]
      · rw [q1]
        norm_num [smcPf]
      · rw [hw]
        norm_num [partMean, hps]

end Gasur.Props
