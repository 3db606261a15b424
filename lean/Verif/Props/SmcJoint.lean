import Verif.Proofs.SmcJoint
import Verif.Props.Smc

/-!
# Properties C90 and C91: the particle variant of the joint GLMB filter; Student's t mixtures
-/

set_option linter.unusedSectionVars false

namespace Gasur.Props

open Gasur.Glmb Gasur.Jglmb Gasur.Smc Gasur.Spec

variable {K τ X G S C Z : Type*} [Field K] [LinearOrder K] [IsStrictOrderedRing K] [FloorRing K]
  [DecidableEq τ]

/-! ### C90 -/

/-- **C90, what happens.** In the particle variant of the joint filter the functions `compute_prob_survive` and
`compute_prob_detection` have no effect on the hypotheses: `predict` leaves these as they are, and without measurements
`correct` gives the same result for all functions. -/
theorem C90_functions_unused (num : Num K) (sortInds : (n : ℕ) → (Fin n → WithTop K) → Equiv.Perm (Fin n))
    (argsort : List K → List ℕ) (eps : K) (pf : PFilter K X G S C Z) (ps pd ps' pd' : List X → List K) (jp : JParams K)
    (lab : τ) (births : List (Birth K (PState K X G) S C)) (draws : ℕ → ℕ → ℕ → K) (st : JSt K τ (PState K X G) S C) :
    Jglmb.correct (smcEnv num sortInds argsort eps pf ps pd) jp births draws [] st =
      Jglmb.correct (smcEnv num sortInds argsort eps pf ps' pd') jp births draws [] st ∧
    ∀ st', Jglmb.predict (smcEnv num sortInds argsort eps pf ps pd) lab births st = .ok st' → st'.g.hyps = st.g.hyps :=
  ⟨rfl, fun _ h => (C54_predict_shifts _ _ _ _ _ h).1⟩

/-- **C90, partial.** If the survival and detection functions are constant and the attributes `prob_survive` and
`prob_detection` were set to the same numbers, then these are the mean probabilities of every track, and the new
hypotheses after an update without measurements are weighted with them: a candidate has the factor `1 - p_S` if dead
and `p_S (1 - p_D)` if alive (the birth probability replaces `p_S` for a new track).
*Missing:* any other functions; see `C90_refuted`. -/
theorem C90_constant_partial (num : Num K) (sortInds : (n : ℕ) → (Fin n → WithTop K) → Equiv.Perm (Fin n))
    (argsort : List K → List ℕ) (pf : PFilter K X G S C Z) (hexp : ∀ x, 0 < num.expNeg x)
    (hadd : ∀ x y, num.expNeg (x + y) = num.expNeg x * num.expNeg y)
    (hzero : num.expNeg 0 = 1) (hinv : ∀ x, 0 < x → num.expNeg (num.negLog x) = x)
    (jp : JParams K) (heps : 0 < jp.base.eps) (ps pd : X → K) (hps : ∀ x, ps x = jp.probSurvive)
    (hpd : ∀ x, pd x = jp.probDetect)
    (births : List (Birth K (PState K X G) S C)) (draws : ℕ → ℕ → ℕ → K)
    (hd : ∀ n s v, 0 ≤ draws n s v ∧ draws n s v < 1) (st st' : JSt K τ (PState K X G) S C)
    (hf : ∀ e ∈ st.g.tab, ∀ f ∈ e.fStates, IsParticleDist f) (hnd : ∀ h ∈ st.g.hyps, h.tracks.Nodup)
    (h : Jglmb.correct (smcEnv num sortInds argsort jp.base.eps pf (List.map ps) (List.map pd)) jp births draws [] st =
      .ok st') :
    (∀ e ∈ st.g.tab, ∀ f ∈ e.fStates, partMean ps f = jp.probSurvive ∧ partMean pd f = jp.probDetect) ∧
    ∃ pre : List (K × List (ℕ × Option ℕ)),
      (∀ x ∈ pre, ∃ p ∈ st.g.hyps, IsSample num.expNeg births jp.base.eps jp.base.clutterRate
        (jp.base.clutterRate * jp.base.clutterDen) jp.probSurvive jp.probDetect 0 (fun _ _ => 0) p x) ∧
      (∀ p ∈ st.g.hyps, ∃ x ∈ pre, IsSample num.expNeg births jp.base.eps jp.base.clutterRate
        (jp.base.clutterRate * jp.base.clutterDen) jp.probSurvive jp.probDetect 0 (fun _ _ => 0) p x) ∧
      (st'.g.hyps ≠ [] → (pre.map Prod.fst).sum ≠ 0) ∧
      ∀ h' ∈ st'.g.hyps, ∃ s : List (ℕ × Option ℕ),
        List.Forall₂ (fun im t' => ∃ e e', st.g.tab[im.1]? = some e ∧ st'.g.tab[t']? = some e' ∧
          e'.label = e.label ∧ e'.mHist = e.mHist ++ [im.2]) s h'.tracks ∧
        h'.prob = ((pre.filter fun x => decide (x.2.Perm s)).map Prod.fst).sum / (pre.map Prod.fst).sum := by
  have hconst : ∀ (q : X → K) (c : K), (∀ x, q x = c) → ∀ f : PState K X G, IsParticleDist f → partMean q f = c := by
    intro q c hq f ⟨_, h2, _, h4⟩
    have h5 : (f.parts.zip f.ws).map (fun x => x.2 * q x.1) = f.ws.map fun w => w * c := by
      have : f.ws = (f.parts.zip f.ws).map Prod.snd := by rw [List.map_snd_zip h2.le]
      conv_rhs => rw [this, List.map_map]
      refine List.map_congr_left fun x _ => ?_
      rw [hq]
      rfl
    rw [partMean, h5, List.sum_map_mul_right, List.map_id', h4, one_mul]
  refine ⟨fun e he f hm => ⟨hconst ps _ hps f (hf e he f hm), hconst pd _ hpd f (hf e he f hm)⟩, ?_⟩
  obtain ⟨lik, _, pre, h1, h2, h3, h4⟩ := C57_joint_bayes _ hexp hadd hzero hinv jp heps births draws hd [] st st' hnd h
  have hs : ∀ p x, IsSample num.expNeg births jp.base.eps jp.base.clutterRate
        (jp.base.clutterRate * jp.base.clutterDen) jp.probSurvive jp.probDetect 0 lik p x →
      IsSample num.expNeg births jp.base.eps jp.base.clutterRate
        (jp.base.clutterRate * jp.base.clutterDen) jp.probSurvive jp.probDetect 0 (fun _ _ => 0) p x := by
    rintro p x ⟨a, a1, a2, a3, a4⟩
    refine ⟨a, a1, a2, a3, ?_⟩
    rw [a4]
    congr 1
    refine Finset.prod_congr rfl fun i _ => ?_
    have := a2 i
    unfold colWeight
    by_cases hc : a i < (candidates births.length p).length
    · simp [hc]
    · have : a i < 2 * (candidates births.length p).length := by omega
      simp [hc, this]
  refine ⟨pre, ?_, ?_, h3, ?_⟩
  · intro x hx
    obtain ⟨p, hp, q⟩ := h1 x hx
    exact ⟨p, hp, hs _ _ q⟩
  · intro p hp
    obtain ⟨x, hx, q⟩ := h2 p hp
    exact ⟨x, hx, hs _ _ q⟩
  · intro h' hh'
    obtain ⟨s, s1, s2⟩ := h4 h' hh'
    refine ⟨s, s1.imp ?_, s2⟩
    rintro im t' ⟨e, e', g1, g2, g3⟩
    exact ⟨e, e', g1, g2, g3.1, g3.2.2.1⟩

/-- Parameters of the example. -/
noncomputable def smcJp : JParams ℝ := { base := realPr 1 1 2 2, probSurvive := 9 / 10, probDetect := 9 / 10 }

/-- A new track with one particle and an update without measurements, for all constant detection probabilities `d`. -/
theorem smcJointEx : ∃ (u : ℕ → ℕ → ℕ → ℝ) (s1 s2 : JSt ℝ ℝ (PState ℝ ℝ Unit) Unit Unit) (h0 g1 : Hyp ℝ),
    (∀ n s v, 0 ≤ u n s v ∧ u n s v < 1) ∧ (∀ d : ℝ, Jglmb.run smcJp Jglmb.init
      [.predict (smcEx (fun _ => 9 / 10) fun _ => d) 0 [smcB [0] [1]]] = .ok s1) ∧
    (∀ d : ℝ, Jglmb.run smcJp s1 [.correct (smcEx (fun _ => 9 / 10) fun _ => d) [smcB [0] [1]] u []] = .ok s2) ∧
    s1.g.tab = [smcE [0] [1]] ∧ s1.g.hyps = [⟨1, []⟩] ∧
    h0 ∈ s2.g.hyps ∧ h0.tracks = [] ∧ g1 ∈ s2.g.hyps ∧
    (∃ t e, g1.tracks = [t] ∧ s2.g.tab[t]? = some e ∧ e.mHist = [none]) ∧ 0 < h0.prob := by
  let env : ℝ → Env ℝ ℝ (PState ℝ ℝ Unit) Unit Unit ℝ := fun d => smcEx (fun _ => 9 / 10) fun _ => d
  let jp := smcJp
  have hE : ∀ d, ∀ x, 0 < (env d).num.expNeg x := fun d x => Real.exp_pos _
  have hwf : ∀ b ∈ [smcB [0] [1]], BirthWF b := by
    intro b hb
    rw [List.mem_singleton] at hb
    subst hb
    exact smcB_wf _ _
  obtain ⟨s1, h1, hI1, hm1, hl1, hj1⟩ := Jglmb.predict_total (env (1 / 4)) (0 : ℝ) hwf
    (st := Jglmb.init) init_tinv (by
      intro h hh t ht
      simp only [Jglmb.init, Glmb.init, List.mem_singleton] at hh
      subst hh
      simp at ht) rfl
  have hy : s1.g.hyps = [⟨1, []⟩] := by
    rw [(C54_predict_shifts _ _ _ _ _ h1).1]
    rfl
  have htab : s1.g.tab = [smcE [0] [1]] := by
    have : Jglmb.predict (env (1 / 4)) 0 [smcB [0] [1]] Jglmb.init = .ok s1 := h1
    unfold Jglmb.predict at this
    rw [if_neg (by norm_num [smcB, smcBirth])] at this
    simp only [Jglmb.init, Glmb.init, traverseE, Except.ok.injEq] at this
    rw [← this]
    rfl
  have hold : s1.oldLen = 0 := by
    have := hl1
    rw [htab] at this
    simpa using this
  have hss : sumSqrt (env (1 / 4)) s1.g.hyps = 1 := by
    rw [hy]
    simp [sumSqrt, env, smcEx, smcEnv, realNum]
  obtain ⟨u, hu, hdead⟩ := corOne_dead (env := env (1 / 4)) (hE _) (jp := jp) (births := [smcB [0] [1]]) (oldLen := s1.oldLen)
    (tabLen := s1.g.tab.length) (blocks := []) (ss := 1) (h := ⟨1, []⟩) (by
      intro t ht
      rw [htab]
      simp only [tinds, List.map_nil, List.append_nil, List.mem_range] at ht
      simpa using ht) (k := 2) (by
      unfold share
      rw [if_neg one_ne_zero]
      have : (env (1 / 4)).num.sqrt 1 = 1 := Real.sqrt_one
      rw [this]
      norm_num [jp, smcJp, realPr, Phd.pyRound]
      rfl) le_rfl (by norm_num [jp, smcJp, realPr])
  have hdr : ∀ n s v : ℕ, 0 ≤ (fun _ : ℕ => u) n s v ∧ (fun _ : ℕ => u) n s v < 1 := fun _ s v => hu s v
  -- without measurements the inner filter is not called
  obtain ⟨s2, h2, hI2, _⟩ := Jglmb.correct_total (env := ({ env (1 / 4) with
      corF := fun _ _ _ _ => none } : Env ℝ ℝ (PState ℝ ℝ Unit) Unit Unit ℝ)) (jp := jp)
    ⟨hE (1 / 4), fun x hx => Real.sqrt_pos.2 hx, fun _ _ f _ z s w x hx => by simp at hx, realArgsort⟩ (by norm_num [jp, smcJp, realPr])
    (by norm_num [jp, smcJp, realPr]) [smcB [0] [1]] hdr [] hI1 hm1 hl1 hj1
  have h2 : ∀ d, Jglmb.correct (env d) jp [smcB [0] [1]] (fun _ => u) [] s1 = .ok s2 := fun d => h2
  obtain ⟨h0, hh0, ht0⟩ := Jglmb.correct_kept (h2 (1 / 4)) (p := ⟨1, []⟩) (i := 0) (by rw [hy]; rfl) (by
    intro blocks out hb hc
    have : blocks = [] := by
      have hb' : (.ok [] : Except GErr (List (List (Option (Entry ℝ ℝ (PState ℝ ℝ Unit) Unit Unit) × ℝ)))) = .ok blocks := hb
      rw [Except.ok.injEq] at hb'
      exact hb'.symm
    subst this
    rw [hss] at hc
    exact hdead out hc)
  obtain ⟨g1, hg1, s, hs1, hs2⟩ := C59_missed_kept (env (1 / 4)) (hE _) jp [smcB [0] [1]] _ hdr [] s1 s2 (h2 _) ⟨1, []⟩
    (by rw [hy]; simp)
  have p0 := hI2.pos h0 hh0
  have hs : s = [0] := by
    have : candidates [smcB [0] [1]].length (⟨1, []⟩ : Hyp ℝ) = [0] := rfl
    rw [this] at hs1
    exact List.perm_singleton.1 hs1
  have ht : ∃ t e, g1.tracks = [t] ∧ s2.g.tab[t]? = some e ∧ e.mHist = [none] := by
    rw [hs] at hs2
    generalize hq : g1.tracks = ts at hs2
    cases hs2 with
    | cons a b =>
      rename_i t l
      cases b
      obtain ⟨e, e', q1, q2, q3⟩ := a
      refine ⟨t, e', rfl, q2, ?_⟩
      rw [htab] at q1
      simp only [List.getElem?_cons_zero, Option.some.injEq] at q1
      rw [q3.2.2.1, ← q1]
      rfl
  have hpr : ∀ d, Jglmb.run jp Jglmb.init [.predict (env d) 0 [smcB [0] [1]]] = .ok s1 := by
    intro d
    have : Jglmb.predict (env d) 0 [smcB [0] [1]] Jglmb.init = .ok s1 := h1
    simp only [Jglmb.run, Jglmb.step]
    rw [this]
  have hco : ∀ d, Jglmb.run jp s1 [.correct (env d) [smcB [0] [1]] (fun _ => u) []] = .ok s2 := by
    intro d
    simp only [Jglmb.run, Jglmb.step]
    rw [h2]
  exact ⟨fun _ => u, s1, s2, h0, g1, hdr, hpr, hco, htab, hy, hh0, ht0, hg1, ht, p0⟩

/-- The hypotheses of `C90_constant_partial` can be met. -/
example : ∃ (draws : ℕ → ℕ → ℕ → ℝ) (st st' : JSt ℝ ℝ (PState ℝ ℝ Unit) Unit Unit),
    (∀ n s v, 0 ≤ draws n s v ∧ draws n s v < 1) ∧ (∀ e ∈ st.g.tab, ∀ f ∈ e.fStates, IsParticleDist f) ∧
    st.g.tab ≠ [] ∧ (∀ h ∈ st.g.hyps, h.tracks.Nodup) ∧
    Jglmb.correct (smcEnv realNum (fun _ _ => Equiv.refl _) (realEnv (some (1 / 2))).argsort smcJp.base.eps smcPf
      (List.map fun _ => smcJp.probSurvive) (List.map fun _ => smcJp.probDetect)) smcJp [smcB [0] [1]] draws [] st = .ok st' := by
  obtain ⟨u, s1, s2, h0, g1, q1, q2, q3, q4, q5, _⟩ := smcJointEx
  refine ⟨u, s1, s2, q1, ?_, by rw [q4]; simp, ?_, ?_⟩
  · intro e he f hf
    rw [q4, List.mem_singleton] at he
    subst he
    simp only [smcE, List.mem_singleton] at hf
    subst hf
    exact ⟨by simp, by simp, by simp, by norm_num⟩
  · intro h hh
    rw [q5, List.mem_singleton] at hh
    subst hh
    simp
  · have := q3 (9 / 10)
    simp only [Jglmb.run, Jglmb.step] at this
    split at this
    · simp at this
    · rename_i s hs
      rw [Except.ok.injEq] at this
      subst this
      exact hs

/-- **C90, refuted.** A new track with birth probability 9/10 and one particle. After an update without measurements one
hypothesis has the track (not detected), another one has not; the odds should be `9/10 (1 - p_D) : 1/10`. For one of the
detection functions 1/4 and 3/4 they are not. -/
theorem C90_refuted : ∃ (pd : ℝ → ℝ) (jp : JParams ℝ) (draws : ℕ → ℕ → ℕ → ℝ)
    (st st' : JSt ℝ ℝ (PState ℝ ℝ Unit) Unit Unit) (h0 h1 : Hyp ℝ) (f : PState ℝ ℝ Unit),
    (∀ x, 0 < pd x ∧ pd x < 1) ∧ (∀ n s v, 0 ≤ draws n s v ∧ draws n s v < 1) ∧
    Jglmb.run jp Jglmb.init [.predict (smcEx (fun _ => 9 / 10) pd) 0 [smcB [0] [1]]] = .ok st ∧
    Jglmb.run jp st [.correct (smcEx (fun _ => 9 / 10) pd) [smcB [0] [1]] draws []] = .ok st' ∧
    st.g.tab.map (fun e => e.fStates) = [[f]] ∧
    h0 ∈ st'.g.hyps ∧ h0.tracks = [] ∧ h1 ∈ st'.g.hyps ∧
    (∃ t e, h1.tracks = [t] ∧ st'.g.tab[t]? = some e ∧ e.mHist = [none]) ∧
    h1.prob * (1 - 9 / 10) ≠ h0.prob * (9 / 10 * (1 - partMean pd f)) := by
  obtain ⟨u, s1, s2, h0, g1, q1, hpr, hco, htab, hy, hh0, ht0, hg1, ht, p0⟩ := smcJointEx
  have hmean : ∀ d : ℝ, partMean (fun _ : ℝ => d) (⟨[0], [1], ()⟩ : PState ℝ ℝ Unit) = d := by
    intro d
    simp [partMean]
  have hfs : s1.g.tab.map (fun e => e.fStates) = [[⟨[0], [1], ()⟩]] := by
    rw [htab]
    rfl
  by_cases hq : g1.prob * (1 - 9 / 10) = h0.prob * (9 / 10 * (1 - 1 / 4))
  · refine ⟨fun _ => 3 / 4, smcJp, u, s1, s2, h0, g1, _, fun _ => by norm_num, q1, hpr _, hco _, hfs, hh0, ht0, hg1, ht, ?_⟩
    rw [hmean, hq]
    intro hn
    linarith
  · refine ⟨fun _ => 1 / 4, smcJp, u, s1, s2, h0, g1, _, fun _ => by norm_num, q1, hpr _, hco _, hfs, hh0, ht0, hg1, ht, ?_⟩
    rw [hmean]
    exact hq

/-! ### C91: a new track represents the distribution of its birth term -/

theorem gmBirths_get {P : Type*} (sig : S → P → G → G) : ∀ (base : KState P G) (ds : List (GDist K S P × K)) (i : ℕ) d,
    ds[i]? = some d → ∃ base', (gmBirths sig base ds)[i]? = some (gmBirth sig base' d.1 d.2).1
  | _, [], i, d, h => by simp at h
  | base, x :: l, 0, d, h => by
    rw [List.getElem?_cons_zero, Option.some.injEq] at h
    subst h
    exact ⟨base, rfl⟩
  | base, x :: l, i + 1, d, h => by
    rw [List.getElem?_cons_succ] at h
    simpa [gmBirths] using gmBirths_get sig _ l i d h

theorem gmLoop_spec {P : Type*} (sig : S → P → G → G) : ∀ (base : KState P G) (l : List (S × P)),
    List.Forall₂ (fun mc (f : KState P G) => f.cov = mc.2 ∧ ∃ g, f.rest = sig mc.1 mc.2 g) l (gmLoop sig base l).1
  | _, [] => .nil
  | base, _ :: l => .cons ⟨rfl, _, rfl⟩ (gmLoop_spec sig _ l)

theorem stmBirths_get {P D : Type*} (cov : TState P D G → C) (work : TState P D G) :
    ∀ (base : TState P D G) (ds : List (TDist K S P D × K)) (i : ℕ) d, ds[i]? = some d →
      ∃ base', base'.rest = base.rest ∧ (stmBirths cov work base ds)[i]? = some (stmBirth cov work base' d.1 d.2).1
  | _, [], i, d, h => by simp at h
  | base, x :: l, 0, d, h => by
    rw [List.getElem?_cons_zero, Option.some.injEq] at h
    subst h
    exact ⟨base, rfl, rfl⟩
  | base, x :: l, i + 1, d, h => by
    rw [List.getElem?_cons_succ] at h
    obtain ⟨b', h1, h2⟩ := stmBirths_get cov work (stmBirth cov work base x.1 x.2).2 l i d h
    exact ⟨b', h1, h2⟩

theorem birth_entry {F S C : Type*} {env : Env K τ F S C Z} {pr : Params K} {lab : τ} {births : List (Birth K F S C)}
    {st st' : St K τ F S C} (h : Glmb.predict env pr lab births st = .ok st') {i : ℕ} {b : Birth K F S C}
    (hb : births[i]? = some b) : st'.tab[i]? = some
      { label := (lab, i), wHist := [b.ws], fStates := b.fStates, mHist := [], sHist := [b.states], cHist := [b.covs],
        tIdx := st.cntr } := by
  obtain ⟨survTab, _, h2, _⟩ := predict_tab h
  obtain ⟨hi, _⟩ := List.getElem?_eq_some_iff.1 hb
  rw [h2, List.getElem?_append_left (by rw [birthTab_length]; exact hi), birthTab, List.getElem?_map, List.getElem?_zipIdx, hb]
  simp

/-- **C91, Gaussian mixtures.** After `predict` the `i`-th entry of the track table is the `i`-th birth term: its weights,
means and covariances are those of the mixture, and it has one filter state per component, with the component's covariance
and with sigma points made from the component's mean and covariance. -/
theorem C91_birth_tracks {P : Type*} (env : Env K τ (KState P G) S P Z) (pr : Params K) (lab : τ) (sig : S → P → G → G)
    (base : KState P G) (ds : List (GDist K S P × K)) (st st' : St K τ (KState P G) S P)
    (h : Glmb.predict env pr lab (gmBirths sig base ds) st = .ok st') (i : ℕ) (d : GDist K S P) (p : K)
    (hd : ds[i]? = some (d, p)) :
    ∃ e, st'.tab[i]? = some e ∧ e.label = (lab, i) ∧ e.tIdx = st.cntr ∧ e.mHist = [] ∧ e.wHist = [d.ws] ∧
      e.sHist = [d.means] ∧ e.cHist = [d.covs] ∧
      List.Forall₂ (fun mc (f : KState P G) => f.cov = mc.2 ∧ ∃ g, f.rest = sig mc.1 mc.2 g) (d.means.zip d.covs) e.fStates := by
  obtain ⟨base', hb⟩ := gmBirths_get sig base ds i (d, p) hd
  exact ⟨_, birth_entry h hb, rfl, rfl, rfl, rfl, rfl, rfl, gmLoop_spec sig base' _⟩

/-- A concrete case of `C91_birth_tracks`: a new filter and one birth term. -/
example : ∃ (env : Env ℝ ℝ (KState ℝ ℝ) ℝ ℝ Unit) (st : St ℝ ℝ (KState ℝ ℝ) ℝ ℝ), Glmb.predict env (realPr 1 1 1 1) (0 : ℝ)
    (gmBirths (fun m c _ => m + c) ⟨0, 0⟩ [(⟨[1, 2], [3, 4], [1 / 4, 3 / 4]⟩, 9 / 10)]) Glmb.init = .ok st ∧ st.tab ≠ [] := by
  let env : Env ℝ ℝ (KState ℝ ℝ) ℝ ℝ Unit :=
    { num := realNum, sortInds := fun _ _ => Equiv.refl _, argsort := (realEnv (some (1 / 2))).argsort
      predF := fun f s => (f, s, f.cov), corF := fun _ f s _ => some (f, s, f.cov, 1), psurv := fun _ => 9 / 10
      pdet := fun _ => 9 / 10 }
  refine ⟨env, st1 (0 : ℝ)
        (gmBirth (fun m c _ => m + c) ⟨0, 0⟩ (⟨[1, 2], [3, 4], [1 / 4, 3 / 4]⟩ : GDist ℝ ℝ ℝ) (9 / 10)).1, ?_, by simp [st1, birthTab]⟩
  simp only [gmBirths]
  rw [predict_st1 (by norm_num [realPr]) rfl (0 : ℝ) (by norm_num [gmBirth]) (by norm_num [gmBirth])
      (fun x => Real.exp_pos _) realOdds]

/-- **C91, Student's t mixtures, partial.** The same for the STM filter: label, weights, means and filter states (scale
matrix and degrees of freedom of the component) are right.
*Missing:* the covariances should be those of the filter states, but all of them are the covariance of the filter object
that was used last, see `C91_refuted`. -/
theorem C91_stm_birth_tracks_partial {P D : Type*} (env : Env K τ (TState P D G) S C Z) (pr : Params K) (lab : τ)
    (cov : TState P D G → C) (work base : TState P D G) (ds : List (TDist K S P D × K)) (st st' : St K τ (TState P D G) S C)
    (h : Glmb.predict env pr lab (stmBirths cov work base ds) st = .ok st') (i : ℕ) (d : TDist K S P D) (p : K)
    (hd : ds[i]? = some (d, p)) :
    ∃ e, st'.tab[i]? = some e ∧ e.label = (lab, i) ∧ e.tIdx = st.cntr ∧ e.mHist = [] ∧ e.wHist = [d.ws] ∧
      e.sHist = [d.means] ∧ e.fStates = d.scalings.map (fun s => ⟨s, d.dof, base.rest⟩) ∧
      e.cHist = [d.scalings.map fun _ => cov work] := by
  obtain ⟨base', hr, hb⟩ := stmBirths_get cov work base ds i (d, p) hd
  refine ⟨_, birth_entry h hb, rfl, rfl, rfl, rfl, rfl, ?_, rfl⟩
  simp [stmBirth, hr]

/-- **C91, refuted for Student's t mixtures.** A new STM-GLMB filter whose filter object has scale 1; the birth term has
scale 4 and five degrees of freedom, thus covariance 20/3. The recorded covariance of the new track is 5/3. -/
theorem C91_refuted : ∃ (cov : TState ℝ ℝ Unit → ℝ) (work : TState ℝ ℝ Unit) (d : TDist ℝ Unit ℝ ℝ)
    (env : Env ℝ ℝ (TState ℝ ℝ Unit) Unit ℝ Unit) (st : St ℝ ℝ (TState ℝ ℝ Unit) Unit ℝ)
    (e : Entry ℝ ℝ (TState ℝ ℝ Unit) Unit ℝ),
    (∀ f, cov f = f.dof / (f.dof - 2) * f.scale) ∧
    Glmb.run (realPr 1 1 1 1) Glmb.init [.predict env 0 (stmBirths cov work work [(d, 9 / 10)])] = .ok st ∧
    st.tab = [e] ∧ e.fStates.map cov = [20 / 3] ∧ e.cHist = [[5 / 3]] := by
  let cov : TState ℝ ℝ Unit → ℝ := fun f => f.dof / (f.dof - 2) * f.scale
  let work : TState ℝ ℝ Unit := ⟨1, 5, ()⟩
  let d : TDist ℝ Unit ℝ ℝ := ⟨[()], [4], [1], 5⟩
  let env : Env ℝ ℝ (TState ℝ ℝ Unit) Unit ℝ Unit :=
    { num := realNum, sortInds := fun _ _ => Equiv.refl _, argsort := (realEnv (some (1 / 2))).argsort
      predF := fun f s => (f, s, cov f), corF := fun _ f s _ => some (f, s, cov f, 1), psurv := fun _ => 9 / 10
      pdet := fun _ => 9 / 10 }
  refine ⟨cov, work, d, env, st1 0 (stmBirth cov work work d (9 / 10)).1, _, fun _ => rfl, ?_, rfl, ?_, ?_⟩
  · simp only [Glmb.run, Glmb.step, stmBirths]
    rw [predict_st1 (by norm_num [realPr]) rfl (0 : ℝ) (by norm_num [stmBirth]) (by norm_num [stmBirth])
      (fun x => Real.exp_pos _) realOdds]
  · norm_num [stmBirth, cov, d]
  · norm_num [stmBirth, cov, d, work]

end Gasur.Props
