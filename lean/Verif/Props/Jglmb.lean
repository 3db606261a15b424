import Verif.Proofs.JglmbBayes
import Verif.Props.GlmbBayes

/-!
# Properties C13, C54-C60: the joint GLMB filter

The specification (`candidates`, `TrackUpdate`, `TrackLikelihood`, `colWeight`, `IsSample`) is in
`Verif/Spec/Jglmb.lean`. `DrawsOk draws` says that all random numbers are in `[0, 1)`.
-/

set_option linter.unusedSectionVars false

namespace Gasur.Props

open Gasur.Jglmb Gasur.Glmb Gasur.Spec

variable {K τ F S C Z : Type*} [Field K] [LinearOrder K] [IsStrictOrderedRing K] [FloorRing K]
  [DecidableEq τ]

theorem isUpdate_spec {env : Env K τ F S C Z} {pr : Params K} {meas : List Z} {e e' : Entry K τ F S C}
    {m : Option ℕ} (hu : IsUpdate env pr meas e m e') : TrackUpdate env pr.eps meas e m e' := by
  obtain ⟨l1, l2, l3⟩ := hu.label
  refine ⟨l1, l2, l3, ?_, ?_⟩
  · intro hn
    rcases hu with ⟨_, rfl⟩ | ⟨j, _, _, _, hj, _⟩
    · exact ⟨rfl, rfl, rfl, rfl⟩
    · rw [hn] at hj; simp at hj
  · intro j0 hm
    rcases hu with ⟨hn, _⟩ | ⟨j, z, e0, c, hj, hz, hc, rfl⟩
    · rw [hm] at hn; simp at hn
    · rw [hm, Option.some.injEq] at hj
      subst hj
      unfold correctEntry at hc
      split at hc
      · rename_i s w hs hw
        split at hc
        · split at hc
          · simp at hc
          · rename_i rs hrs
            split at hc
            · simp at hc
            · simp only [Except.ok.injEq, Prod.mk.injEq, Option.some.injEq] at hc
              obtain ⟨rfl, _⟩ := hc
              exact ⟨z, rs, s, w, hz, hs, hw,
                traverseE_optE (fun x : F × S × K => env.corF z x.1 x.2.1 x.2.2) hrs, rfl, rfl, rfl, rfl⟩
        · simp at hc
      · simp at hc

/-! ### C13 -/

/-- **C13.** Every hypothesis after the joint `correct` comes from a hypothesis `p` before it: a list `s` of
(candidate, measurement or missed) pairs such that the candidates are a subset of the new tracks and the
tracks of `p` (in order, each at most once), no measurement occurs twice, and the `k`-th track of the new
hypothesis is the update of the `k`-th candidate of `s` with its own measurement. -/
theorem C13_joint_update (env : Env K τ F S C Z) (hexp : ∀ x, 0 < env.num.expNeg x) (jp : JParams K)
    (births : List (Birth K F S C)) (draws : ℕ → ℕ → ℕ → K)
    (hd : ∀ n s v, 0 ≤ draws n s v ∧ draws n s v < 1) (meas : List Z) (st st' : JSt K τ F S C)
    (hnd : ∀ h ∈ st.g.hyps, h.tracks.Nodup)
    (h : Jglmb.correct env jp births draws meas st = .ok st') (h') (hh : h' ∈ st'.g.hyps) :
    ∃ p ∈ st.g.hyps, ∃ s : List (ℕ × Option ℕ),
      (s.map Prod.fst).Sublist (candidates births.length p) ∧ (s.map Prod.fst).Nodup ∧
      (s.filterMap Prod.snd).Nodup ∧ (∀ m ∈ s.filterMap Prod.snd, m < meas.length) ∧
      List.Forall₂ (fun im t' => ∃ e e', st.g.tab[im.1]? = some e ∧ st'.g.tab[t']? = some e' ∧
        TrackUpdate env jp.base.eps meas e im.2 e') s h'.tracks := by
  obtain ⟨p, hp, s, h1, h2, h3, h4⟩ := Jglmb.correct_hyp hexp hd h hh
  refine ⟨p, hp, s, h1, (tinds_nodup (hnd p hp)).sublist h1, h2, h3, h4.imp ?_⟩
  rintro im t' ⟨e, e', g1, g2, g3⟩
  exact ⟨e, e', g1, g2, isUpdate_spec g3⟩

/-! ### C54 -/

/-- **C54.** After any sequence of calls on a new joint filter that returned, every hypothesis lists pairwise
distinct indices of existing table entries; after `correct` (and also after later `cleanup` and
`extract_states` calls) no new tracks are pending (`oldLen`). -/
theorem C54_tracks_valid (jp : JParams K) (ops : List (JOp K τ F S C Z)) (hok : ∀ o ∈ ops, o.ok)
    (st : JSt K τ F S C) (h : Jglmb.run jp Jglmb.init ops = .ok st) :
    ∀ hyp ∈ st.g.hyps, hyp.tracks.Nodup ∧ ∀ i ∈ hyp.tracks, i < st.g.tab.length := by
  have hI := Jglmb.run_induct (jp := jp) JIdx (fun o : JOp K τ F S C Z => o.ok) (by
    intro st st' o ho hI hs
    refine step_jidx o ?_ hI hs
    rintro env births draws meas rfl
    exact ho) ops Jglmb.init st hok init_jidx h
  exact fun hyp hh => ⟨hI.nodup hyp hh, fun i hi => (hI.range hyp hh i hi).trans_le hI.le⟩

/-- **C54, predict.** `predict` puts the new tracks before the old ones in the table but does not touch the
hypotheses: entry `t` of the old table is now entry `t + number of births`, and the indices `t` of a
hypothesis that are less than the number of births now point at new tracks. So between `predict` and
`correct` the indices must be read with this offset, which `correct` does (C13) but `extract_states` does
not. -/
theorem C54_predict_shifts (env : Env K τ F S C Z) (lab : τ) (births : List (Birth K F S C))
    (st st' : JSt K τ F S C) (h : Jglmb.predict env lab births st = .ok st') :
    st'.g.hyps = st.g.hyps ∧ st'.oldLen = st.oldLen ∧
    (∀ t e, st.g.tab[t]? = some e → ∃ e', st'.g.tab[births.length + t]? = some e' ∧
      e'.label = e.label ∧ e'.tIdx = e.tIdx ∧ e'.mHist = e.mHist) ∧
    ∀ t, t < births.length → ∃ e', st'.g.tab[t]? = some e' ∧ e'.label = (lab, t) := by
  obtain ⟨_, survTab, hs, rfl⟩ := Jglmb.predict_ok h
  have hbl := birthTab_length (K := K) lab st.g.cntr births
  have hf := List.forall₂_iff_get.1 hs
  refine ⟨rfl, rfl, ?_, ?_⟩
  · intro t e he
    obtain ⟨ht, rfl⟩ := List.getElem?_eq_some_iff.1 he
    have ht2 : t < survTab.length := by rw [← hf.1]; exact ht
    refine ⟨survTab[t], ?_, ?_⟩
    · simp only
      rw [List.getElem?_append_right (by omega), hbl, Nat.add_sub_cancel_left]
      exact List.getElem?_eq_getElem ht2
    · have := hf.2 t ht ht2
      simp only [List.get_eq_getElem] at this
      exact predictEntry_label this
  · intro t ht
    have ht2 : t < (birthTab lab st.g.cntr births).length := by rw [hbl]; exact ht
    have hg : (birthTab lab st.g.cntr births ++ survTab)[t]? =
        some (birthTab lab st.g.cntr births)[t] := by
      rw [List.getElem?_append_left ht2]
      exact List.getElem?_eq_getElem ht2
    refine ⟨_, hg, ?_⟩
    exact (birthTab_get (List.getElem?_eq_getElem ht2)).1

/-! ### C55 -/

/-- **C55.** If the rounded times of the `predict` calls are pairwise different, then in every reachable
state of the joint filter the candidates of a hypothesis (the new tracks that are not yet corrected, and its
own tracks) have pairwise different labels. After `correct` there are no such new tracks, so its own tracks
have different labels. -/
theorem C55_labels {T : Type*} (rnd : T → τ) (jp : JParams K) (ops : List (JOp K τ F S C Z))
    (hok : ∀ o ∈ ops, o.ok) (times : List T) (htimes : ops.flatMap JOp.labels = times.map rnd)
    (hdist : (times.map rnd).Nodup) (st : JSt K τ F S C)
    (h : Jglmb.run jp Jglmb.init ops = .ok st) :
    ∀ hyp ∈ st.g.hyps, ∀ i ∈ candidates (st.g.tab.length - st.oldLen) hyp,
      ∀ j ∈ candidates (st.g.tab.length - st.oldLen) hyp, i ≠ j →
      ∃ e e', st.g.tab[i]? = some e ∧ st.g.tab[j]? = some e' ∧ e.label ≠ e'.label := by
  obtain ⟨past, hL⟩ := Jglmb.run_lab ops [] Jglmb.init st hok Jglmb.init_lab (htimes ▸ hdist) (by simp) h
  intro hyp hh i hi j hj hij
  have hr : ∀ i ∈ candidates (st.g.tab.length - st.oldLen) hyp, i < st.g.tab.length := by
    intro i hi
    have := hL.idx.le
    rcases mem_tinds.1 hi with h0 | ⟨t, ht, rfl⟩
    · omega
    · have := hL.idx.range hyp hh t ht
      omega
  exact ⟨_, _, List.getElem?_eq_getElem (hr i hi), List.getElem?_eq_getElem (hr j hj), fun hee =>
    hij (hL.uniq hyp hh i hi j hj _ _ (List.getElem?_eq_getElem (hr i hi))
      (List.getElem?_eq_getElem (hr j hj)) hee)⟩

/-- After `correct`, and after `cleanup` or `extract_states` following it, no new tracks are pending: the
candidates of a hypothesis are its own tracks. -/
theorem C55_settled (jp : JParams K) (env : Env K τ F S C Z) (births : List (Birth K F S C))
    (draws : ℕ → ℕ → ℕ → K) (meas : List Z) (ops : List (JOp K τ F S C Z))
    (hops : ∀ o ∈ ops, (∃ env bp bc be u c, o = .cleanup env bp bc be u c) ∨ ∃ u c, o = .extract u c)
    (st st' : JSt K τ F S C) (h : Jglmb.run jp st (.correct env births draws meas :: ops) = .ok st') :
    ∀ hyp : Hyp K, candidates (st'.g.tab.length - st'.oldLen) hyp = hyp.tracks := by
  have key : st'.oldLen = st'.g.tab.length := by
    unfold Jglmb.run at h
    split at h
    · simp at h
    · rename_i s hs
      have h0 : s.oldLen = s.g.tab.length := by
        obtain ⟨blocks, ls, hs', _, _, _, _, _, h5⟩ := Jglmb.correct_ok hs
        rw [h5]
      refine Jglmb.run_induct (jp := jp) (fun s : JSt K τ F S C => s.oldLen = s.g.tab.length)
        (fun o : JOp K τ F S C Z => (∃ env bp bc be u c, o = .cleanup env bp bc be u c) ∨
          ∃ u c, o = .extract u c) ?_ ops s st' hops h0 h
      intro s1 s2 o ho hI hst
      rcases ho with ⟨env, bp, bc, be, u, c, rfl⟩ | ⟨u, c, rfl⟩
      · simp only [Jglmb.step] at hst
        split at hst
        · simp at hst
        · rename_i g hg
          simp only [Except.ok.injEq] at hst
          subst hst
          simp only
          rw [(cleanup_shrinks hg).tab]
          exact hI
      · simp only [Jglmb.step] at hst
        split at hst
        · simp at hst
        · rename_i g o hg
          simp only [Except.ok.injEq] at hst
          subst hst
          simp only
          rw [(extract_frame hg).1]
          exact hI
  intro hyp
  rw [key, Nat.sub_self]
  simp [candidates]

/-! ### C56 -/

/-- **C56.** After the joint `correct` the weights are non-negative and sum to at most one; without
depletion they sum to one and the cardinality distribution is that of the hypotheses. -/
theorem C56_joint_weights (env : Env K τ F S C Z) (hexp : ∀ x, 0 < env.num.expNeg x) (jp : JParams K)
    (births : List (Birth K F S C)) (draws : ℕ → ℕ → ℕ → K)
    (hd : ∀ n s v, 0 ≤ draws n s v ∧ draws n s v < 1) (meas : List Z) (st st' : JSt K τ F S C)
    (hp : ∀ h ∈ st.g.hyps, 0 ≤ h.prob) (hne : st.g.hyps ≠ [])
    (h : Jglmb.correct env jp births draws meas st = .ok st') :
    (∀ x ∈ st'.g.hyps, 0 ≤ x.prob) ∧ (st'.g.hyps.map fun h => h.prob).sum ≤ 1 ∧
    ((∀ z f s w, env.corF z f s w ≠ none) → (st'.g.hyps.map fun h => h.prob).sum = 1 ∧
      ∀ n : ℕ, ((st'.g.card)[n]?).getD 0 =
        ((st'.g.hyps.filter fun h => decide (h.tracks.length = n)).map fun h => h.prob).sum) := by
  obtain ⟨h1, h2, h3⟩ := Jglmb.correct_weights hexp hd hp h
  exact ⟨h1, h2, fun hnd => h3 hnd (Jglmb.correct_nonempty hexp hd hne h)⟩

/-! ### C57 -/

/-- **C57.** The joint update follows Bayes' rule on the drawn associations. There are likelihoods `lik t m`
(zero if the inner filter reports depletion) and a list `pre` of joint associations of the hypotheses, at
least one for each hypothesis, such that every hypothesis afterwards consists of the updates of some list
`s` of (track, measurement) pairs, and its weight is the total weight of the drawn associations that make
these choices, divided by the total weight of all drawn associations. -/
theorem C57_joint_bayes (env : Env K τ F S C Z) (hexp : ∀ x, 0 < env.num.expNeg x)
    (hadd : ∀ x y, env.num.expNeg (x + y) = env.num.expNeg x * env.num.expNeg y)
    (hzero : env.num.expNeg 0 = 1) (hinv : ∀ x, 0 < x → env.num.expNeg (env.num.negLog x) = x)
    (jp : JParams K) (heps : 0 < jp.base.eps)
    (births : List (Birth K F S C)) (draws : ℕ → ℕ → ℕ → K)
    (hd : ∀ n s v, 0 ≤ draws n s v ∧ draws n s v < 1) (meas : List Z) (st st' : JSt K τ F S C)
    (hnd : ∀ h ∈ st.g.hyps, h.tracks.Nodup)
    (h : Jglmb.correct env jp births draws meas st = .ok st') :
    ∃ lik : ℕ → ℕ → K,
      (∀ (t m : ℕ) (e : Entry K τ F S C) (z : Z), st.g.tab[t]? = some e → meas[m]? = some z →
        TrackLikelihood env jp.base.eps z e (lik t m) ∨ (Depleted env z e ∧ lik t m = 0)) ∧
    ∃ pre : List (K × List (ℕ × Option ℕ)),
      (∀ x ∈ pre, ∃ p ∈ st.g.hyps, IsSample env.num.expNeg births jp.base.eps jp.base.clutterRate
        (jp.base.clutterRate * jp.base.clutterDen) jp.probSurvive jp.probDetect meas.length lik p x) ∧
      (∀ p ∈ st.g.hyps, ∃ x ∈ pre, IsSample env.num.expNeg births jp.base.eps jp.base.clutterRate
        (jp.base.clutterRate * jp.base.clutterDen) jp.probSurvive jp.probDetect meas.length lik p x) ∧
      (st'.g.hyps ≠ [] → (pre.map Prod.fst).sum ≠ 0) ∧
      ∀ h' ∈ st'.g.hyps, ∃ s : List (ℕ × Option ℕ),
        List.Forall₂ (fun im t' => ∃ e e', st.g.tab[im.1]? = some e ∧ st'.g.tab[t']? = some e' ∧
          TrackUpdate env jp.base.eps meas e im.2 e') s h'.tracks ∧
        h'.prob = ((pre.filter fun x => decide (x.2.Perm s)).map Prod.fst).sum /
          (pre.map Prod.fst).sum := by
  obtain ⟨lik, h1, pre, h2, h3, h4, h5⟩ := Jglmb.correct_weight hexp ⟨hadd, hzero, hinv⟩ heps hd hnd h
  refine ⟨lik, h1, pre, h2, h3, fun hne => h4 (List.exists_mem_of_ne_nil _ hne), ?_⟩
  intro h' hh
  obtain ⟨s, s1, s2⟩ := h5 h' hh
  refine ⟨s, s1.imp ?_, ?_⟩
  · rintro im t' ⟨e, e', g1, g2, g3⟩
    exact ⟨e, e', g1, g2, isUpdate_spec g3⟩
  · rw [← s2, mul_div_cancel_right₀ _ (h4 ⟨h', hh⟩)]

/-! ### C58 -/

/-- One time step of the joint filter. -/
structure JRound (K τ F S C Z : Type*) where
  env : Env K τ F S C Z
  lab : τ
  births : List (Birth K F S C)
  draws : ℕ → ℕ → ℕ → K
  meas : List Z
  flags : Bool × Bool × Bool × Bool × Bool

/-- The calls of a time step: `predict`, `correct`, `cleanup`. -/
def JRound.ops (r : JRound K τ F S C Z) : List (JOp K τ F S C Z) :=
  [.predict r.env r.lab r.births, .correct r.env r.births r.draws r.meas,
    .cleanup r.env r.flags.1 r.flags.2.1 r.flags.2.2.1 r.flags.2.2.2.1 r.flags.2.2.2.2]

/-- What the user must provide in a time step: well-formed birth terms with probabilities strictly between
0 and 1, non-negative likelihoods, random numbers in `[0, 1)`. Survival and detection probabilities are not
restricted: non-positive entries of the cost matrix are replaced by `eps`. The condition on the likelihoods is
needed only for valid filter states, for any notion `Valid` of validity that the birth terms meet and the inner
filter preserves (for example: all states). -/
structure JRound.OK (Valid : F → Prop) (r : JRound K τ F S C Z) : Prop where
  births : ∀ b ∈ r.births, b.fStates.length = b.states.length ∧ b.ws.length = b.states.length ∧
    b.covs.length = b.states.length ∧ b.ws ≠ [] ∧ 0 ≤ b.prob ∧ b.prob < 1
  exp : ∀ x, 0 < r.env.num.expNeg x
  sqrt : ∀ x, 0 < x → 0 < r.env.num.sqrt x
  lik : ∀ z f s w x, Valid f → r.env.corF z f s w = some x → 0 ≤ x.2.2.2
  draws : ∀ n s v, 0 ≤ r.draws n s v ∧ r.draws n s v < 1
  argsort : ∀ ws, IsArgsort ws (r.env.argsort ws)
  validBirth : ∀ b ∈ r.births, ∀ f ∈ b.fStates, Valid f
  validPred : ∀ f s, Valid f → Valid (r.env.predF f s).1
  validCor : ∀ z f s w x, Valid f → r.env.corF z f s w = some x → Valid x.1

/-- The invariants after any number of time steps. -/
theorem rounds_inv (jp : JParams K) (heps : 0 < jp.base.eps)
    (hcl : 0 < jp.base.clutterRate * jp.base.clutterDen) (Valid : F → Prop) :
    ∀ (rounds : List (JRound K τ F S C Z)) (s : JSt K τ F S C), (∀ r ∈ rounds, r.OK Valid) →
      TInv 0 s.g → s.oldLen = s.g.tab.length → (∀ e ∈ s.g.tab, ∀ f ∈ e.fStates, Valid f) →
      ∃ st, Jglmb.run jp s (rounds.flatMap JRound.ops) = .ok st ∧ TInv 0 st.g ∧ st.oldLen = st.g.tab.length ∧
        ∀ e ∈ st.g.tab, ∀ f ∈ e.fStates, Valid f := by
  intro rounds
  induction rounds with
  | nil => intro s _ hI hl hV; exact ⟨s, rfl, hI, hl, hV⟩
  | cons r rs ih =>
    intro s hok hI hlen hV
    have hr := hok r List.mem_cons_self
    obtain ⟨s1, h1, hI1, hm1, hl1, hj1⟩ := Jglmb.predict_total r.env r.lab (births := r.births)
      (fun b hb => let ⟨a1, a2, a3, a4, a5, a6⟩ := hr.births b hb; ⟨a1, a2, a3, a4, a5, a6⟩) hI
      (fun h hh t ht => by rw [hlen]; exact hI.idx.range h hh t ht) hlen
    have hV1 : ∀ e ∈ s1.g.tab, ∀ f ∈ e.fStates, Valid f := by
      obtain ⟨_, survTab, ht, rfl⟩ := Jglmb.predict_ok h1
      exact predTab_valid hr.validBirth hr.validPred ht hV
    have hE : JEnvOk r.env s1.g.tab :=
      ⟨hr.exp, hr.sqrt, fun e he f hf z s w x hx => hr.lik z f s w x (hV1 e he f hf) hx, hr.argsort⟩
    obtain ⟨s2, h2, hI2, hc2, hl2⟩ := Jglmb.correct_total hE heps hcl r.births hr.draws r.meas hI1 hm1
      hl1 hj1
    have hV2 : ∀ e ∈ s2.g.tab, ∀ f ∈ e.fStates, Valid f := by
      intro e' he'
      obtain ⟨e, he, m, hu⟩ := Jglmb.correct_tab h2 he'
      exact isUpdate_valid hr.validCor hu (hV1 e he)
    obtain ⟨g3, h3, hI3, _⟩ := cleanup_total (pr := jp.base) hE.argsort r.flags.1 r.flags.2.1
      r.flags.2.2.1 r.flags.2.2.2.1 r.flags.2.2.2.2 hI2 hc2
    obtain ⟨st, h4, hI4⟩ := ih { s2 with g := g3 } (fun x hx => hok x (List.mem_cons_of_mem _ hx)) hI3
      (by simp only; rw [(cleanup_shrinks h3).tab]; exact hl2) (by
        simp only
        rw [(cleanup_shrinks h3).tab]
        exact hV2)
    refine ⟨st, ?_, hI4⟩
    rw [List.flatMap_cons]
    unfold JRound.ops
    simp only [List.cons_append, List.nil_append, Jglmb.run, Jglmb.step]
    rw [h1]
    simp only
    rw [h2]
    simp only
    rw [h3]
    exact h4

/-- **C58.** Any number of time steps of `predict`, `correct`, `cleanup` on a new joint filter completes
without an exception, and all weights stay positive and all filter states valid. -/
theorem C58_joint_never_fails (jp : JParams K) (heps : 0 < jp.base.eps)
    (hcl : 0 < jp.base.clutterRate * jp.base.clutterDen) (Valid : F → Prop)
    (rounds : List (JRound K τ F S C Z)) (hok : ∀ r ∈ rounds, r.OK Valid) :
    ∃ st, Jglmb.run jp Jglmb.init (rounds.flatMap JRound.ops) = .ok st ∧ (∀ h ∈ st.g.hyps, 0 < h.prob) ∧
      ∀ e ∈ st.g.tab, ValidEntry Valid e := by
  obtain ⟨st, h1, h2, _, h3⟩ := rounds_inv jp heps hcl Valid rounds Jglmb.init hok init_tinv rfl
    (by simp [Jglmb.init, Glmb.init])
  exact ⟨st, h1, h2.pos, fun e he => ⟨EntWF.fne (h2.ent e he), h3 e he⟩⟩

/-! ### C59 -/

/-- **C59.** For every hypothesis before the joint `correct` there is one afterwards whose tracks are, up to
order, all its candidates (all new tracks and all its tracks) as missed detections. In particular `correct`
never leaves the filter without hypotheses, whatever the measurements, random numbers and depletions. -/
theorem C59_missed_kept (env : Env K τ F S C Z) (hexp : ∀ x, 0 < env.num.expNeg x) (jp : JParams K)
    (births : List (Birth K F S C)) (draws : ℕ → ℕ → ℕ → K)
    (hd : ∀ n s v, 0 ≤ draws n s v ∧ draws n s v < 1) (meas : List Z) (st st' : JSt K τ F S C)
    (h : Jglmb.correct env jp births draws meas st = .ok st') (p : Hyp K) (hp : p ∈ st.g.hyps) :
    ∃ h' ∈ st'.g.hyps, ∃ s : List ℕ, s.Perm (candidates births.length p) ∧
      List.Forall₂ (fun t t' => ∃ e e', st.g.tab[t]? = some e ∧ st'.g.tab[t']? = some e' ∧
        TrackUpdate env jp.base.eps meas e none e') s h'.tracks := by
  obtain ⟨h', hh, s, s1, s2⟩ := Jglmb.correct_missed hexp hd h hp
  refine ⟨h', hh, s, s1, s2.imp ?_⟩
  rintro t t' ⟨e, g1, g2⟩
  exact ⟨e, _, g1, g2, isUpdate_spec (pr := jp.base) (.inl ⟨rfl, rfl⟩)⟩

/-! ### Examples -/

/-- Parameters for examples. -/
noncomputable def realJp : JParams ℝ := { base := realPr 2 2 3 5, probSurvive := 9 / 10, probDetect := 9 / 10 }

/-- A time step with one birth and two measurements; all random numbers are 1/2. -/
noncomputable def realJRound (lab : ℝ) : JRound ℝ ℝ Unit Unit Unit Unit :=
  ⟨realEnv (some (1 / 2)), lab, [realBirth (9 / 10)], fun _ _ _ => 1 / 2, [(), ()],
    false, true, true, true, true⟩

theorem realJRound_ok (lab : ℝ) : (realJRound lab).OK fun _ => True := by
  refine ⟨?_, realEnv_exp _, fun x hx => Real.sqrt_pos.2 hx, ?_, ?_, ?_, fun _ _ _ _ => trivial, fun _ _ _ => trivial,
    fun _ _ _ _ _ _ _ => trivial⟩
  · intro b hb
    simp only [realJRound, List.mem_singleton] at hb
    subst hb
    exact ⟨rfl, rfl, rfl, by simp [realBirth], by norm_num [realBirth], by norm_num [realBirth]⟩
  · intro z f s w x _ hx
    simp only [realJRound, realEnv, Option.map_some, Option.some.injEq] at hx
    subst hx
    norm_num
  · intro n s v
    norm_num [realJRound]
  · intro ws
    exact realArgsort ws

/-- The hypotheses of C58 can be met (two time steps). -/
example : ∃ st, Jglmb.run realJp Jglmb.init ([realJRound 0, realJRound 1].flatMap JRound.ops) = .ok st ∧
    ∀ h ∈ st.g.hyps, 0 < h.prob := by
  obtain ⟨st, h1, h2, _⟩ := C58_joint_never_fails realJp (by norm_num [realJp, realPr]) (by norm_num [realJp, realPr])
    (fun _ => True) [realJRound 0, realJRound 1] (by
      intro r hr
      simp only [List.mem_cons, List.not_mem_nil, or_false] at hr
      rcases hr with rfl | rfl <;> exact realJRound_ok _)
  exact ⟨st, h1, h2⟩

/-- There is a reachable state after `predict` to which C13, C56, C57 and C59 apply: `correct` returns and leaves
a hypothesis with a track. -/
theorem joint_reachable : ∃ st st' : JSt ℝ ℝ Unit Unit Unit,
    Jglmb.run realJp Jglmb.init [.predict (realEnv (some (1 / 2))) 0 [realBirth (9 / 10)]] = .ok st ∧
    Jglmb.correct (realEnv (some (1 / 2))) realJp [realBirth (9 / 10)] (fun _ _ _ => 1 / 2) [(), ()] st =
      .ok st' ∧ st.g.hyps ≠ [] ∧ (∀ h ∈ st.g.hyps, 0 < h.prob ∧ h.tracks.Nodup) ∧
      ∃ h' ∈ st'.g.hyps, h'.tracks.length = 1 := by
  have hr := realJRound_ok 0
  obtain ⟨s1, h1, hI1, hm1, hl1, hj1⟩ := Jglmb.predict_total (realEnv (some (1 / 2))) (0 : ℝ)
    (births := [realBirth (9 / 10)])
    (fun b hb => let ⟨a1, a2, a3, a4, a5, a6⟩ := hr.births b hb; ⟨a1, a2, a3, a4, a5, a6⟩)
    (st := Jglmb.init) init_tinv (by
      intro h hh t ht
      simp only [Jglmb.init, Glmb.init, List.mem_singleton] at hh
      subst hh
      simp at ht) rfl
  obtain ⟨s2, h2, hI2, hc2, hl2⟩ := Jglmb.correct_total (jp := realJp)
    ⟨hr.exp, hr.sqrt, fun _ _ f _ z s w x hx => hr.lik z f s w x trivial hx, hr.argsort⟩ (by norm_num [realJp, realPr]) (by norm_num [realJp, realPr])
    [realBirth (9 / 10)] hr.draws [(), ()] hI1 hm1 hl1 hj1
  have hy : s1.g.hyps = [⟨1, []⟩] := by
    rw [(C54_predict_shifts _ _ _ _ _ h1).1]
    rfl
  obtain ⟨h', hh', s, hs1, hs2⟩ := C59_missed_kept (realEnv (some (1 / 2))) (realEnv_exp _) realJp
    [realBirth (9 / 10)] _ hr.draws [(), ()] s1 s2 h2 ⟨1, []⟩ (by rw [hy]; simp)
  refine ⟨s1, s2, ?_, h2, by rw [hy]; simp, fun h hh => ⟨hI1.pos h hh, hI1.idx.nodup h hh⟩, h', hh', ?_⟩
  · simp only [Jglmb.run, Jglmb.step]
    rw [h1]
  · rw [← hs2.length_eq, hs1.length_eq]
    simp [candidates]

/-! ### C60 -/

theorem jpredict_returns (env : Env K τ F S C Z) (lab : τ) (births : List (Birth K F S C))
    (hb : ∀ b ∈ births, b.prob ≠ 1) (st : JSt K τ F S C) (hE : ∀ e ∈ st.g.tab, EntWF e) :
    ∃ st', Jglmb.predict env lab births st = .ok st' := by
  obtain ⟨survTab, hs⟩ := traverseE_total (predictEntry env) st.g.tab fun e he =>
    let ⟨e', h, _⟩ := predictEntry_total env (hE e he); ⟨e', h⟩
  unfold Jglmb.predict
  rw [if_neg, hs]
  · exact ⟨_, rfl⟩
  · intro hc
    rw [List.any_eq_true] at hc
    obtain ⟨b, hbm, hc⟩ := hc
    exact hb b hbm (by simpa using hc)

/-- **C60, partial.** Without births `predict` leaves the hypotheses and the label, birth step and
measurement history at every index alone. *Missing:* with births it does not, see `C60_refuted`. -/
theorem C60_predict_partial (env : Env K τ F S C Z) (lab : τ) (st st' : JSt K τ F S C)
    (h : Jglmb.predict env lab [] st = .ok st') :
    st'.g.hyps = st.g.hyps ∧ ∀ (t : ℕ) (e : Entry K τ F S C), st.g.tab[t]? = some e →
      ∃ e', st'.g.tab[t]? = some e' ∧
      e'.label = e.label ∧ e'.tIdx = e.tIdx ∧ e'.mHist = e.mHist := by
  obtain ⟨h1, _, h2, _⟩ := C54_predict_shifts _ _ _ _ _ h
  refine ⟨h1, fun t e he => ?_⟩
  simpa using h2 t e he

/-- **C60 is false of this code** ("`predict` does not change which tracks a hypothesis consists of"): in
a reachable state after `correct` a hypothesis lists a track born at time 0; after the next `predict` the
same hypothesis, with the same index, refers to a track born at time 1 instead. `extract_states` called
before the next `correct` therefore reports the wrong tracks. -/
theorem C60_refuted : ∃ (ops : List (JOp ℝ ℝ Unit Unit Unit Unit)) (st st' : JSt ℝ ℝ Unit Unit Unit)
    (births : List (Birth ℝ Unit Unit Unit)),
    Jglmb.run realJp Jglmb.init ops = .ok st ∧
    Jglmb.predict (realEnv (some (1 / 2))) 1 births st = .ok st' ∧
    st'.g.hyps = st.g.hyps ∧
    ∃ h' ∈ st'.g.hyps, ∃ t ∈ h'.tracks, ∃ e e', st.g.tab[t]? = some e ∧ st'.g.tab[t]? = some e' ∧
      e.label = (0, 0) ∧ e'.label = (1, t) := by
  have hr := realJRound_ok 0
  obtain ⟨s1, h1, hI1, hm1, hl1, hj1⟩ := Jglmb.predict_total (realEnv (some (1 / 2))) (0 : ℝ)
    (births := [realBirth (9 / 10)])
    (fun b hb => let ⟨a1, a2, a3, a4, a5, a6⟩ := hr.births b hb; ⟨a1, a2, a3, a4, a5, a6⟩)
    (st := Jglmb.init) init_tinv (by
      intro h hh t ht
      simp only [Jglmb.init, Glmb.init, List.mem_singleton] at hh
      subst hh
      simp at ht) rfl
  obtain ⟨s2, h2, hI2, hc2, hl2⟩ := Jglmb.correct_total (jp := realJp)
    ⟨hr.exp, hr.sqrt, fun _ _ f _ z s w x hx => hr.lik z f s w x trivial hx, hr.argsort⟩ (by norm_num [realJp, realPr]) (by norm_num [realJp, realPr])
    [realBirth (9 / 10)] hr.draws [] hI1 hm1 hl1 hj1
  obtain ⟨p1, _, _, p4⟩ := C54_predict_shifts _ _ _ _ _ h1
  have hy : s1.g.hyps = [⟨1, []⟩] := by
    rw [p1]
    rfl
  obtain ⟨h', hh', s, hs1, hs2⟩ := C59_missed_kept (realEnv (some (1 / 2))) (realEnv_exp _) realJp
    [realBirth (9 / 10)] _ hr.draws [] s1 s2 h2 ⟨1, []⟩ (by rw [hy]; simp)
  have hc : candidates ([realBirth (9 / 10)] : List (Birth ℝ Unit Unit Unit)).length (⟨1, []⟩ : Hyp ℝ) = [0] := by
    simp [candidates, List.range_succ]
  rw [hc, List.perm_singleton] at hs1
  subst hs1
  obtain ⟨t, rest, hR, _, ht⟩ := List.forall₂_cons_left_iff.1 hs2
  obtain ⟨e0, e, g1, g2, g3⟩ := hR
  have htm : t ∈ h'.tracks := by rw [ht]; exact List.mem_cons_self
  obtain ⟨e0', q1, q2⟩ := p4 0 (by simp)
  rw [g1, Option.some.injEq] at q1
  subst q1
  obtain ⟨s3, h3⟩ := jpredict_returns (realEnv (some (1 / 2))) (1 : ℝ)
    (List.replicate s2.g.tab.length (realBirth (9 / 10)))
    (by intro b hb; rw [List.eq_of_mem_replicate hb]; norm_num [realBirth]) s2 hI2.ent
  obtain ⟨r1, _, _, r4⟩ := C54_predict_shifts _ _ _ _ _ h3
  obtain ⟨e', u1, u2⟩ := r4 t (by rw [List.length_replicate]; exact hI2.idx.range h' hh' t htm)
  refine ⟨[.predict (realEnv (some (1 / 2))) 0 [realBirth (9 / 10)],
      .correct (realEnv (some (1 / 2))) [realBirth (9 / 10)] (fun _ _ _ => 1 / 2) []], s2, s3, _, ?_, h3, r1, h',
    by rw [r1]; exact hh', t, htm, e, e', g2, u1, ?_, u2⟩
  · simp only [Jglmb.run, Jglmb.step]
    rw [h1]
    simp only
    have h2' : Jglmb.correct (realEnv (some (1 / 2))) realJp [realBirth (9 / 10)] (fun _ _ _ => 1 / 2) []
      s1 = .ok s2 := h2
    rw [h2']
  · rw [g3.1, q2]

end Gasur.Props
