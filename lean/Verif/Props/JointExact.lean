import Verif.Props.Jglmb
import Verif.Proofs.JointExact
import Verif.Proofs.JointDraws
import Verif.Proofs.GibbsFound
import Verif.Proofs.GlmbBest

/-!
# Property C97: the joint update becomes exact as the number of requested updates grows

`exp`, `log` and the weights are real; the random numbers of `gibbs` are independent and uniform in `[0, 1)`
(`Spec.jointDraws`).
-/

set_option linter.unusedSectionVars false

namespace Gasur.Props

open MeasureTheory Gasur.Glmb Gasur.Jglmb Gasur.Spec

variable {τ F S C Z : Type*} [DecidableEq τ]

/-- The same parameters with `req_upd = R`. -/
def withUpd (jp : JParams ℝ) (R : ℕ) : JParams ℝ := { jp with base := { jp.base with reqUpd := R } }

/-- `st'` is the exact posterior of `st`: (1) every hypothesis consists of updates of some list `s` of (track,
measurement) pairs, and its weight is the total weight of the joint associations that make these choices, divided by
the total weight of all joint associations of all hypotheses; (2) every joint association of every hypothesis is
represented, unless the inner filter reports depletion for one of its updates. -/
def ExactPosterior (env : Env ℝ τ F S C Z) (jp : JParams ℝ) (births : List (Birth ℝ F S C)) (meas : List Z)
    (lik : ℕ → ℕ → ℝ) (st st' : JSt ℝ τ F S C) : Prop :=
  let mass := posteriorMass (fun x => Real.exp (-x)) births jp.base.eps jp.base.clutterRate
    (jp.base.clutterRate * jp.base.clutterDen) jp.probSurvive jp.probDetect meas.length lik st.g.hyps
  let updates := List.Forall₂ fun (im : ℕ × Option ℕ) (t' : ℕ) => ∃ e e', st.g.tab[im.1]? = some e ∧
    st'.g.tab[t']? = some e' ∧ TrackUpdate env jp.base.eps meas e im.2 e'
  (∀ h' ∈ st'.g.hyps, ∃ s, updates s h'.tracks ∧ h'.prob = mass (fun y => y.Perm s) / mass (fun _ => True)) ∧
  ∀ p ∈ st.g.hyps, ∀ a : Fin (candidates births.length p).length →
      Fin (2 * (candidates births.length p).length + meas.length), Function.Injective a →
    (∀ t m e z, (t, some m) ∈ jointChoices (candidates births.length p) a → st.g.tab[t]? = some e →
      meas[m]? = some z → ¬ Depleted env z e) →
    ∃ h' ∈ st'.g.hyps, ∃ s, s.Perm (jointChoices (candidates births.length p) a) ∧ updates s h'.tracks

theorem iters_tendsto (env : Env ℝ τ F S C Z) (jp : JParams ℝ) {ss : ℝ} (hss : 0 < ss) {h : Hyp ℝ}
    (hp : 0 < env.num.sqrt h.prob) :
    Filter.Tendsto (fun R => iters env (withUpd jp R) ss h) Filter.atTop Filter.atTop := by
  rw [← tendsto_natCast_atTop_iff (R := ℝ)]
  have h1 : Filter.Tendsto (fun R : ℕ => (R : ℝ) * (env.num.sqrt h.prob / ss) - 1 / 2) Filter.atTop Filter.atTop := by
    apply Filter.tendsto_atTop_add_const_right
    exact Filter.Tendsto.atTop_mul_const (div_pos hp hss) tendsto_natCast_atTop_atTop
  refine Filter.tendsto_atTop_mono (fun R => ?_) h1
  have h2 := pyRound_near ((R : ℝ) * env.num.sqrt h.prob / ss)
    (div_nonneg (mul_nonneg (Nat.cast_nonneg R) hp.le) hss.le)
  have h3 : (iters env (withUpd jp R) ss h : ℝ) = ((Phd.pyRound ((R : ℝ) * env.num.sqrt h.prob / ss)).toNat : ℝ) := rfl
  rw [h3]
  have h4 := (abs_le.1 h2).1
  have h5 : (R : ℝ) * (env.num.sqrt h.prob / ss) = (R : ℝ) * env.num.sqrt h.prob / ss := by ring
  linarith

/-- Gibbs sampling returns all associations of one hypothesis with probability tending to 1. -/
theorem complete_likely (env : Env ℝ τ F S C Z) (hexp : env.num.expNeg = fun x => Real.exp (-x)) (jp : JParams ℝ)
    (births : List (Birth ℝ F S C)) (oldLen : ℕ) (blocks : List (List (Option (Entry ℝ τ F S C) × ℝ))) {ss : ℝ}
    (hss : 0 < ss) {h : Hyp ℝ} (hp : 0 < env.num.sqrt h.prob) (n : ℕ) :
    ∃ Bad : ℕ → Set (ℕ → ℕ → ℕ → ℝ), Filter.Tendsto (fun R => jointDraws.real (Bad R)) Filter.atTop (nhds 0) ∧
      ∀ R, ∀ᵐ d ∂jointDraws, Complete env (withUpd jp R) births oldLen blocks ss (d n) h ∨ d ∈ Bad R := by
  classical
  have hg := fun a : {a : Fin (tinds births.length h).length → Fin (2 * (tinds births.length h).length +
      numCols (tinds births.length h).length blocks.length) // Function.Injective a} =>
    Gibbs.gibbs_avoid (costMat env jp births oldLen blocks h) (by omega) a.1 a.2
  choose r hr0 hr1 hr using hg
  choose Bad hB1 hB2 using hr
  refine ⟨fun R => ⋃ a, slice n _ ⁻¹' Bad a (iters env (withUpd jp R) ss h), ?_, ?_⟩
  · have hlim : Filter.Tendsto (fun R => ∑ a, r a ^ (iters env (withUpd jp R) ss h / 2)) Filter.atTop (nhds 0) := by
      rw [show (0 : ℝ) = ∑ a : {a : Fin (tinds births.length h).length → Fin (2 * (tinds births.length h).length +
        numCols (tinds births.length h).length blocks.length) // Function.Injective a}, (0 : ℝ) by simp]
      refine tendsto_finset_sum _ fun a _ => ?_
      exact ((tendsto_pow_atTop_nhds_zero_of_lt_one (hr0 a) (hr1 a)).comp
        (Nat.tendsto_div_const_atTop (by norm_num))).comp (iters_tendsto env jp hss hp)
    refine tendsto_of_tendsto_of_tendsto_of_le_of_le tendsto_const_nhds hlim (fun R => measureReal_nonneg) fun R => ?_
    refine (measureReal_iUnion_fintype_le _).trans (Finset.sum_le_sum fun a _ => ?_)
    refine le_trans ?_ (hB1 a _)
    have hle := Measure.le_map_apply (μ := jointDraws) (slice_preserving n (tinds births.length h).length).measurable.aemeasurable
      (Bad a (iters env (withUpd jp R) ss h))
    rw [(slice_preserving n (tinds births.length h).length).map_eq] at hle
    exact ENNReal.toReal_mono (measure_ne_top _ _) hle
  · intro R
    have hall : ∀ᵐ d ∂jointDraws, ∀ a, (∃ out, Gibbs.gibbs (fun x => Real.exp (-x)) (costMat env jp births oldLen blocks h)
        (iters env (withUpd jp R) ss h + 1) (slice n _ d) = .ok out ∧ ∃ c, (a.1, c) ∈ out) ∨
        slice n _ d ∈ Bad a (iters env (withUpd jp R) ss h) := by
      rw [ae_all_iff]
      intro a
      exact (slice_preserving n _).quasiMeasurePreserving.ae (hB2 a _)
    filter_upwards [hall] with d hd
    by_cases hbad : d ∈ ⋃ a, slice n _ ⁻¹' Bad a (iters env (withUpd jp R) ss h)
    · exact .inr hbad
    · left
      intro a ha
      rcases hd ⟨a, ha⟩ with h1 | h1
      · rw [hexp]
        exact h1
      · exact absurd (Set.mem_iUnion.2 ⟨⟨a, ha⟩, h1⟩) hbad

/-- **C97.** Let `st` be a state of the joint filter with positive weights in which `correct` does not fail. As the
requested number of updates grows, the probability that `correct` returns the exact posterior tends to 1. -/
theorem C97_joint_exact (env : Env ℝ τ F S C Z) (hexp : env.num.expNeg = fun x => Real.exp (-x))
    (hlog : ∀ x, env.num.negLog x = -Real.log x) (hsq : ∀ x, 0 < x → 0 < env.num.sqrt x)
    (jp : JParams ℝ) (heps : 0 < jp.base.eps) (births : List (Birth ℝ F S C)) (meas : List Z) (st : JSt ℝ τ F S C)
    (hnd : ∀ h ∈ st.g.hyps, h.tracks.Nodup) (hpos : ∀ h ∈ st.g.hyps, 0 < h.prob)
    (hok : ∀ R d, (∀ n s v, 0 ≤ d n s v ∧ d n s v < 1) → ∃ st', Jglmb.correct env (withUpd jp R) births d meas st = .ok st') :
    ∃ lik : ℕ → ℕ → ℝ,
      (∀ (t m : ℕ) (e : Entry ℝ τ F S C) (z : Z), st.g.tab[t]? = some e → meas[m]? = some z →
        TrackLikelihood env jp.base.eps z e (lik t m) ∨ (Depleted env z e ∧ lik t m = 0)) ∧
      Filter.Tendsto (fun R => jointDraws.real {d | ∃ st', Jglmb.correct env (withUpd jp R) births d meas st = .ok st' ∧
        ExactPosterior env jp births meas lik st st'}) Filter.atTop (nhds 1) := by
  classical
  have hE : ∀ x, 0 < env.num.expNeg x := by
    intro x
    rw [hexp]
    exact Real.exp_pos _
  have hX : ExpLog env.num := by
    refine ⟨?_, ?_, ?_⟩
    · intro x y
      simp only [hexp]
      rw [neg_add, Real.exp_add]
    · simp [hexp]
    · intro x hx
      simp only [hexp, hlog, neg_neg]
      exact Real.exp_log hx
  obtain ⟨st0, h0⟩ := hok 0 (fun _ _ _ => 0) (fun _ _ _ => ⟨le_rfl, one_pos⟩)
  obtain ⟨blocks, _, _, hblk, _⟩ := correct_ok h0
  have hblk' : corBlocks env jp.base st.g.tab meas = .ok blocks := hblk
  refine ⟨blockLik blocks, fun t m e z ht hm => blockLik_spec hblk' t m e z ht hm, ?_⟩
  have hone := fun i : Fin st.g.hyps.length => complete_likely env hexp jp births st.oldLen blocks
    (Jglmb.sumSqrt_pos hsq (List.ne_nil_of_mem (List.getElem_mem i.isLt)) hpos)
    (hsq _ (hpos _ (List.getElem_mem i.isLt))) i.val
  choose Bad hB1 hB2 using hone
  have hlow : ∀ R, 1 - ∑ i, jointDraws.real (Bad i R) ≤ jointDraws.real {d | ∃ st', Jglmb.correct env (withUpd jp R) births d
      meas st = .ok st' ∧ ExactPosterior env jp births meas (blockLik blocks) st st'} := by
    intro R
    have hcov : jointDraws.real Set.univ ≤ jointDraws.real ({d | ∃ st', Jglmb.correct env (withUpd jp R) births d
        meas st = .ok st' ∧ ExactPosterior env jp births meas (blockLik blocks) st st'} ∪ ⋃ i, Bad i R) := by
      refine (measureReal_congr ?_).le
      filter_upwards [jointDraws_cube, ae_all_iff.2 fun i => hB2 i R] with d hd hcomp
      refine propext ⟨fun _ => ?_, fun _ => trivial⟩
      by_cases hbad : d ∈ ⋃ i, Bad i R
      · exact .inr hbad
      · left
        obtain ⟨st', hst'⟩ := hok R d hd
        have hc : ∀ hn ∈ st.g.hyps.zipIdx, Complete env (withUpd jp R) births st.oldLen blocks (sumSqrt env st.g.hyps)
            (d hn.2) hn.1 := by
          intro hn hmem
          obtain ⟨k, hk⟩ := List.mem_iff_getElem?.1 hmem
          rw [List.getElem?_zipIdx, Option.map_eq_some_iff] at hk
          obtain ⟨y, hy, rfl⟩ := hk
          obtain ⟨hkl, hky⟩ := List.getElem?_eq_some_iff.1 hy
          subst hky
          simp only [Nat.zero_add]
          rcases hcomp ⟨k, hkl⟩ with h1 | h1
          · exact h1
          · exact absurd (Set.mem_iUnion.2 ⟨⟨k, hkl⟩, h1⟩) hbad
        obtain ⟨e1, e2⟩ := correct_exact hE hX (jp := withUpd jp R) heps hd hnd hst' hblk hc
        rw [hexp] at e1
        refine ⟨st', hst', ?_, ?_⟩
        · intro h' hh'
          obtain ⟨s, s1, s2⟩ := e1 h' hh'
          refine ⟨s, s1.imp ?_, s2⟩
          rintro im t' ⟨e, e', g1, g2, g3⟩
          exact ⟨e, e', g1, g2, isUpdate_spec g3⟩
        · intro p hp a ha hdep
          obtain ⟨h', hh', s, s1, s2⟩ := e2 p hp a ha hdep
          refine ⟨h', hh', s, s1, s2.imp ?_⟩
          rintro im t' ⟨e, e', g1, g2, g3⟩
          exact ⟨e, e', g1, g2, isUpdate_spec g3⟩
    have h1 := hcov.trans (measureReal_union_le _ _)
    have h2 := measureReal_iUnion_fintype_le (μ := jointDraws) (fun i => Bad i R)
    have h5 : jointDraws.real Set.univ = 1 := by simp
    rw [h5] at h1
    linarith
  have hlim : Filter.Tendsto (fun R => 1 - ∑ i, jointDraws.real (Bad i R)) Filter.atTop (nhds 1) := by
    have : Filter.Tendsto (fun R => ∑ i, jointDraws.real (Bad i R)) Filter.atTop (nhds (∑ i : Fin st.g.hyps.length, (0 : ℝ))) :=
      tendsto_finset_sum _ fun i _ => hB1 i
    simpa using this.const_sub 1
  exact tendsto_of_tendsto_of_tendsto_of_le_of_le hlim tendsto_const_nhds hlow fun R => measureReal_le_one

theorem jrun_append (jp : JParams ℝ) : ∀ (a b : List (JOp ℝ τ F S C Z)) (s s' : JSt ℝ τ F S C),
    Jglmb.run jp s a = .ok s' → Jglmb.run jp s (a ++ b) = Jglmb.run jp s' b
  | [], b, s, s', h => by
    simp only [Jglmb.run, Except.ok.injEq] at h
    subst h
    rfl
  | o :: a, b, s, s', h => by
    rw [List.cons_append]
    simp only [Jglmb.run] at h ⊢
    split at h
    · simp at h
    · exact jrun_append jp a b _ s' h

/-- **C97, for reachable states.** After any number of time steps of a new joint filter and the `predict` of the next
one, the weights are positive and the probability that `correct` returns the exact posterior tends to 1. -/
theorem C97_reachable (jp : JParams ℝ) (heps : 0 < jp.base.eps) (hcl : 0 < jp.base.clutterRate * jp.base.clutterDen)
    (Valid : F → Prop) (rounds : List (JRound ℝ τ F S C Z)) (hok : ∀ r ∈ rounds, r.OK Valid)
    (r : JRound ℝ τ F S C Z) (hr : r.OK Valid) (hexp : r.env.num.expNeg = fun x => Real.exp (-x))
    (hlog : ∀ x, r.env.num.negLog x = -Real.log x) :
    ∃ st, Jglmb.run jp Jglmb.init (rounds.flatMap JRound.ops ++ [.predict r.env r.lab r.births]) = .ok st ∧
      (∀ h ∈ st.g.hyps, 0 < h.prob) ∧
    ∃ lik : ℕ → ℕ → ℝ,
      (∀ (t m : ℕ) (e : Entry ℝ τ F S C) (z : Z), st.g.tab[t]? = some e → r.meas[m]? = some z →
        TrackLikelihood r.env jp.base.eps z e (lik t m) ∨ (Depleted r.env z e ∧ lik t m = 0)) ∧
      Filter.Tendsto (fun R => jointDraws.real {d | ∃ st', Jglmb.correct r.env (withUpd jp R) r.births d r.meas st =
        .ok st' ∧ ExactPosterior r.env jp r.births r.meas lik st st'}) Filter.atTop (nhds 1) := by
  obtain ⟨s0, h0, hI0, hl0, hV0⟩ := rounds_inv jp heps hcl Valid rounds Jglmb.init hok init_tinv rfl
    (by simp [Jglmb.init, Glmb.init])
  obtain ⟨s1, h1, hI1, hm1, hl1, hj1⟩ := Jglmb.predict_total r.env r.lab (births := r.births)
    (fun b hb => let ⟨a1, a2, a3, a4, a5, a6⟩ := hr.births b hb; ⟨a1, a2, a3, a4, a5, a6⟩) hI0
    (fun h hh t ht => by rw [hl0]; exact hI0.idx.range h hh t ht) hl0
  have hV1 : ∀ e ∈ s1.g.tab, ∀ f ∈ e.fStates, Valid f := by
    obtain ⟨_, survTab, ht, rfl⟩ := Jglmb.predict_ok h1
    exact predTab_valid hr.validBirth hr.validPred ht hV0
  have hE : JEnvOk r.env s1.g.tab :=
    ⟨hr.exp, hr.sqrt, fun e he f hf z s w x hx => hr.lik z f s w x (hV1 e he f hf) hx, hr.argsort⟩
  refine ⟨s1, ?_, hI1.pos, C97_joint_exact r.env hexp hlog hr.sqrt jp heps r.births r.meas s1 hI1.idx.nodup hI1.pos ?_⟩
  · rw [jrun_append _ _ _ _ _ h0]
    simp only [Jglmb.run, Jglmb.step]
    rw [h1]
  · intro R d hd
    obtain ⟨s2, h2, _⟩ := Jglmb.correct_total hE (jp := withUpd jp R) heps hcl r.births hd r.meas hI1 hm1 hl1 hj1
    exact ⟨s2, h2⟩

/-- The hypotheses of C97 can be met: two time steps with a birth and two measurements each. -/
example : ∃ st, Jglmb.run realJp Jglmb.init ([realJRound 0].flatMap JRound.ops ++
      [.predict (realJRound 1).env (realJRound 1).lab (realJRound 1).births]) = .ok st ∧
      (∀ h ∈ st.g.hyps, 0 < h.prob) ∧ ∃ lik : ℕ → ℕ → ℝ,
      Filter.Tendsto (fun R => jointDraws.real {d | ∃ st', Jglmb.correct (realJRound 1).env (withUpd realJp R)
        (realJRound 1).births d (realJRound 1).meas st = .ok st' ∧
        ExactPosterior (realJRound 1).env realJp (realJRound 1).births (realJRound 1).meas lik st st'})
        Filter.atTop (nhds 1) := by
  obtain ⟨st, h1, h2, lik, _, h3⟩ := C97_reachable realJp (by norm_num [realJp, realPr]) (by norm_num [realJp, realPr])
    (fun _ => True) [realJRound 0] (by
      intro r hr
      rw [List.mem_singleton] at hr
      subst hr
      exact realJRound_ok _) (realJRound 1) (realJRound_ok 1) rfl (fun _ => rfl)
  exact ⟨st, h1, h2, lik, h3⟩

end Gasur.Props
