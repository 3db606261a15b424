import Verif.Props.JointExact

/-!
# Property C118: the whole run of the joint filter becomes exact as the number of requested updates grows

The random numbers of all time steps are independent and uniform in `[0, 1)`.
-/

set_option linter.unusedSectionVars false

namespace Gasur.Props

open MeasureTheory Gasur.Glmb Gasur.Jglmb Gasur.Spec

variable {τ F S C Z : Type*} [DecidableEq τ]

/-! ### A complete update does not depend on the random numbers -/

theorem colsOf_inj {N M : ℕ} {a b : Fin N → Fin M} (h : Gibbs.colsOf a = Gibbs.colsOf b) : a = b := by
  funext i
  have := List.map_inj_left.1 h i (List.mem_finRange i)
  exact Fin.ext this

theorem uniqueRows_sorted {N M : ℕ} (l : List ((Fin N → Fin M) × ℝ)) :
    (Gibbs.uniqueRows l).Pairwise fun p q => Gibbs.colsOf p.1 ≤ Gibbs.colsOf q.1 := by
  haveI : Std.Total (fun p q : (Fin N → Fin M) × ℝ => Gibbs.colsOf p.1 ≤ Gibbs.colsOf q.1) := ⟨fun i j => le_total _ _⟩
  haveI : IsTrans ((Fin N → Fin M) × ℝ) (fun p q => Gibbs.colsOf p.1 ≤ Gibbs.colsOf q.1) := ⟨fun _ _ _ => le_trans⟩
  exact List.pairwise_insertionSort _ _

theorem gibbs_sorted {N M : ℕ} {ex : ℝ → ℝ} {costs : Fin N → Fin M → ℝ} {n : ℕ} {u : ℕ → Fin N → ℝ}
    {out : List ((Fin N → Fin M) × ℝ)} (h : Gibbs.gibbs ex costs n u = .ok out) :
    out.Pairwise fun p q => Gibbs.colsOf p.1 ≤ Gibbs.colsOf q.1 := by
  unfold Gibbs.gibbs at h
  split at h
  · exact (nomatch h)
  · split at h
    · split at h
      · exact (nomatch h)
      · obtain rfl := Except.ok.inj h
        exact uniqueRows_sorted _
    · exact (nomatch h)

/-- Two complete results of `gibbs` are equal. -/
theorem gibbs_unique {N M : ℕ} {ex : ℝ → ℝ} (hex : ∀ x, 0 < ex x) {costs : Fin N → Fin M → ℝ} (hM : 2 * N ≤ M)
    {n n' : ℕ} {u u' : ℕ → Fin N → ℝ} (hu : ∀ s v, 0 ≤ u s v ∧ u s v < 1) (hu' : ∀ s v, 0 ≤ u' s v ∧ u' s v < 1)
    {out out' : List ((Fin N → Fin M) × ℝ)} (h : Gibbs.gibbs ex costs (n + 1) u = .ok out)
    (h' : Gibbs.gibbs ex costs (n' + 1) u' = .ok out')
    (hc : ∀ a, Function.Injective a → ∃ c, (a, c) ∈ out) (hc' : ∀ a, Function.Injective a → ∃ c, (a, c) ∈ out') :
    out = out' := by
  obtain ⟨o, e1, _, e3, e4, _⟩ := C12_gibbs ex hex costs hM (n + 1) (by omega) u hu
  obtain rfl := Except.ok.inj (h.symm.trans e1)
  obtain ⟨o', f1, _, f3, f4, _⟩ := C12_gibbs ex hex costs hM (n' + 1) (by omega) u' hu'
  obtain rfl := Except.ok.inj (h'.symm.trans f1)
  have hsub : ∀ (x y : List ((Fin N → Fin M) × ℝ)),
      (∀ a c, (a, c) ∈ x → Function.Injective a ∧ c = ∑ i, costs i (a i)) →
      (∀ a c, (a, c) ∈ y → Function.Injective a ∧ c = ∑ i, costs i (a i)) →
      (∀ a, Function.Injective a → ∃ c, (a, c) ∈ y) → ∀ p ∈ x, p ∈ y := by
    rintro x y hx hy hcy ⟨a, c⟩ hp
    obtain ⟨c', hc'⟩ := hcy a (hx a c hp).1
    rw [(hx a c hp).2, ← (hy a c' hc').2]
    exact hc'
  have hperm : out.Perm out' := by
    rw [List.perm_ext_iff_of_nodup (List.Nodup.of_map _ e3) (List.Nodup.of_map _ f3)]
    exact fun p => ⟨hsub _ _ e4 f4 hc' p, hsub _ _ f4 e4 hc p⟩
  refine List.Perm.eq_of_pairwise ?_ (gibbs_sorted h) (gibbs_sorted h') hperm
  rintro ⟨a, c⟩ ⟨b, c'⟩ ha hb h1 h2
  obtain rfl := colsOf_inj (le_antisymm h1 h2)
  rw [(e4 _ _ ha).2, (f4 _ _ hb).2]

theorem corOne_unique {env : Env ℝ τ F S C Z} (hexp : ∀ x, 0 < env.num.expNeg x) {jp : JParams ℝ} {R R' : ℕ}
    {births : List (Birth ℝ F S C)} {oldLen tabLen : ℕ} {blocks : List (List (Option (Entry ℝ τ F S C) × ℝ))} {ss : ℝ}
    {u u' : ℕ → ℕ → ℝ} (hu : ∀ s v, 0 ≤ u s v ∧ u s v < 1) (hu' : ∀ s v, 0 ≤ u' s v ∧ u' s v < 1) {h : Hyp ℝ}
    {out out' : List (Hyp ℝ)}
    (h1 : Jglmb.corOne env (withUpd jp R) births oldLen tabLen blocks ss u h = .ok out)
    (h2 : Jglmb.corOne env (withUpd jp R') births oldLen tabLen blocks ss u' h = .ok out')
    (c1 : Complete env (withUpd jp R) births oldLen blocks ss u h)
    (c2 : Complete env (withUpd jp R') births oldLen blocks ss u' h) : out = out' := by
  obtain ⟨rows, g1, rfl⟩ := corOne_rows h1
  obtain ⟨rows', g2, rfl⟩ := corOne_rows h2
  have : rows = rows' := gibbs_unique hexp (by omega) (fun s v => hu s v.val) (fun s v => hu' s v.val) g1 g2
    (fun a ha => by
      obtain ⟨o, ho, hc⟩ := c1 a ha
      obtain rfl := Except.ok.inj (g1.symm.trans ho)
      exact hc)
    (fun a ha => by
      obtain ⟨o, ho, hc⟩ := c2 a ha
      obtain rfl := Except.ok.inj (g2.symm.trans ho)
      exact hc)
  rw [this]
  rfl

theorem forall₂_det {A B : Type*} {P Q : A → B → Prop} : ∀ {l : List A} {x y : List B}, List.Forall₂ P l x →
    List.Forall₂ Q l y → (∀ a ∈ l, ∀ b c, P a b → Q a c → b = c) → x = y
  | _, _, _, .nil, .nil, _ => rfl
  | _, _, _, .cons h1 t1, .cons h2 t2, h => by
    rw [h _ List.mem_cons_self _ _ h1 h2, forall₂_det t1 t2 fun a ha => h a (List.mem_cons_of_mem _ ha)]

/-- Two complete joint updates of the same state are equal. -/
theorem correct_unique {env : Env ℝ τ F S C Z} (hexp : ∀ x, 0 < env.num.expNeg x) {jp : JParams ℝ} {R R' : ℕ}
    {births : List (Birth ℝ F S C)} {d d' : ℕ → ℕ → ℕ → ℝ} (hd : ∀ n s v, 0 ≤ d n s v ∧ d n s v < 1)
    (hd' : ∀ n s v, 0 ≤ d' n s v ∧ d' n s v < 1) {meas : List Z} {st s1 s2 : JSt ℝ τ F S C}
    (h1 : Jglmb.correct env (withUpd jp R) births d meas st = .ok s1)
    (h2 : Jglmb.correct env (withUpd jp R') births d' meas st = .ok s2) {blocks}
    (hblk : corBlocks env jp.base st.g.tab meas = .ok blocks)
    (c1 : ∀ hn ∈ st.g.hyps.zipIdx, Complete env (withUpd jp R) births st.oldLen blocks (sumSqrt env st.g.hyps)
      (d hn.2) hn.1)
    (c2 : ∀ hn ∈ st.g.hyps.zipIdx, Complete env (withUpd jp R') births st.oldLen blocks (sumSqrt env st.g.hyps)
      (d' hn.2) hn.1) : s1 = s2 := by
  obtain ⟨b1, ls, hs, g1, g2, g3, g4, g5, g6⟩ := correct_ok h1
  obtain ⟨b2, ls', hs', f1, f2, f3, f4, f5, f6⟩ := correct_ok h2
  obtain rfl := Except.ok.inj (hblk.symm.trans g1)
  obtain rfl := Except.ok.inj (hblk.symm.trans f1)
  have : ls = ls' := forall₂_det g3 f3 fun hn hm b c p q =>
    corOne_unique hexp (hd hn.2) (hd' hn.2) p q (c1 hn hm) (c2 hn hm)
  subst this
  obtain rfl := Except.ok.inj (g4.symm.trans f4)
  have := Except.ok.inj (g5.symm.trans f5)
  rw [Prod.mk.injEq] at this
  rw [g6, f6, this.1, this.2]

/-! ### One update -/

/-- The random numbers that do not give a complete update have probability tending to 0. -/
theorem complete_all (env : Env ℝ τ F S C Z) (hexp : env.num.expNeg = fun x => Real.exp (-x))
    (hsq : ∀ x, 0 < x → 0 < env.num.sqrt x) (jp : JParams ℝ) (births : List (Birth ℝ F S C)) (st : JSt ℝ τ F S C)
    (blocks : List (List (Option (Entry ℝ τ F S C) × ℝ))) (hpos : ∀ h ∈ st.g.hyps, 0 < h.prob) :
    ∃ Bad : ℕ → Set (ℕ → ℕ → ℕ → ℝ), Filter.Tendsto (fun R => jointDraws.real (Bad R)) Filter.atTop (nhds 0) ∧
      ∀ R, ∀ᵐ d ∂jointDraws, (∀ hn ∈ st.g.hyps.zipIdx, Complete env (withUpd jp R) births st.oldLen blocks
        (sumSqrt env st.g.hyps) (d hn.2) hn.1) ∨ d ∈ Bad R := by
  have hone := fun i : Fin st.g.hyps.length => complete_likely env hexp jp births st.oldLen blocks
    (Jglmb.sumSqrt_pos hsq (List.ne_nil_of_mem (List.getElem_mem i.isLt)) hpos)
    (hsq _ (hpos _ (List.getElem_mem i.isLt))) i.val
  choose Bad hB1 hB2 using hone
  refine ⟨fun R => ⋃ i, Bad i R, ?_, ?_⟩
  · have hlim : Filter.Tendsto (fun R => ∑ i, jointDraws.real (Bad i R)) Filter.atTop
        (nhds (∑ i : Fin st.g.hyps.length, (0 : ℝ))) := tendsto_finset_sum _ fun i _ => hB1 i
    rw [Finset.sum_const_zero] at hlim
    exact tendsto_of_tendsto_of_tendsto_of_le_of_le tendsto_const_nhds hlim (fun R => measureReal_nonneg)
      fun R => measureReal_iUnion_fintype_le _
  · intro R
    filter_upwards [ae_all_iff.2 fun i => hB2 i R] with d hcomp
    by_cases hbad : d ∈ ⋃ i, Bad i R
    · exact .inr hbad
    · left
      intro hn hmem
      obtain ⟨k, hk⟩ := List.mem_iff_getElem?.1 hmem
      rw [List.getElem?_zipIdx, Option.map_eq_some_iff] at hk
      obtain ⟨y, hy, rfl⟩ := hk
      obtain ⟨hkl, hky⟩ := List.getElem?_eq_some_iff.1 hy
      subst hky
      simp only [Nat.zero_add]
      rcases hcomp ⟨k, hkl⟩ with h1 | h1
      · exact h1
      · exact absurd (Set.mem_iUnion.2 ⟨⟨k, hkl⟩, h1⟩) hbad

/-- There is one exact posterior that `correct` returns with probability tending to 1. -/
theorem correct_limit (env : Env ℝ τ F S C Z) (hexp : env.num.expNeg = fun x => Real.exp (-x))
    (hlog : ∀ x, env.num.negLog x = -Real.log x) (hsq : ∀ x, 0 < x → 0 < env.num.sqrt x)
    (jp : JParams ℝ) (heps : 0 < jp.base.eps) (births : List (Birth ℝ F S C)) (meas : List Z) (st : JSt ℝ τ F S C)
    (hnd : ∀ h ∈ st.g.hyps, h.tracks.Nodup) (hpos : ∀ h ∈ st.g.hyps, 0 < h.prob)
    (hok : ∀ R d, (∀ n s v, 0 ≤ d n s v ∧ d n s v < 1) → ∃ st', Jglmb.correct env (withUpd jp R) births d meas st = .ok st') :
    ∃ (lik : ℕ → ℕ → ℝ) (st' : JSt ℝ τ F S C) (Bad : ℕ → Set (ℕ → ℕ → ℕ → ℝ)),
      (∀ (t m : ℕ) (e : Entry ℝ τ F S C) (z : Z), st.g.tab[t]? = some e → meas[m]? = some z →
        TrackLikelihood env jp.base.eps z e (lik t m) ∨ (Depleted env z e ∧ lik t m = 0)) ∧
      ExactPosterior env jp births meas lik st st' ∧
      (∃ R d, (∀ n s v, 0 ≤ d n s v ∧ d n s v < 1) ∧ Jglmb.correct env (withUpd jp R) births d meas st = .ok st') ∧
      Filter.Tendsto (fun R => jointDraws.real (Bad R)) Filter.atTop (nhds 0) ∧
      ∀ R, ∀ᵐ d ∂jointDraws, Jglmb.correct env (withUpd jp R) births d meas st = .ok st' ∨ d ∈ Bad R := by
  have hE : ∀ x, 0 < env.num.expNeg x := by
    intro x
    rw [hexp]
    exact Real.exp_pos _
  have hX : ExpLog env.num := by
    refine ⟨?_, ?_, ?_⟩
    · intro x y
      simp only [hexp]
      rw [neg_add, Real.exp_add]
    · simp [hexp]
    · intro x hx
      simp only [hexp, hlog, neg_neg]
      exact Real.exp_log hx
  obtain ⟨st0, h0⟩ := hok 0 (fun _ _ _ => 0) (fun _ _ _ => ⟨le_rfl, one_pos⟩)
  obtain ⟨blocks, _, _, hblk, _⟩ := correct_ok h0
  have hblk' : corBlocks env jp.base st.g.tab meas = .ok blocks := hblk
  obtain ⟨Bad, hB1, hB2⟩ := complete_all env hexp hsq jp births st blocks hpos
  -- one complete update exists
  obtain ⟨R, hR⟩ : ∃ R, jointDraws.real (Bad R) < 1 := by
    have := hB1.eventually (gt_mem_nhds (show (0 : ℝ) < 1 from one_pos))
    exact this.exists
  obtain ⟨d, hd, hcomp⟩ : ∃ d : ℕ → ℕ → ℕ → ℝ, (∀ n s v, 0 ≤ d n s v ∧ d n s v < 1) ∧
      ∀ hn ∈ st.g.hyps.zipIdx, Complete env (withUpd jp R) births st.oldLen blocks
        (sumSqrt env st.g.hyps) (d hn.2) hn.1 := by
    by_contra hcon
    push Not at hcon
    have : jointDraws.real Set.univ ≤ jointDraws.real (Bad R) := by
      refine (measureReal_congr ?_).le
      filter_upwards [jointDraws_cube, hB2 R] with d hd hc
      refine propext ⟨fun _ => ?_, fun _ => trivial⟩
      rcases hc with hc | hc
      · obtain ⟨hn, hm, hno⟩ := hcon d hd
        exact absurd (hc hn hm) hno
      · exact hc
    have h1 : jointDraws.real Set.univ = 1 := by simp
    linarith
  obtain ⟨st', hst'⟩ := hok R d hd
  refine ⟨blockLik blocks, st', Bad, fun t m e z ht hm => blockLik_spec hblk' t m e z ht hm, ?_, ⟨R, d, hd, hst'⟩, hB1, ?_⟩
  · obtain ⟨e1, e2⟩ := correct_exact hE hX (jp := withUpd jp R) heps hd hnd hst' hblk hcomp
    rw [hexp] at e1
    refine ⟨?_, ?_⟩
    · intro h' hh'
      obtain ⟨s, s1, s2⟩ := e1 h' hh'
      refine ⟨s, s1.imp ?_, s2⟩
      rintro im t' ⟨e, e', g1, g2, g3⟩
      exact ⟨e, e', g1, g2, isUpdate_spec g3⟩
    · intro p hp a ha hdep
      obtain ⟨h', hh', s, s1, s2⟩ := e2 p hp a ha hdep
      refine ⟨h', hh', s, s1, s2.imp ?_⟩
      rintro im t' ⟨e, e', g1, g2, g3⟩
      exact ⟨e, e', g1, g2, isUpdate_spec g3⟩
  · intro R'
    filter_upwards [jointDraws_cube, hB2 R'] with d' hd' hc
    rcases hc with hc | hc
    · left
      obtain ⟨s2, h2⟩ := hok R' d' hd'
      rw [h2, correct_unique hE hd hd' hst' h2 hblk' hcomp hc]
    · exact .inr hc

/-! ### All time steps -/

/-- The random numbers of all time steps. -/
noncomputable def runDraws : Measure (ℕ → ℕ → ℕ → ℕ → ℝ) := Measure.infinitePi fun _ => jointDraws

instance : IsProbabilityMeasure runDraws := by unfold runDraws; infer_instance

/-- The time steps with the random numbers `D k, D (k + 1), …`. -/
def withDraws (D : ℕ → ℕ → ℕ → ℕ → ℝ) : ℕ → List (JRound ℝ τ F S C Z) → List (JRound ℝ τ F S C Z)
  | _, [] => []
  | k, r :: rs => { r with draws := D k } :: withDraws D (k + 1) rs

/-- `sts` are the states after each time step of an ideal filter that starts with `st`: `predict`, then the exact
posterior, then `cleanup`. -/
inductive IdealRun (jp : JParams ℝ) : JSt ℝ τ F S C → List (JRound ℝ τ F S C Z) → List (JSt ℝ τ F S C) → Prop
  | nil (st : JSt ℝ τ F S C) : IdealRun jp st [] []
  | cons (st p q : JSt ℝ τ F S C) (g : St ℝ τ F S C) (r : JRound ℝ τ F S C Z) (rs : List (JRound ℝ τ F S C Z))
      (sts : List (JSt ℝ τ F S C)) (lik : ℕ → ℕ → ℝ)
      (hp : Jglmb.predict r.env r.lab r.births st = .ok p)
      (hl : ∀ (t m : ℕ) (e : Entry ℝ τ F S C) (z : Z), p.g.tab[t]? = some e → r.meas[m]? = some z →
        TrackLikelihood r.env jp.base.eps z e (lik t m) ∨ (Depleted r.env z e ∧ lik t m = 0))
      (hq : ExactPosterior r.env jp r.births r.meas lik p q)
      (hg : Glmb.cleanup r.env jp.base r.flags.1 r.flags.2.1 r.flags.2.2.1 r.flags.2.2.2.1 r.flags.2.2.2.2 q.g = .ok g)
      (hrest : IdealRun jp { q with g := g } rs sts) :
      IdealRun jp st (r :: rs) ({ q with g := g } :: sts)

theorem eval_bad (k : ℕ) (B : Set (ℕ → ℕ → ℕ → ℝ)) :
    runDraws.real ((fun D : ℕ → ℕ → ℕ → ℕ → ℝ => D k) ⁻¹' B) ≤ jointDraws.real B := by
  have hm : MeasurePreserving (fun D : ℕ → ℕ → ℕ → ℕ → ℝ => D k) runDraws jointDraws :=
    measurePreserving_eval_infinitePi (fun _ : ℕ => jointDraws) k
  have hle := Measure.le_map_apply (μ := runDraws) hm.measurable.aemeasurable B
  rw [hm.map_eq] at hle
  exact ENNReal.toReal_mono (measure_ne_top _ _) hle

theorem eval_ae (k : ℕ) {P : (ℕ → ℕ → ℕ → ℝ) → Prop} (h : ∀ᵐ d ∂jointDraws, P d) : ∀ᵐ D ∂runDraws, P (D k) := by
  have hm : MeasurePreserving (fun D : ℕ → ℕ → ℕ → ℕ → ℝ => D k) runDraws jointDraws :=
    measurePreserving_eval_infinitePi (fun _ : ℕ => jointDraws) k
  exact hm.quasiMeasurePreserving.ae h

theorem run_limit (jp : JParams ℝ) (heps : 0 < jp.base.eps) (hcl : 0 < jp.base.clutterRate * jp.base.clutterDen)
    (Valid : F → Prop) : ∀ (rounds : List (JRound ℝ τ F S C Z)) (k : ℕ) (st : JSt ℝ τ F S C),
      (∀ r ∈ rounds, r.OK Valid) →
      (∀ r ∈ rounds, r.env.num.expNeg = (fun x => Real.exp (-x)) ∧ ∀ x, r.env.num.negLog x = -Real.log x) →
      TInv 0 st.g → st.oldLen = st.g.tab.length → (∀ e ∈ st.g.tab, ∀ f ∈ e.fStates, Valid f) →
      ∃ (sts : List (JSt ℝ τ F S C)) (Bad : ℕ → Set (ℕ → ℕ → ℕ → ℕ → ℝ)), IdealRun jp st rounds sts ∧
        Filter.Tendsto (fun R => runDraws.real (Bad R)) Filter.atTop (nhds 0) ∧
        ∀ R, ∀ᵐ D ∂runDraws, D ∈ Bad R ∨ ∀ (n : ℕ) (s : JSt ℝ τ F S C), (st :: sts)[n]? = some s →
          Jglmb.run (withUpd jp R) st (((withDraws D k rounds).take n).flatMap JRound.ops) = .ok s
  | [], k, st, _, _, _, _, _ => by
    refine ⟨[], fun _ => ∅, .nil st, by simp, fun R => Filter.Eventually.of_forall fun D => .inr ?_⟩
    intro n s h
    cases n with
    | zero =>
      obtain rfl := Option.some.inj h
      rfl
    | succ n => simp at h
  | r :: rs, k, st, hok, hnum, hI, hlen, hV => by
    have hr := hok r List.mem_cons_self
    obtain ⟨hexp, hlog⟩ := hnum r List.mem_cons_self
    obtain ⟨s1, h1, hI1, hm1, hl1, hj1⟩ := Jglmb.predict_total r.env r.lab (births := r.births)
      (fun b hb => let ⟨a1, a2, a3, a4, a5, a6⟩ := hr.births b hb; ⟨a1, a2, a3, a4, a5, a6⟩) hI
      (fun h hh t ht => by rw [hlen]; exact hI.idx.range h hh t ht) hlen
    have hV1 : ∀ e ∈ s1.g.tab, ∀ f ∈ e.fStates, Valid f := by
      obtain ⟨_, survTab, ht, rfl⟩ := Jglmb.predict_ok h1
      exact predTab_valid hr.validBirth hr.validPred ht hV
    have hE : JEnvOk r.env s1.g.tab :=
      ⟨hr.exp, hr.sqrt, fun e he f hf z s w x hx => hr.lik z f s w x (hV1 e he f hf) hx, hr.argsort⟩
    obtain ⟨lik, q, Bad1, hlik, hex, ⟨R0, d0, hd0, hq0⟩, hB1, hB2⟩ := correct_limit r.env hexp hlog hr.sqrt jp heps r.births
      r.meas s1 hI1.idx.nodup hI1.pos (fun R d hd => by
        obtain ⟨s2, h2, _⟩ := Jglmb.correct_total hE (jp := withUpd jp R) heps hcl r.births hd r.meas hI1 hm1 hl1 hj1
        exact ⟨s2, h2⟩)
    obtain ⟨q', hq', hI2, hc2, hl2⟩ := Jglmb.correct_total hE (jp := withUpd jp R0) heps hcl r.births hd0 r.meas hI1 hm1
      hl1 hj1
    obtain rfl := Except.ok.inj (hq0.symm.trans hq')
    have hV2 : ∀ e ∈ q.g.tab, ∀ f ∈ e.fStates, Valid f := by
      intro e' he'
      obtain ⟨e, he, m, hu⟩ := Jglmb.correct_tab hq0 he'
      exact isUpdate_valid hr.validCor hu (hV1 e he)
    obtain ⟨g3, h3, hI3, _⟩ := cleanup_total (pr := jp.base) hE.argsort r.flags.1 r.flags.2.1
      r.flags.2.2.1 r.flags.2.2.2.1 r.flags.2.2.2.2 hI2 hc2
    obtain ⟨sts, Bad2, j1, j2, j3⟩ := run_limit jp heps hcl Valid rs (k + 1) { q with g := g3 }
      (fun x hx => hok x (List.mem_cons_of_mem _ hx)) (fun x hx => hnum x (List.mem_cons_of_mem _ hx)) hI3
      (by simp only; rw [(cleanup_shrinks h3).tab]; exact hl2) (by
        simp only
        rw [(cleanup_shrinks h3).tab]
        exact hV2)
    refine ⟨{ q with g := g3 } :: sts, fun R => ((fun D : ℕ → ℕ → ℕ → ℕ → ℝ => D k) ⁻¹' Bad1 R) ∪ Bad2 R,
      .cons st s1 q g3 r rs sts lik h1 hlik hex h3 j1, ?_, ?_⟩
    · have hlim : Filter.Tendsto (fun R => jointDraws.real (Bad1 R) + runDraws.real (Bad2 R)) Filter.atTop (nhds (0 + 0)) :=
        hB1.add j2
      rw [add_zero] at hlim
      exact tendsto_of_tendsto_of_tendsto_of_le_of_le tendsto_const_nhds hlim (fun R => measureReal_nonneg)
        fun R => (measureReal_union_le _ _).trans (add_le_add (eval_bad k _) le_rfl)
    · intro R
      filter_upwards [eval_ae k (hB2 R), j3 R] with D hD1 hD2
      rcases hD1 with hD1 | hD1
      · rcases hD2 with hD2 | hD2
        · exact .inl (.inr hD2)
        · right
          intro n s hs
          cases n with
          | zero =>
            obtain rfl := Option.some.inj hs
            rfl
          | succ n =>
            rw [List.getElem?_cons_succ] at hs
            have := hD2 n s hs
            unfold withDraws
            rw [List.take_succ_cons, List.flatMap_cons]
            unfold JRound.ops
            simp only [List.cons_append, List.nil_append, Jglmb.run, Jglmb.step]
            rw [h1]
            simp only
            rw [hD1]
            simp only
            have h3' : Glmb.cleanup r.env (withUpd jp R).base r.flags.1 r.flags.2.1 r.flags.2.2.1 r.flags.2.2.2.1
                r.flags.2.2.2.2 q.g = .ok g3 := h3
            rw [h3']
            exact this
      · exact .inl (.inl hD1)

/-- **C118.** For any time steps there is a run of an ideal filter, which computes the exact posterior in every step,
such that the probability that the joint filter goes through exactly the same states (after the first `n` time steps,
for every `n`) tends to 1 as the requested number of updates grows. -/
theorem C118_joint_run_exact (jp : JParams ℝ) (heps : 0 < jp.base.eps)
    (hcl : 0 < jp.base.clutterRate * jp.base.clutterDen) (Valid : F → Prop) (rounds : List (JRound ℝ τ F S C Z))
    (hok : ∀ r ∈ rounds, r.OK Valid)
    (hnum : ∀ r ∈ rounds, r.env.num.expNeg = (fun x => Real.exp (-x)) ∧ ∀ x, r.env.num.negLog x = -Real.log x) :
    ∃ sts : List (JSt ℝ τ F S C), IdealRun jp Jglmb.init rounds sts ∧
      Filter.Tendsto (fun R => runDraws.real {D | ∀ (n : ℕ) (s : JSt ℝ τ F S C), (Jglmb.init :: sts)[n]? = some s →
        Jglmb.run (withUpd jp R) Jglmb.init (((withDraws D 0 rounds).take n).flatMap JRound.ops) = .ok s})
        Filter.atTop (nhds 1) := by
  obtain ⟨sts, Bad, h1, h2, h3⟩ := run_limit jp heps hcl Valid rounds 0 Jglmb.init hok hnum init_tinv rfl
    (by simp [Jglmb.init, Glmb.init])
  refine ⟨sts, h1, ?_⟩
  have hlow : ∀ R, 1 - runDraws.real (Bad R) ≤ runDraws.real {D | ∀ (n : ℕ) (s : JSt ℝ τ F S C),
      (Jglmb.init :: sts)[n]? = some s →
      Jglmb.run (withUpd jp R) Jglmb.init (((withDraws D 0 rounds).take n).flatMap JRound.ops) = .ok s} := by
    intro R
    have hcov : runDraws.real Set.univ ≤ runDraws.real ({D | ∀ (n : ℕ) (s : JSt ℝ τ F S C),
        (Jglmb.init :: sts)[n]? = some s →
        Jglmb.run (withUpd jp R) Jglmb.init (((withDraws D 0 rounds).take n).flatMap JRound.ops) = .ok s} ∪ Bad R) := by
      refine (measureReal_congr ?_).le
      filter_upwards [h3 R] with D hD
      refine propext ⟨fun _ => ?_, fun _ => trivial⟩
      rcases hD with hD | hD
      · exact .inr hD
      · exact .inl hD
    have h4 := hcov.trans (measureReal_union_le _ _)
    have h5 : runDraws.real Set.univ = 1 := by simp
    rw [h5] at h4
    linarith
  have hlim : Filter.Tendsto (fun R => 1 - runDraws.real (Bad R)) Filter.atTop (nhds 1) := by
    simpa using h2.const_sub 1
  exact tendsto_of_tendsto_of_tendsto_of_le_of_le hlim tendsto_const_nhds hlow fun R => measureReal_le_one

/-- The hypotheses of C118 can be met: three time steps with a birth and two measurements each. -/
example : ∃ sts, IdealRun realJp Jglmb.init [realJRound 0, realJRound 1, realJRound 2] sts ∧ sts.length = 3 := by
  obtain ⟨sts, h, _⟩ := C118_joint_run_exact realJp (by norm_num [realJp, realPr]) (by norm_num [realJp, realPr])
    (fun _ => True) [realJRound 0, realJRound 1, realJRound 2] (by
      intro r hr
      simp only [List.mem_cons, List.not_mem_nil, or_false] at hr
      rcases hr with rfl | rfl | rfl <;> exact realJRound_ok _) (by
      intro r hr
      simp only [List.mem_cons, List.not_mem_nil, or_false] at hr
      rcases hr with rfl | rfl | rfl <;> exact ⟨rfl, fun _ => rfl⟩)
  refine ⟨sts, h, ?_⟩
  cases h with
  | cons _ _ _ _ _ _ _ _ _ _ _ _ h2 =>
    cases h2 with
    | cons _ _ _ _ _ _ _ _ _ _ _ _ h3 =>
      cases h3 with
      | cons _ _ _ _ _ _ _ _ _ _ _ _ h4 =>
        cases h4
        rfl

end Gasur.Props
