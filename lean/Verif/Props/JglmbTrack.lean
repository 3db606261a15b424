import Verif.Props.GlmbDistinct
import Verif.Props.Jglmb

/-!
# Properties C115 and C116 for the joint GLMB filter
-/

set_option linter.unusedSectionVars false
set_option synthInstance.maxSize 2000
set_option synthInstance.maxHeartbeats 400000

namespace Gasur.Props

open Gasur.Glmb Gasur.Jglmb Gasur.Spec

variable {K τ F S C Z : Type*} [Field K] [LinearOrder K] [IsStrictOrderedRing K] [FloorRing K]
  [DecidableEq τ]

/-- A call on the joint filter as the call of the same name on a GLMB filter. -/
def asOp : JOp K τ F S C Z → Op K τ F S C Z
  | .predict env t births => .predict env t births
  | .correct env _ _ meas => .correct env meas
  | .cleanup env bp bc be u c => .cleanup env bp bc be u c
  | .extract u c => .extract u c

/-- What holds after the calls `ops` on a joint filter. -/
structure JLifeInv (jp : JParams K) (ops : List (Op K τ F S C Z)) (st : JSt K τ F S C) : Prop where
  cntr : st.g.cntr = ops.countP endsStep
  lives : ∀ e ∈ st.g.tab, ∃ l, Lives jp.base ops l ∧ Stores e l

theorem jstep_life {jp : JParams K} {ops : List (Op K τ F S C Z)} {st st' : JSt K τ F S C}
    (o : JOp K τ F S C Z) (hb : ∀ b ∈ birthsOf (asOp o), BirthOk b) (hI : JLifeInv jp ops st)
    (h : Jglmb.step jp st o = .ok st') : JLifeInv jp (ops ++ [asOp o]) st' := by
  cases o with
  | predict env t births =>
    obtain ⟨_, survTab, h1, rfl⟩ := Jglmb.predict_ok h
    refine ⟨by simp [asOp, endsStep, ← hI.cntr], ?_⟩
    intro e' he'
    rcases List.mem_append.1 he' with he' | he'
    · unfold birthTab at he'
      obtain ⟨⟨b, i⟩, hbi, rfl⟩ := List.mem_map.1 he'
      rw [List.mem_zipIdx_iff_getElem?] at hbi
      refine ⟨_, Lives.born ops env t births i b hbi, ?_⟩
      rw [← hI.cntr]
      exact birth_stores t i st.g.cntr b (hb b (List.mem_of_getElem? hbi))
    · obtain ⟨e, he, hp⟩ := forall₂_mem_right h1 he'
      obtain ⟨l, hl, hs⟩ := hI.lives e he
      exact ⟨_, Lives.moved ops l hl env t births, predict_stores hs hp⟩
  | correct env births draws meas =>
    refine ⟨?_, ?_⟩
    · obtain ⟨_, _, _, _, _, _, _, _, h3⟩ := Jglmb.correct_ok h
      rw [h3]
      simp [asOp, endsStep, ← hI.cntr]
    · intro e' he'
      obtain ⟨e, he, m, hu⟩ := Jglmb.correct_tab h he'
      obtain ⟨l, hl, hs⟩ := hI.lives e he
      rcases hu with ⟨rfl, rfl⟩ | ⟨j, z, e0, c, rfl, hz, hc, rfl⟩
      · exact ⟨_, Lives.missed ops l hl env meas, ⟨hs.label, hs.born, by simp [addMeas, hs.assoc], hs.filts,
          hs.states, hs.covs, hs.weights⟩⟩
      · obtain ⟨now', hu, hs'⟩ := correct_stores hs hc
        exact ⟨_, Lives.detected ops l hl env meas j z hz now' hu, ⟨hs'.label, hs'.born,
          by simp [addMeas, hs'.assoc], hs'.filts, hs'.states, hs'.covs, hs'.weights⟩⟩
  | cleanup env bp bc be u c =>
    simp only [Jglmb.step] at h
    split at h
    · exact (nomatch h)
    · rename_i g hg
      obtain rfl := Except.ok.inj h
      refine ⟨?_, ?_⟩
      · obtain ⟨s2, k1, k2, k3, ⟨_, rfl⟩ | ⟨_, o, k4⟩⟩ := cleanup_pre hg
        · simp [k3, asOp, endsStep, ← hI.cntr]
        · simp [(extract_frame k4).2.2.2, k3, asOp, endsStep, ← hI.cntr]
      · intro e' he'
        rw [(cleanup_shrinks hg).tab] at he'
        obtain ⟨l, hl, hs⟩ := hI.lives e' he'
        exact ⟨l, Lives.cleaned ops l hl env bp bc be u c, hs⟩
  | extract u c =>
    simp only [Jglmb.step] at h
    split at h
    · exact (nomatch h)
    · rename_i g o hg
      obtain rfl := Except.ok.inj h
      refine ⟨?_, ?_⟩
      · simp [(extract_frame hg).2.2.2, asOp, endsStep, ← hI.cntr]
      · intro e' he'
        rw [(extract_frame hg).1] at he'
        obtain ⟨l, hl, hs⟩ := hI.lives e' he'
        exact ⟨l, Lives.extracted ops l hl u c, hs⟩

theorem jrun_life {jp : JParams K} : ∀ (ops : List (JOp K τ F S C Z)) (pre : List (Op K τ F S C Z))
    (st st' : JSt K τ F S C), (∀ o ∈ ops, ∀ b ∈ birthsOf (asOp o), BirthOk b) → JLifeInv jp pre st →
    Jglmb.run jp st ops = .ok st' → JLifeInv jp (pre ++ ops.map asOp) st'
  | [], pre, st, st', _, hI, h => by
    simp only [Jglmb.run, Except.ok.injEq] at h
    subst h
    simpa using hI
  | o :: os, pre, st, st', hb, hI, h => by
    unfold Jglmb.run at h
    split at h
    · exact (nomatch h)
    · rename_i s hs
      have := jrun_life os (pre ++ [asOp o]) s st' (fun x hx => hb x (List.mem_cons_of_mem _ hx))
        (jstep_life o (hb o List.mem_cons_self) hI hs) h
      simpa using this

/-- **C115, joint filter.** After any sequence of calls on a new joint filter, every entry of the track table stores
the life of a single object, as for the GLMB filter: the random draws only decide which lives are kept. -/
theorem C115_joint_track_life (jp : JParams K) (ops : List (JOp K τ F S C Z))
    (hb : ∀ o ∈ ops, ∀ b ∈ birthsOf (asOp o), BirthOk b) (st : JSt K τ F S C)
    (h : Jglmb.run jp Jglmb.init ops = .ok st) :
    ∀ e ∈ st.g.tab, ∃ l, Lives jp.base (ops.map asOp) l ∧ Stores e l := by
  have := jrun_life ops [] Jglmb.init st hb ⟨rfl, by simp [Jglmb.init, Glmb.init]⟩ h
  simpa using this.lives

/-! ### C116 -/

theorem jpredict_ident {env : Env K τ F S C Z} {lab : τ}
    {births : List (Birth K F S C)} {st st' : JSt K τ F S C} {past : List τ}
    (hpast : ∀ e ∈ st.g.tab, e.label.1 ∈ past)
    (hlab : lab ∉ past) (hT : st.g.tab.Pairwise fun e e' => ident e ≠ ident e')
    (h : Jglmb.predict env lab births st = .ok st') :
    (st'.g.tab.Pairwise fun e e' => ident e ≠ ident e') ∧ ∀ e ∈ st'.g.tab, e.label.1 ∈ lab :: past := by
  obtain ⟨_, survTab, h1, rfl⟩ := Jglmb.predict_ok h
  constructor
  · dsimp only
    rw [List.pairwise_append]
    refine ⟨?_, ?_, ?_⟩
    · rw [List.pairwise_iff_getElem]
      intro i j hi hj hij he
      have e1 := (birthTab_get (List.getElem?_eq_getElem hi)).1
      have e2 := (birthTab_get (List.getElem?_eq_getElem hj)).1
      have := congrArg (fun x => x.1.2) he
      simp only [ident, e1, e2] at this
      omega
    · refine forall₂_pairwise ?_ h1 hT
      intro a b a' b' hab hab' hne he
      obtain ⟨g1, _, g3⟩ := predictEntry_label hab
      obtain ⟨g1', _, g3'⟩ := predictEntry_label hab'
      apply hne
      simpa [ident, g1, g3, g1', g3'] using he
    · intro a ha b hb he
      obtain ⟨k, hk⟩ := List.mem_iff_getElem?.1 ha
      obtain ⟨b0, hb0, hp⟩ := forall₂_mem_right h1 hb
      have e1 := (birthTab_get hk).1
      have e2 := (predictEntry_label hp).1
      have := congrArg (fun x => x.1.1) he
      simp only [ident, e1, e2] at this
      exact hlab (this ▸ hpast b0 hb0)
  · intro e he
    rcases List.mem_append.1 he with he | he
    · obtain ⟨k, hk⟩ := List.mem_iff_getElem?.1 he
      rw [(birthTab_get hk).1]
      exact List.mem_cons_self
    · obtain ⟨e0, he0, hp⟩ := forall₂_mem_right h1 he
      rw [(predictEntry_label hp).1]
      exact List.mem_cons_of_mem _ (hpast e0 he0)

theorem jcorrect_ident {env : Env K τ F S C Z} {jp : JParams K} {births : List (Birth K F S C)}
    {draws : ℕ → ℕ → ℕ → K} {meas : List Z} {st st' : JSt K τ F S C}
    (hT : st.g.tab.Pairwise fun e e' => ident e ≠ ident e')
    (h : Jglmb.correct env jp births draws meas st = .ok st') :
    st'.g.tab.Pairwise fun e e' => ident e ≠ ident e' := by
  obtain ⟨blocks, ls, hs, h1, _, _, _, h3, _⟩ := Jglmb.correct_ok h
  obtain ⟨_, _, _, hinv, _⟩ := cleanUpd_ok h3
  rw [List.pairwise_iff_getElem]
  intro k k' hk hk' hlt he
  obtain ⟨i, _, hik, hie⟩ := hinv k _ (List.getElem?_eq_getElem hk)
  obtain ⟨i', _, hik', hie'⟩ := hinv k' _ (List.getElem?_eq_getElem hk')
  have := upTab_ident_inj h1 hT hie hie' he
  subst this
  omega

/-- The sorting routine used by a call is correct. -/
def JSortsWell (o : JOp K τ F S C Z) : Prop := SortsWell (asOp o)

theorem jstep_distinct {jp : JParams K} {st st' : JSt K τ F S C} (o : JOp K τ F S C Z) (ho : JSortsWell o)
    (hd : HypsDistinct st.g.hyps) (h : Jglmb.step jp st o = .ok st') : HypsDistinct st'.g.hyps := by
  cases o with
  | predict env t births =>
    obtain ⟨_, survTab, _, rfl⟩ := Jglmb.predict_ok h
    exact hd
  | correct env births draws meas =>
    obtain ⟨blocks, ls, hs, _, _, _, _, h3, _⟩ := Jglmb.correct_ok h
    exact cleanUpd_distinct (cleanPred_keys hs) h3
  | cleanup env bp bc be u c =>
    simp only [Jglmb.step] at h
    split at h
    · exact (nomatch h)
    · rename_i g hg
      obtain rfl := Except.ok.inj h
      exact cleanup_distinct ho hd hg
  | extract u c =>
    simp only [Jglmb.step] at h
    split at h
    · exact (nomatch h)
    · rename_i g o hg
      obtain rfl := Except.ok.inj h
      dsimp only
      rw [(extract_frame hg).2.1]
      exact hd

theorem jstep_ident {jp : JParams K} {st st' : JSt K τ F S C} (o : JOp K τ F S C Z) {past : List τ}
    (hpast : ∀ e ∈ st.g.tab, e.label.1 ∈ past) (hl : ∀ t ∈ o.labels, t ∉ past)
    (hT : st.g.tab.Pairwise fun e e' => ident e ≠ ident e') (h : Jglmb.step jp st o = .ok st') :
    (st'.g.tab.Pairwise fun e e' => ident e ≠ ident e') ∧ ∀ e ∈ st'.g.tab, e.label.1 ∈ o.labels ++ past := by
  cases o with
  | predict env t births => exact jpredict_ident hpast (hl t (by simp [JOp.labels])) hT h
  | correct env births draws meas =>
    refine ⟨jcorrect_ident hT h, ?_⟩
    intro e' he'
    obtain ⟨e, he, m, hu⟩ := Jglmb.correct_tab h he'
    rw [hu.label.1]
    exact hpast e he
  | cleanup env bp bc be u c =>
    simp only [Jglmb.step] at h
    split at h
    · exact (nomatch h)
    · rename_i g hg
      obtain rfl := Except.ok.inj h
      dsimp only
      rw [(cleanup_shrinks hg).tab]
      exact ⟨hT, hpast⟩
  | extract u c =>
    simp only [Jglmb.step] at h
    split at h
    · exact (nomatch h)
    · rename_i g o hg
      obtain rfl := Except.ok.inj h
      dsimp only
      rw [(extract_frame hg).1]
      exact ⟨hT, hpast⟩

theorem jrun_distinct {jp : JParams K} : ∀ (ops : List (JOp K τ F S C Z))
    (past : List τ) (st st' : JSt K τ F S C), (∀ e ∈ st.g.tab, e.label.1 ∈ past) → (∀ o ∈ ops, JSortsWell o) →
    (ops.flatMap JOp.labels).Nodup → (∀ t ∈ ops.flatMap JOp.labels, t ∉ past) →
    (st.g.tab.Pairwise fun e e' => ident e ≠ ident e') → HypsDistinct st.g.hyps →
    Jglmb.run jp st ops = .ok st' →
    (st'.g.tab.Pairwise fun e e' => ident e ≠ ident e') ∧ HypsDistinct st'.g.hyps
  | [], past, st, st', h, _, _, _, hT, hd, hr => by
    simp only [Jglmb.run, Except.ok.injEq] at hr
    subst hr
    exact ⟨hT, hd⟩
  | o :: os, past, st, st', h, hw, hnd, hdis, hT, hd, hr => by
    unfold Jglmb.run at hr
    split at hr
    · exact (nomatch hr)
    · rename_i s hs
      rw [List.flatMap_cons, List.nodup_append] at hnd
      rw [List.flatMap_cons] at hdis
      obtain ⟨q1, q2⟩ := jstep_ident o h (fun t ht => hdis t (List.mem_append_left _ ht)) hT hs
      refine jrun_distinct os (o.labels ++ past) s st' q2
        (fun x hx => hw x (List.mem_cons_of_mem _ hx)) hnd.2.1 ?_ q1
        (jstep_distinct o (hw o List.mem_cons_self) hd hs) hr
      intro t ht hc
      rcases List.mem_append.1 hc with hc | hc
      · exact hnd.2.2 t hc t ht rfl
      · exact hdis t (List.mem_append_right _ ht) hc

/-- **C116, joint filter.** The same holds for the joint filter. -/
theorem C116_joint_distinct (jp : JParams K) (ops : List (JOp K τ F S C Z)) (hok : ∀ o ∈ ops, o.ok)
    (hdist : (ops.flatMap JOp.labels).Nodup) (hsort : ∀ o ∈ ops, JSortsWell o) (st : JSt K τ F S C)
    (h : Jglmb.run jp Jglmb.init ops = .ok st) :
    (∀ (i j : ℕ) (e e' : Entry K τ F S C), st.g.tab[i]? = some e → st.g.tab[j]? = some e' → e.label = e'.label →
      e.mHist = e'.mHist → i = j) ∧
    (∀ (i j : ℕ) (a b : Hyp K), st.g.hyps[i]? = some a → st.g.hyps[j]? = some b →
      (∀ x, HasTrack st.g a x ↔ HasTrack st.g b x) → i = j) := by
  obtain ⟨hT, hd⟩ := jrun_distinct ops [] Jglmb.init st (by simp [Jglmb.init, Glmb.init]) hsort hdist (by simp)
    (by simp [Jglmb.init, Glmb.init]) (by simp [Jglmb.init, Glmb.init, HypsDistinct]) h
  have hv := C54_tracks_valid jp ops hok st h
  exact distinct_spec ⟨fun x hx => (hv x hx).2, fun x hx => (hv x hx).1⟩ hT hd

/-- Parameters of the example. -/
def exJPr : JParams ℚ := ⟨{ exTrackPr with reqUpd := 6 }, 9 / 10, 9 / 10⟩

/-- Two time steps with one birth term each and two measurements, then one. -/
def exJOps : List (JOp ℚ ℕ Unit ℚ Unit ℚ) :=
  [.predict exTrackEnv 0 [⟨[()], [1], [0], [()], 9 / 10⟩],
   .correct exTrackEnv [⟨[()], [1], [0], [()], 9 / 10⟩] (fun _ s _ => if s % 2 = 0 then 1 / 2 else 9 / 10) [4, 8],
   .cleanup exTrackEnv true true true true true,
   .predict exTrackEnv 1 [⟨[()], [1], [10], [()], 9 / 10⟩],
   .correct exTrackEnv [⟨[()], [1], [10], [()], 9 / 10⟩] (fun _ s _ => if s % 2 = 0 then 1 / 2 else 9 / 10) [6]]

theorem exTrackEnv_exp (x : ℚ) : 0 < exTrackEnv.num.expNeg x := by
  simp only [exTrackEnv]
  split
  · linarith
  · rename_i h
    have : 0 < x := not_le.1 h
    positivity

/-- The hypotheses of the two theorems hold for the run `exJOps`, after which there are six hypotheses and five
tracks. -/
example : (∀ o ∈ exJOps, ∀ b ∈ birthsOf (asOp o), BirthOk b) ∧ (∀ o ∈ exJOps, o.ok) ∧
    (exJOps.flatMap JOp.labels).Nodup ∧ (∀ o ∈ exJOps, JSortsWell o) ∧
    (Jglmb.run exJPr Jglmb.init exJOps).toOption.map (fun st => (st.g.tab.map fun e => (e.label, e.mHist),
      st.g.hyps.map fun h => h.tracks)) =
      some ([((1, 0), [none]), ((0, 0), [none, none]), ((0, 0), [some 0, none]), ((0, 0), [some 1, none]),
        ((1, 0), [some 0])], [[0, 1], [4, 1], [0, 2], [4, 2], [0, 3], [4, 3]]) := by
  refine ⟨?_, ?_, by decide, ?_, by decide +kernel⟩
  · intro o ho b hb
    simp only [exJOps, List.mem_cons, List.not_mem_nil, or_false] at ho
    rcases ho with rfl | rfl | rfl | rfl | rfl <;>
      simp only [birthsOf, asOp, List.mem_singleton, List.not_mem_nil] at hb <;>
      subst hb <;> exact ⟨rfl, rfl, rfl⟩
  · have hd : DrawsOk (fun (_ : ℕ) (s : ℕ) (_ : ℕ) => if s % 2 = 0 then (1 / 2 : ℚ) else 9 / 10) := by
      intro n s v
      dsimp only
      split <;> norm_num
    intro o ho
    simp only [exJOps, List.mem_cons, List.not_mem_nil, or_false] at ho
    rcases ho with rfl | rfl | rfl | rfl | rfl
    · trivial
    · exact ⟨exTrackEnv_exp, hd⟩
    · trivial
    · trivial
    · exact ⟨exTrackEnv_exp, hd⟩
  · intro o ho
    simp only [exJOps, List.mem_cons, List.not_mem_nil, or_false] at ho
    rcases ho with rfl | rfl | rfl | rfl | rfl
    · trivial
    · trivial
    · exact exTrackEnv_sorts
    · trivial
    · trivial

end Gasur.Props
