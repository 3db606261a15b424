import Verif.Props.GlmbCount
import Verif.Props.JglmbTrack

/-!
# Properties C123 and C124 for the joint GLMB filter
-/

set_option linter.unusedSectionVars false
set_option synthInstance.maxSize 2000
set_option synthInstance.maxHeartbeats 400000

namespace Gasur.Props

open Gasur.Glmb Gasur.Jglmb Gasur.Spec

variable {K τ F S C Z : Type*} [Field K] [LinearOrder K] [IsStrictOrderedRing K] [FloorRing K]
  [DecidableEq τ]

/-- Number of hypotheses of the joint filter after the calls `ops`, at most, if it was at most `N` before. -/
def jhypBound (jp : JParams K) : ℕ → List (JOp K τ F S C Z) → ℕ
  | N, [] => N
  | N, .predict .. :: os => jhypBound jp N os
  | N, .correct .. :: os => jhypBound jp (jp.base.reqUpd + N + N / 2) os
  | N, .cleanup _ _ cap _ _ _ :: os => jhypBound jp (if cap then min N jp.base.maxHyps else N) os
  | N, .extract .. :: os => jhypBound jp N os

/-- The square root of the environment of an update is not negative. -/
def JSqrtOk : JOp K τ F S C Z → Prop
  | .correct env _ _ _ => ∀ x, 0 ≤ env.num.sqrt x
  | _ => True

theorem forall₂_zipIdx {α β : Type*} {R : α → β → Prop} : ∀ {l : List α} {m : List β} {n : ℕ},
    List.Forall₂ (fun (x : α × ℕ) y => R x.1 y) (l.zipIdx n) m → List.Forall₂ R l m
  | [], _, _, h => by
    cases h
    exact .nil
  | a :: l, _, n, h => by
    cases h with
    | cons h1 h2 => exact .cons h1 (forall₂_zipIdx h2)

theorem jcorrect_size {env : Env K τ F S C Z} (hexp : ∀ x, 0 < env.num.expNeg x) (hsq : ∀ x, 0 ≤ env.num.sqrt x)
    {jp : JParams K} {births : List (Birth K F S C)} {draws : ℕ → ℕ → ℕ → K} (hd : DrawsOk draws) {meas : List Z}
    {st st' : JSt K τ F S C} (h : Jglmb.correct env jp births draws meas st = .ok st') :
    st'.g.hyps.length ≤ jp.base.reqUpd + st.g.hyps.length + st.g.hyps.length / 2 := by
  obtain ⟨blocks, ls, hs, _, _, h3, h4, h5, _⟩ := Jglmb.correct_ok h
  refine (cleanUpd_size h5).trans ((cleanPred_size hs).trans ?_)
  rw [normHyps_size h4]
  have h0 : 0 ≤ sumSqrt env st.g.hyps := List.sum_nonneg (by
    intro x hx
    obtain ⟨y, _, rfl⟩ := List.mem_map.1 hx
    exact hsq _)
  have h6 : List.Forall₂ (fun (x : Hyp K × ℕ) (l : List (Hyp K)) => (l.length : K) ≤
      (jp.base.reqUpd : K) * env.num.sqrt x.1.prob / sumSqrt env st.g.hyps + 3 / 2) st.g.hyps.zipIdx ls := by
    refine h3.imp ?_
    intro x l hx
    obtain ⟨_, _, _, rows, _, _, g3, _, rfl⟩ := Jglmb.corOne_ok hexp (hd x.2) hx
    rw [List.length_map]
    have hx0 : 0 ≤ (jp.base.reqUpd : K) * env.num.sqrt x.1.prob / sumSqrt env st.g.hyps :=
      div_nonneg (mul_nonneg (Nat.cast_nonneg _) (hsq _)) h0
    have e1 : (rows.length : K) ≤ _ := Nat.cast_le.2 g3
    have e2 := round_le_half _ hx0
    rw [Nat.cast_add, Nat.cast_one] at e1
    linarith
  have h7 := shares_le (sq := env.num.sqrt) (forall₂_zipIdx (R := fun (x : Hyp K) (l : List (Hyp K)) => (l.length : K) ≤
      (jp.base.reqUpd : K) * env.num.sqrt x.prob / sumSqrt env st.g.hyps + 3 / 2) h6)
  have h8 : ((2 * ls.flatten.length : ℕ) : K) ≤ ((2 * jp.base.reqUpd + 3 * st.g.hyps.length : ℕ) : K) := by
    push_cast
    linarith
  have h9 : 2 * ls.flatten.length ≤ 2 * jp.base.reqUpd + 3 * st.g.hyps.length := by exact_mod_cast h8
  omega

theorem jhypBound_append (jp : JParams K) : ∀ (a b : List (JOp K τ F S C Z)) (N : ℕ),
    jhypBound jp N (a ++ b) = jhypBound jp (jhypBound jp N a) b
  | [], b, N => rfl
  | .predict .. :: a, b, N => jhypBound_append jp a b _
  | .correct .. :: a, b, N => jhypBound_append jp a b _
  | .cleanup .. :: a, b, N => jhypBound_append jp a b _
  | .extract .. :: a, b, N => jhypBound_append jp a b _

theorem jstep_size {jp : JParams K} {st st' : JSt K τ F S C} {o : JOp K τ F S C Z} (ho : o.ok) (hq : JSqrtOk o)
    (h : Jglmb.step jp st o = .ok st') {N : ℕ} (hN : st.g.hyps.length ≤ N) :
    st'.g.hyps.length ≤ jhypBound jp N [o] := by
  cases o with
  | predict env lab births =>
    obtain ⟨_, survTab, _, rfl⟩ := Jglmb.predict_ok h
    exact hN
  | correct env births draws meas =>
    refine (jcorrect_size ho.1 hq ho.2 h).trans ?_
    simp only [jhypBound]
    omega
  | cleanup env bp bc be u c =>
    simp only [Jglmb.step] at h
    split at h
    · exact (nomatch h)
    · rename_i g hg
      obtain rfl := Except.ok.inj h
      refine (cleanup_hyps_size hg).trans ?_
      simp only [jhypBound]
      split <;> omega
  | extract u c =>
    simp only [Jglmb.step] at h
    split at h
    · exact (nomatch h)
    · rename_i g o hx
      obtain rfl := Except.ok.inj h
      simp only [jhypBound]
      rw [(Glmb.extract_frame hx).2.1]
      exact hN

theorem jrun_size {jp : JParams K} : ∀ (ops : List (JOp K τ F S C Z)) (st st' : JSt K τ F S C)
    (N : ℕ), (∀ o ∈ ops, o.ok) → (∀ o ∈ ops, JSqrtOk o) → st.g.hyps.length ≤ N → Jglmb.run jp st ops = .ok st' →
      st'.g.hyps.length ≤ jhypBound jp N ops
  | [], st, st', N, _, _, hN, h => by
    obtain rfl := Except.ok.inj h
    exact hN
  | o :: os, st, st', N, ho, hq, hN, h => by
    unfold Jglmb.run at h
    split at h
    · exact (nomatch h)
    · rename_i s hs
      have := jrun_size os s st' _ (fun x hx => ho x (List.mem_cons_of_mem _ hx))
        (fun x hx => hq x (List.mem_cons_of_mem _ hx))
        (jstep_size (ho o List.mem_cons_self) (hq o List.mem_cons_self) hs hN) h
      rw [← jhypBound_append] at this
      exact this

/-- **C123, joint filter.** After any sequence of calls on a new joint filter there are at most `jhypBound` hypotheses,
whatever is drawn at random. -/
theorem C123_joint_hypotheses (jp : JParams K) (ops : List (JOp K τ F S C Z)) (hok : ∀ o ∈ ops, o.ok)
    (hq : ∀ o ∈ ops, JSqrtOk o) (st : JSt K τ F S C) (h : Jglmb.run jp Jglmb.init ops = .ok st) :
    st.g.hyps.length ≤ jhypBound jp 1 ops :=
  jrun_size ops Jglmb.init st 1 hok hq (by simp [Jglmb.init, Glmb.init]) h

/-- One time step of the joint filter: `predict`, `correct`, `cleanup` with capping. -/
structure JCapRound (K τ F S C Z : Type*) where
  env : Env K τ F S C Z
  lab : τ
  births : List (Birth K F S C)
  draws : ℕ → ℕ → ℕ → K
  meas : List Z
  flags : Bool × Bool × Bool × Bool

/-- The calls of a time step. -/
def JCapRound.ops (r : JCapRound K τ F S C Z) : List (JOp K τ F S C Z) :=
  [.predict r.env r.lab r.births, .correct r.env r.births r.draws r.meas,
    .cleanup r.env r.flags.1 true r.flags.2.1 r.flags.2.2.1 r.flags.2.2.2]

/-- **C123, joint filter, time steps.** The number of hypotheses is never larger than
`req_upd + 3 max(1, max_hyps) / 2`, and never larger than `max_hyps` after a time step, however many time steps there
are, whatever is born, measured and drawn. -/
theorem C123_joint_memory (jp : JParams K) (rounds : List (JCapRound K τ F S C Z))
    (now : JCapRound K τ F S C Z) (part : List (JOp K τ F S C Z)) (hpart : part <+: now.ops)
    (hr : ∀ r ∈ rounds ++ [now], (∀ x, 0 ≤ r.env.num.sqrt x) ∧ (∀ x, 0 < r.env.num.expNeg x) ∧ DrawsOk r.draws)
    (st : JSt K τ F S C) (h : Jglmb.run jp Jglmb.init (rounds.flatMap JCapRound.ops ++ part) = .ok st) :
    st.g.hyps.length ≤ jp.base.reqUpd + max 1 jp.base.maxHyps + max 1 jp.base.maxHyps / 2 ∧
      (part = [] → rounds ≠ [] → st.g.hyps.length ≤ jp.base.maxHyps) := by
  have hok : ∀ r ∈ rounds ++ [now], ∀ o ∈ r.ops, o.ok ∧ JSqrtOk o := by
    intro r hm o ho
    simp only [JCapRound.ops, List.mem_cons, List.not_mem_nil, or_false] at ho
    rcases ho with rfl | rfl | rfl
    · exact ⟨trivial, trivial⟩
    · exact ⟨⟨(hr r hm).2.1, (hr r hm).2.2⟩, (hr r hm).1⟩
    · exact ⟨trivial, trivial⟩
  have hall : ∀ o ∈ rounds.flatMap JCapRound.ops ++ part, o.ok ∧ JSqrtOk o := by
    intro o ho
    rcases List.mem_append.1 ho with ho | ho
    · obtain ⟨r, hr, ho⟩ := List.mem_flatMap.1 ho
      exact hok r (List.mem_append_left _ hr) o ho
    · exact hok now (by simp) o (hpart.subset ho)
  have hle := C123_joint_hypotheses jp _ (fun o ho => (hall o ho).1) (fun o ho => (hall o ho).2) st h
  rw [jhypBound_append] at hle
  have key : ∀ (l : List (JCapRound K τ F S C Z)) (N : ℕ), l ≠ [] →
      jhypBound jp N (l.flatMap JCapRound.ops) ≤ jp.base.maxHyps := by
    intro l
    induction l with
    | nil => exact fun N hne => (hne rfl).elim
    | cons r l ih =>
      intro N _
      rw [List.flatMap_cons, jhypBound_append]
      by_cases hl : l = []
      · subst hl
        simp only [JCapRound.ops, jhypBound, if_true, List.flatMap_nil]
        omega
      · exact ih _ hl
  have h1 : jhypBound jp 1 (rounds.flatMap JCapRound.ops) ≤ max 1 jp.base.maxHyps := by
    by_cases hr : rounds = []
    · subst hr
      simp [jhypBound]
    · exact (key rounds 1 hr).trans (le_max_right _ _)
  constructor
  · refine hle.trans ?_
    generalize jhypBound jp 1 (rounds.flatMap JCapRound.ops) = N at h1
    unfold JCapRound.ops at hpart
    rw [List.prefix_cons_iff] at hpart
    rcases hpart with rfl | ⟨t, rfl, ht⟩
    · simp only [jhypBound]
      omega
    · rw [List.prefix_cons_iff] at ht
      rcases ht with rfl | ⟨t, rfl, ht⟩
      · simp only [jhypBound]
        omega
      · rw [List.prefix_cons_iff] at ht
        rcases ht with rfl | ⟨t, rfl, ht⟩
        · simp only [jhypBound]
          omega
        · obtain rfl := List.prefix_nil.1 ht
          simp only [jhypBound, if_true]
          omega
  · rintro rfl hr
    exact hle.trans (key rounds 1 hr)

/-! ### C124 -/

/-- All hypotheses have at most `n` candidates: their own tracks and the new ones that are not yet corrected. -/
structure JFew (n : ℕ) (st : JSt K τ F S C) : Prop where
  hyps : ∀ x ∈ st.g.hyps, x.tracks.length + (st.g.tab.length - st.oldLen) ≤ n
  pending : st.g.tab.length - st.oldLen ≤ n
  le : st.oldLen ≤ st.g.tab.length
  card : st.g.card.length ≤ n + 1

theorem jpredict_few {env : Env K τ F S C Z} {lab : τ} {births : List (Birth K F S C)} {st st' : JSt K τ F S C} {n : ℕ}
    (hn : JFew n st) (h : Jglmb.predict env lab births st = .ok st') : JFew (n + births.length) st' := by
  obtain ⟨_, survTab, ht, rfl⟩ := Jglmb.predict_ok h
  have h1 : (birthTab lab st.g.cntr births ++ survTab).length = births.length + st.g.tab.length := by
    rw [List.length_append, birthTab_length, ht.length_eq]
  have h2 := hn.le
  have h3 := hn.pending
  refine ⟨?_, ?_, ?_, hn.card.trans (by omega)⟩
  · intro x hx
    have := hn.hyps x hx
    dsimp only
    rw [h1]
    omega
  · dsimp only
    rw [h1]
    omega
  · dsimp only
    rw [h1]
    omega

theorem jcorrect_few {env : Env K τ F S C Z} (hexp : ∀ x, 0 < env.num.expNeg x) {jp : JParams K}
    {births : List (Birth K F S C)} {draws : ℕ → ℕ → ℕ → K} (hd : DrawsOk draws) {meas : List Z}
    {st st' : JSt K τ F S C} {n : ℕ} (hn : JFew n st) (h : Jglmb.correct env jp births draws meas st = .ok st') :
    JFew n st' := by
  obtain ⟨blocks, ls, hs, _, h2, h3, h4, h5, h6⟩ := Jglmb.correct_ok h
  have k1 : ∀ x ∈ hs, x.tracks.length ≤ n := by
    intro x hx
    obtain ⟨y, hy, ht, _⟩ := normHyps_mem h4 hx
    obtain ⟨l, hl', hyl⟩ := List.mem_flatten.1 hy
    obtain ⟨z, hz, hzl⟩ := forall₂_mem_right h3 hl'
    obtain ⟨_, _, _, rows, _, _, _, _, rfl⟩ := Jglmb.corOne_ok hexp (hd z.2) hzl
    obtain ⟨ac, _, rfl⟩ := List.mem_map.1 hyl
    have hzm : z.1 ∈ st.g.hyps := (List.mem_zipIdx hz).2.2 ▸ List.getElem_mem _
    have e1 := hn.hyps z.1 hzm
    have e2 := hn.le
    rw [ht]
    dsimp only
    refine (List.length_filterMap_le _ _).trans ?_
    rw [List.length_finRange]
    unfold tinds
    rw [List.length_append, List.length_range, List.length_map]
    omega
  have k2 : ∀ x ∈ st'.g.hyps, x.tracks.length ≤ n := by
    intro x hx
    obtain ⟨_, _, _, _, h7⟩ := cleanUpd_ok h5
    rw [h7] at hx
    obtain ⟨y, hy, rfl⟩ := List.mem_map.1 hx
    simp only [List.length_map]
    obtain ⟨z, hz, he⟩ := cleanPred_mem (List.mem_filter.1 hy).1
    rw [he]
    exact k1 z hz
  have k3 : st'.oldLen = st'.g.tab.length := by rw [h6]
  refine ⟨?_, by omega, by omega, ?_⟩
  · intro x hx
    have := k2 x hx
    omega
  · rw [h6]
    exact calcCard_size k1

theorem jstep_few {jp : JParams K} {st st' : JSt K τ F S C} {o : JOp K τ F S C Z} (ho : o.ok) {n : ℕ}
    (hn : JFew n st) (h : Jglmb.step jp st o = .ok st') : JFew (n + (birthsOf (asOp o)).length) st' := by
  cases o with
  | predict env lab births => exact jpredict_few hn h
  | correct env births draws meas => exact jcorrect_few ho.1 ho.2 hn h
  | cleanup env bp bc be u c =>
    simp only [Jglmb.step] at h
    split at h
    · exact (nomatch h)
    · rename_i g hg
      obtain rfl := Except.ok.inj h
      have e1 := (cleanup_shrinks hg)
      have e2 : FewTracks n g := by
        refine cleanup_few (st := st.g) ⟨fun x hx => ?_, hn.card⟩ hg
        have := hn.hyps x hx
        omega
      refine ⟨?_, ?_, ?_, e2.card⟩
      · intro x hx
        obtain ⟨y, hy, ht⟩ := e1.hyps x hx
        dsimp only
        rw [ht, e1.tab]
        exact hn.hyps y hy
      · dsimp only
        rw [e1.tab]
        exact hn.pending
      · dsimp only
        rw [e1.tab]
        exact hn.le
  | extract u c =>
    simp only [Jglmb.step] at h
    split at h
    · exact (nomatch h)
    · rename_i g o hx
      obtain rfl := Except.ok.inj h
      obtain ⟨q0, q1, q2, _⟩ := Glmb.extract_frame hx
      exact ⟨by dsimp only; rw [q1, q0]; exact hn.hyps, by dsimp only; rw [q0]; exact hn.pending,
        by dsimp only; rw [q0]; exact hn.le, by dsimp only; rw [q2]; exact hn.card⟩

theorem jrun_few {jp : JParams K} : ∀ (ops : List (JOp K τ F S C Z)) (st st' : JSt K τ F S C) (n : ℕ),
    (∀ o ∈ ops, o.ok) → JFew n st → Jglmb.run jp st ops = .ok st' →
      JFew (n + ((ops.map asOp).flatMap birthsOf).length) st'
  | [], st, st', n, _, hn, h => by
    obtain rfl := Except.ok.inj h
    exact hn
  | o :: os, st, st', n, ho, hn, h => by
    unfold Jglmb.run at h
    split at h
    · exact (nomatch h)
    · rename_i s hs
      have := jrun_few os s st' _ (fun x hx => ho x (List.mem_cons_of_mem _ hx))
        (jstep_few (ho o List.mem_cons_self) hn hs) h
      rw [List.map_cons, List.flatMap_cons, List.length_append, ← Nat.add_assoc]
      exact this

/-- **C124, joint filter.** After any sequence of calls on a new joint filter, no hypothesis has more tracks than there
were birth terms in all `predict` calls together, not even together with the new tracks that are not yet corrected, and
the cardinality distribution has no entry for larger numbers. -/
theorem C124_joint_tracks (jp : JParams K) (ops : List (JOp K τ F S C Z)) (hok : ∀ o ∈ ops, o.ok) (st : JSt K τ F S C)
    (h : Jglmb.run jp Jglmb.init ops = .ok st) :
    (∀ hyp ∈ st.g.hyps, hyp.tracks.length + (st.g.tab.length - st.oldLen) ≤ ((ops.map asOp).flatMap birthsOf).length) ∧
      st.g.card.length ≤ ((ops.map asOp).flatMap birthsOf).length + 1 := by
  have := jrun_few ops Jglmb.init st 0 hok ⟨by simp [Jglmb.init, Glmb.init], by simp [Jglmb.init, Glmb.init],
    by simp [Jglmb.init, Glmb.init], by simp [Jglmb.init, Glmb.init]⟩ h
  rw [Nat.zero_add] at this
  exact ⟨this.hyps, this.card⟩

/-! Non-vacuity. -/

/-- Random draws of the example. -/
def exSizeDraws : ℕ → ℕ → ℕ → ℚ := fun _ s _ => if s % 2 = 0 then 1 / 2 else 9 / 10

theorem exSizeDraws_ok : DrawsOk exSizeDraws := by
  intro n s v
  dsimp only [exSizeDraws]
  split <;> norm_num

/-- Two time steps, the first with two measurements, the second with one. -/
def exJRounds : List (JCapRound ℚ ℕ Unit ℚ Unit ℚ) :=
  [⟨exSizeEnv, 0, [⟨[()], [1], [0], [()], 9 / 10⟩], exSizeDraws, [4, 8], (true, true, true, true)⟩,
   ⟨exSizeEnv, 1, [⟨[()], [1], [10], [()], 9 / 10⟩], exSizeDraws, [6], (true, true, true, true)⟩]

/-- The hypotheses of C123 and C124 hold for these time steps with `max_hyps = 2`. The second `correct` call makes
4 hypotheses, 2 are left after the time step; there are two birth terms, and hypotheses with two tracks. -/
example : (∀ r ∈ exJRounds, (∀ x, 0 ≤ r.env.num.sqrt x) ∧ (∀ x, 0 < r.env.num.expNeg x) ∧ DrawsOk r.draws) ∧
    (Jglmb.run { exJPr with base := { exJPr.base with maxHyps := 2 } } Jglmb.init
      (exJRounds.flatMap JCapRound.ops).dropLast).toOption.map (fun st => st.g.hyps.map fun x => x.tracks.length) =
        some [2, 2, 2, 2] ∧
    (Jglmb.run { exJPr with base := { exJPr.base with maxHyps := 2 } } Jglmb.init
      (exJRounds.flatMap JCapRound.ops)).toOption.map (fun st => st.g.hyps.map fun x => x.tracks.length) =
        some [2, 2] ∧
    (((exJRounds.flatMap JCapRound.ops).map asOp).flatMap birthsOf).length = 2 := by
  refine ⟨?_, by decide +kernel, by decide +kernel, by decide⟩
  intro r hr
  simp only [exJRounds, List.mem_cons, List.not_mem_nil, or_false] at hr
  rcases hr with rfl | rfl <;> exact ⟨exSizeEnv_sqrt, exTrackEnv_exp, exSizeDraws_ok⟩

end Gasur.Props
