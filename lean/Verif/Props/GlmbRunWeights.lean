import Verif.Props.GlmbTwice
import Verif.Props.Jglmb
import Verif.Props.GlmbReport
import Verif.Props.JglmbReport

/-!
# Properties C16 and C138 for whole runs
-/

set_option linter.unusedSectionVars false

namespace Gasur.Props

open Gasur.Glmb Gasur.Jglmb Gasur.Spec

variable {K τ F S C Z : Type*} [Field K] [LinearOrder K] [IsStrictOrderedRing K] [FloorRing K]
  [DecidableEq τ]

/-- The parameters of a call are probabilities: `exp` is not negative and detection probabilities are at most one. -/
def NumbersOk : Glmb.Op K τ F S C Z → Prop
  | .predict env _ _ => (∀ x, 0 ≤ env.num.expNeg x) ∧ ∀ e, env.pdet e ≤ 1
  | .correct env _ => (∀ x, 0 ≤ env.num.expNeg x) ∧ ∀ e, env.pdet e ≤ 1
  | _ => True

/-- The inner filter never reports depletion in a call. -/
def NotDepleted : Glmb.Op K τ F S C Z → Prop
  | .correct env _ => ∀ z f s w, env.corF z f s w ≠ none
  | _ => True

/-- Non-negative weights of total at most one. -/
structure SubProb (hyps : List (Hyp K)) : Prop where
  nonneg : ∀ h ∈ hyps, 0 ≤ h.prob
  sum : (hyps.map fun h => h.prob).sum ≤ 1

theorem WInv.subProb {hyps : List (Hyp K)} (h : WInv hyps) : SubProb hyps := by
  refine ⟨h.nonneg, ?_⟩
  by_cases h0 : hyps = []
  · subst h0
    simp
  · exact (h.sum h0).le

theorem cleanup_subProb {env : Env K τ F S C Z} {pr : Params K} {bp bc be u c : Bool} {st st' : St K τ F S C}
    (hs : SubProb st.hyps) (h : Glmb.cleanup env pr bp bc be u c st = .ok st') : SubProb st'.hyps := by
  obtain ⟨s1, s2, h1, h2, h3⟩ := cleanup_ok h
  have k1 : SubProb s1.hyps := by
    cases bp with
    | true => exact WInv.subProb (prune_winv (st := { st with cntr := st.cntr + 1 }) hs.nonneg h1)
    | false =>
      obtain rfl := Except.ok.inj h1
      exact hs
  have k2 : SubProb s2.hyps := by
    cases bc with
    | true =>
      rcases cap_ok h2 with ⟨_, rfl⟩ | ⟨_, kept, hs', hk, hn, rfl⟩
      · exact k1
      · exact WInv.subProb (normHyps_winv hn fun x hx => k1.nonneg x (pick_subset hk hx))
    | false =>
      obtain rfl := Except.ok.inj h2
      exact k1
  rcases h3 with ⟨_, rfl⟩ | ⟨_, o, h3⟩
  · exact k2
  · rw [(Glmb.extract_frame h3).2.1]
    exact k2

theorem cleanup_total {env : Env K τ F S C Z} {pr : Params K} {bp bc be u c : Bool} {st st' : St K τ F S C}
    (hs : WInv st.hyps) (h : Glmb.cleanup env pr bp bc be u c st = .ok st') : WInv st'.hyps := by
  obtain ⟨s1, s2, h1, h2, h3⟩ := cleanup_ok h
  have k1 : WInv s1.hyps := by
    cases bp with
    | true => exact prune_winv (st := { st with cntr := st.cntr + 1 }) hs.nonneg h1
    | false =>
      obtain rfl := Except.ok.inj h1
      exact hs
  have k2 : WInv s2.hyps := by
    cases bc with
    | true => exact cap_winv k1 h2
    | false =>
      obtain rfl := Except.ok.inj h2
      exact k1
  rcases h3 with ⟨_, rfl⟩ | ⟨_, o, h3⟩
  · exact k2
  · rw [(Glmb.extract_frame h3).2.1]
    exact k2

theorem init_total : WInv (Glmb.init : St K τ F S C).hyps := by
  refine ⟨?_, fun _ => ?_⟩ <;> simp [Glmb.init, Glmb.mass]

theorem step_subProb {pr : Params K} (heps : 0 < pr.eps) {o : Glmb.Op K τ F S C Z} (ho : NumbersOk o)
    {st st' : St K τ F S C} (hs : SubProb st.hyps) (h : Glmb.step pr st o = .ok st') : SubProb st'.hyps := by
  cases o with
  | predict env lab births => exact WInv.subProb (predict_winv ⟨ho.1, ho.2⟩ heps hs.nonneg h)
  | correct env meas =>
    obtain ⟨a, b⟩ := correct_nonneg ⟨ho.1, ho.2⟩ hs.nonneg h
    exact ⟨a, b⟩
  | cleanup env bp bc be u c => exact cleanup_subProb hs h
  | extract u c =>
    simp only [Glmb.step] at h
    cases he : Glmb.extract u c st with
    | error e => rw [he] at h; exact (nomatch h)
    | ok r =>
      rw [he] at h
      obtain rfl := Except.ok.inj h
      rw [(Glmb.extract_frame he).2.1]
      exact hs

theorem step_total {pr : Params K} (heps : 0 < pr.eps) {o : Glmb.Op K τ F S C Z} (ho : NumbersOk o)
    (hd : NotDepleted o) {st st' : St K τ F S C} (hI : IdxInv st) (hs : WInv st.hyps)
    (h : Glmb.step pr st o = .ok st') : WInv st'.hyps := by
  cases o with
  | predict env lab births => exact predict_winv ⟨ho.1, ho.2⟩ heps hs.nonneg h
  | correct env meas => exact correct_winv ⟨ho.1, ho.2⟩ hd hI hs.nonneg h
  | cleanup env bp bc be u c => exact cleanup_total hs h
  | extract u c =>
    simp only [Glmb.step] at h
    cases he : Glmb.extract u c st with
    | error e => rw [he] at h; exact (nomatch h)
    | ok r =>
      rw [he] at h
      obtain rfl := Except.ok.inj h
      rw [(Glmb.extract_frame he).2.1]
      exact hs

/-- **C16, whole runs, partial.** After any sequence of calls on a new filter all probabilities are non-negative and
their sum is at most one. If no inner filter reported depletion, they sum to one unless no hypothesis is left.
*Missing:* the sum after depletion, see `C16_refuted`. -/
theorem C16_run_partial (pr : Params K) (heps : 0 < pr.eps) (ops : List (Glmb.Op K τ F S C Z))
    (hops : ∀ o ∈ ops, NumbersOk o) (st : St K τ F S C) (h : Glmb.run pr Glmb.init ops = .ok st) :
    (∀ x ∈ st.hyps, 0 ≤ x.prob) ∧ (st.hyps.map fun x => x.prob).sum ≤ 1 ∧
    ((∀ o ∈ ops, NotDepleted o) → st.hyps ≠ [] → (st.hyps.map fun x => x.prob).sum = 1) := by
  have key : ∀ (ops : List (Glmb.Op K τ F S C Z)) (s : St K τ F S C), (∀ o ∈ ops, NumbersOk o) → SubProb s.hyps →
      IdxInv s → Glmb.run pr s ops = .ok st → SubProb st.hyps ∧
        (WInv s.hyps → (∀ o ∈ ops, NotDepleted o) → WInv st.hyps) := by
    intro ops
    induction ops with
    | nil =>
      intro s _ hs _ h
      obtain rfl := Except.ok.inj h
      exact ⟨hs, fun hw _ => hw⟩
    | cons o ops ih =>
      intro s ho hs hI h
      unfold Glmb.run at h
      cases hst : Glmb.step pr s o with
      | error e => rw [hst] at h; exact (nomatch h)
      | ok s1 =>
        rw [hst] at h
        have h0 := ho o List.mem_cons_self
        obtain ⟨a, b⟩ := ih s1 (fun x hx => ho x (List.mem_cons_of_mem _ hx)) (step_subProb heps h0 hs hst)
          (step_idx heps o hI hst) h
        exact ⟨a, fun hw hd => b (step_total heps h0 (hd o List.mem_cons_self) hI hw hst)
          fun x hx => hd x (List.mem_cons_of_mem _ hx)⟩
  obtain ⟨a, b⟩ := key ops _ hops (WInv.subProb init_total) init_idx h
  exact ⟨a.nonneg, a.sum, fun hd hne => (b init_total hd).sum hne⟩

theorem grun_append {pr : Params K} : ∀ (a b : List (Glmb.Op K τ F S C Z)) (s s1 : St K τ F S C),
    Glmb.run pr s a = .ok s1 → Glmb.run pr s (a ++ b) = Glmb.run pr s1 b
  | [], b, s, s1, h => by
    obtain rfl := Except.ok.inj h
    rfl
  | o :: a, b, s, s1, h => by
    rw [List.cons_append]
    unfold Glmb.run at h
    cases hst : Glmb.step pr s o with
    | error e => rw [hst] at h; exact (nomatch h)
    | ok s2 =>
      rw [hst] at h
      rw [← grun_append a b s2 s1 h]
      simp only [Glmb.run, hst]

theorem jgrun_append {jp : JParams K} : ∀ (a b : List (JOp K τ F S C Z)) (s s1 : JSt K τ F S C),
    Jglmb.run jp s a = .ok s1 → Jglmb.run jp s (a ++ b) = Jglmb.run jp s1 b
  | [], b, s, s1, h => by
    obtain rfl := Except.ok.inj h
    rfl
  | o :: a, b, s, s1, h => by
    rw [List.cons_append]
    unfold Jglmb.run at h
    cases hst : Jglmb.step jp s o with
    | error e => rw [hst] at h; exact (nomatch h)
    | ok s2 =>
      rw [hst] at h
      rw [← jgrun_append a b s2 s1 h]
      simp only [Jglmb.run, hst]

/-- **C138, whole runs.** After any sequence of calls on a new GLMB filter that ends with a `cleanup` (pruning and capping
as one likes, no extraction), a second `cleanup` with the same settings changes nothing but the time counter. -/
theorem C138_run (env env' : Env K τ F S C Z) (pr : Params K) (heps : 0 < pr.eps) (bp bc u c u' c' : Bool)
    (ops : List (Glmb.Op K τ F S C Z)) (hops : ∀ o ∈ ops, NumbersOk o) (ha : ∀ ws, IsArgsort ws (env.argsort ws))
    (st' : St K τ F S C) (h : Glmb.run pr Glmb.init (ops ++ [.cleanup env bp bc false u c]) = .ok st') :
    Glmb.run pr Glmb.init ((ops ++ [.cleanup env bp bc false u c]) ++ [.cleanup env' bp bc false u' c']) =
      .ok { st' with cntr := st'.cntr + 1 } := by
  obtain ⟨st, h1, h2⟩ := run_snoc _ _ _ h
  obtain ⟨hp, hs, _⟩ := C16_run_partial pr heps ops hops st h1
  have h3 := C138_cleanup_twice env env' pr bp bc u c u' c' st st' ha hp hs h2
  rw [grun_append _ _ _ _ h]
  simp only [Glmb.run, Glmb.step, h3]

/-- The inner filter of the joint filter never reports depletion in a call. -/
def JNotDepleted : JOp K τ F S C Z → Prop
  | .correct env _ _ _ => ∀ z f s w, env.corF z f s w ≠ none
  | _ => True

theorem jstep_subProb {jp : JParams K} {o : JOp K τ F S C Z} (ho : o.ok)
    {st st' : JSt K τ F S C} (hs : SubProb st.g.hyps) (h : Jglmb.step jp st o = .ok st') : SubProb st'.g.hyps ∧
      (JNotDepleted o → WInv st.g.hyps → WInv st'.g.hyps) := by
  cases o with
  | predict env lab births =>
    simp only [Jglmb.step, Jglmb.predict] at h
    split at h
    · exact (nomatch h)
    · split at h
      · exact (nomatch h)
      · obtain rfl := Except.ok.inj h
        exact ⟨hs, fun _ hw => hw⟩
  | correct env births draws meas =>
    obtain ⟨a, b, c⟩ := Jglmb.correct_weights ho.1 ho.2 hs.nonneg h
    exact ⟨⟨a, b⟩, fun hd _ => ⟨a, fun hne => (c hd hne).1⟩⟩
  | cleanup env bp bc be u c =>
    simp only [Jglmb.step] at h
    cases he : Glmb.cleanup env jp.base bp bc be u c st.g with
    | error e => rw [he] at h; exact (nomatch h)
    | ok r =>
      rw [he] at h
      obtain rfl := Except.ok.inj h
      exact ⟨cleanup_subProb hs he, fun _ hw => cleanup_total hw he⟩
  | extract u c =>
    simp only [Jglmb.step] at h
    cases he : Glmb.extract u c st.g with
    | error e => rw [he] at h; exact (nomatch h)
    | ok r =>
      rw [he] at h
      obtain rfl := Except.ok.inj h
      simp only
      rw [(Glmb.extract_frame he).2.1]
      exact ⟨hs, fun _ hw => hw⟩

/-- **C56, whole runs.** After any sequence of calls on a new joint filter all probabilities are non-negative and
their sum is at most one. If no inner filter reported depletion, they sum to one unless no hypothesis is left. -/
theorem C56_run (jp : JParams K) (ops : List (JOp K τ F S C Z))
    (hops : ∀ o ∈ ops, o.ok) (st : JSt K τ F S C) (h : Jglmb.run jp Jglmb.init ops = .ok st) :
    (∀ x ∈ st.g.hyps, 0 ≤ x.prob) ∧ (st.g.hyps.map fun x => x.prob).sum ≤ 1 ∧
    ((∀ o ∈ ops, JNotDepleted o) → st.g.hyps ≠ [] → (st.g.hyps.map fun x => x.prob).sum = 1) := by
  have key : ∀ (ops : List (JOp K τ F S C Z)) (s : JSt K τ F S C), (∀ o ∈ ops, o.ok) → SubProb s.g.hyps →
      Jglmb.run jp s ops = .ok st → SubProb st.g.hyps ∧
        (WInv s.g.hyps → (∀ o ∈ ops, JNotDepleted o) → WInv st.g.hyps) := by
    intro ops
    induction ops with
    | nil =>
      intro s _ hs h
      obtain rfl := Except.ok.inj h
      exact ⟨hs, fun hw _ => hw⟩
    | cons o ops ih =>
      intro s ho hs h
      unfold Jglmb.run at h
      cases hst : Jglmb.step jp s o with
      | error e => rw [hst] at h; exact (nomatch h)
      | ok s1 =>
        rw [hst] at h
        have h0 := jstep_subProb (ho o List.mem_cons_self) hs hst
        obtain ⟨a, b⟩ := ih s1 (fun x hx => ho x (List.mem_cons_of_mem _ hx)) h0.1 h
        exact ⟨a, fun hw hd => b (h0.2 (hd o List.mem_cons_self) hw) fun x hx => hd x (List.mem_cons_of_mem _ hx)⟩
  obtain ⟨a, b⟩ := key ops _ hops (WInv.subProb init_total) h
  exact ⟨a.nonneg, a.sum, fun hd hne => (b init_total hd).sum hne⟩

/-- **C138, joint filter.** After any sequence of calls on a new joint filter that ends with a `cleanup` (pruning and
capping as one likes, no extraction), a second `cleanup` with the same settings changes nothing but the time counter. -/
theorem C138_joint_run (env env' : Env K τ F S C Z) (jp : JParams K) (bp bc u c u' c' : Bool)
    (ops : List (JOp K τ F S C Z)) (hops : ∀ o ∈ ops, o.ok) (ha : ∀ ws, IsArgsort ws (env.argsort ws))
    (st' : JSt K τ F S C) (h : Jglmb.run jp Jglmb.init (ops ++ [.cleanup env bp bc false u c]) = .ok st') :
    Jglmb.run jp Jglmb.init ((ops ++ [.cleanup env bp bc false u c]) ++ [.cleanup env' bp bc false u' c']) =
      .ok { st' with g := { st'.g with cntr := st'.g.cntr + 1 } } := by
  obtain ⟨st, h1, h2⟩ := jrun_snoc _ _ _ h
  obtain ⟨hp, hs, _⟩ := C56_run jp ops hops st h1
  rw [jgrun_append _ _ _ _ h]
  simp only [Jglmb.step] at h2
  cases he : Glmb.cleanup env jp.base bp bc false u c st.g with
  | error e => rw [he] at h2; exact (nomatch h2)
  | ok g =>
    rw [he] at h2
    obtain rfl := Except.ok.inj h2
    have h3 := C138_cleanup_twice env env' jp.base bp bc u c u' c' st.g g ha hp hs he
    simp only [Jglmb.run, Jglmb.step, h3]

/-- The example of C115 meets the hypotheses: its calls are sound, its inner filter never fails, and it ends with
several hypotheses of total probability one. -/
example : (∀ o ∈ exTrackOps, NumbersOk o ∧ NotDepleted o) ∧
    (run exTrackPr init exTrackOps).toOption.map (fun st => decide (2 ≤ st.hyps.length ∧
      (st.hyps.map fun x => x.prob).sum = 1 ∧ st.hyps.all fun x => decide (x.prob ≠ 0))) = some true := by
  refine ⟨?_, by decide +kernel⟩
  intro o ho
  have h1 : ∀ x : ℚ, 0 ≤ exTrackEnv.num.expNeg x := by
    intro x
    simp only [exTrackEnv]
    split
    · linarith
    · rename_i h
      push Not at h
      positivity
  have h2 : ∀ e, exTrackEnv.pdet e ≤ 1 := by
    intro e
    simp only [exTrackEnv]
    norm_num
  simp only [exTrackOps, List.mem_cons, List.not_mem_nil, or_false] at ho
  have h3 : ∀ z f s w, exTrackEnv.corF z f s w ≠ none := by simp [exTrackEnv]
  rcases ho with rfl | rfl | rfl | rfl | rfl
  exacts [⟨⟨h1, h2⟩, trivial⟩, ⟨⟨h1, h2⟩, h3⟩, ⟨trivial, trivial⟩, ⟨⟨h1, h2⟩, trivial⟩, ⟨⟨h1, h2⟩, h3⟩]

end Gasur.Props
