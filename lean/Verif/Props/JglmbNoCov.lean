import Verif.Model.JglmbNoCov
import Verif.Spec.JNoCov
import Verif.Props.GlmbNoCov
import Verif.Props.JglmbTrack

/-!
# C135 for the joint filter
-/

set_option linter.unusedSectionVars false

namespace Gasur.Props

open Gasur.Glmb Gasur.Spec Gasur.Jglmb

namespace NoCov

variable {K τ F S C Z : Type*} [Field K] [LinearOrder K] [FloorRing K]
  {env : Env K τ F S C Z} {env' : Env K τ F S Unit Z}

theorem jpredict_rel (h : SameInner env env') (lab : τ) {births : List (Birth K F S C)}
    (hb : ∀ b ∈ births, b.covs.length = b.states.length) {st : JSt K τ F S C} {st' : JSt K τ F S Unit}
    (hS : JSameButCovs st st') :
    SameOutcome JSameButCovs (Jglmb.predict env lab births st) (Jglmb.predict env' lab (births.map dropCovs) st') := by
  unfold Jglmb.predict
  have h0 : ((births.map dropCovs).any fun b => decide (b.prob = 1)) = births.any fun b => decide (b.prob = 1) := by
    rw [List.any_map]; rfl
  rw [h0]
  by_cases hp : (births.any fun b => decide (b.prob = 1)) = true
  · rw [if_pos hp, if_pos hp]; exact .error _
  · rw [if_neg hp, if_neg hp]
    rcases cases (traverse hS.inner.table fun a b hab => predictEntry_rel h hab) with ⟨e, h1, h2⟩ | ⟨es, es', h1, h2, hes⟩
    · rw [h1, h2]; exact .error _
    · rw [h1, h2]
      have hi := hS.inner
      refine .ok ⟨⟨?_, hi.hyps, hi.card, hi.time, hi.hist, hi.states, hi.labels⟩, hS.old⟩
      show List.Forall₂ _ (_ ++ _) (birthTab lab st'.g.cntr _ ++ _)
      rw [hi.time]
      exact List.rel_append (birthTab_rel hb lab st.g.cntr) hes

theorem jointCost_rel (jp : JParams K) (sv : List K) {blocks blocks'}
    (hB : List.Forall₂ (List.Forall₂ (OptSame (K := K) (τ := τ) (F := F) (S := S) (C := C))) blocks blocks')
    (ts : List ℕ) (i j : ℕ) : jointCost jp sv blocks' ts i j = jointCost jp sv blocks ts i j := by
  unfold jointCost
  have hm : blocks'.map (List.map Prod.snd) = blocks.map (List.map Prod.snd) :=
    map_eq hB fun a b hab => map_eq hab fun x y hxy => hxy.2
  have h1 : ∀ b t : ℕ, ((((blocks')[b]?).getD [])[t]?).map Prod.snd = ((((blocks)[b]?).getD [])[t]?).map Prod.snd := by
    intro b t
    have h2 := congrArg (fun l => ((l[b]?).getD [])[t]?) hm
    rw [List.getElem?_map, List.getElem?_map] at h2
    cases hx : blocks'[b]? with
    | none =>
      cases hy : blocks[b]? with
      | none => rfl
      | some l =>
        rw [hx, hy] at h2
        simpa using h2
    | some l' =>
      cases hy : blocks[b]? with
      | none =>
        rw [hx, hy] at h2
        simpa using h2
      | some l =>
        rw [hx, hy] at h2
        simpa using h2
  dsimp only
  rw [h1]

variable [DecidableEq τ]

theorem jcorOne_rel (h : SameInner env env') (jp : JParams K) (births : List (Birth K F S C)) (oldLen tabLen : ℕ)
    {blocks blocks'}
    (hB : List.Forall₂ (List.Forall₂ (OptSame (K := K) (τ := τ) (F := F) (S := S) (C := C))) blocks blocks') (ss : K)
    (u : ℕ → ℕ → K) (hy : Hyp K) :
    Jglmb.corOne env' jp (births.map dropCovs) oldLen tabLen blocks' ss u hy =
      Jglmb.corOne env jp births oldLen tabLen blocks ss u hy := by
  rw [jcorOne_num, jcorOne_num]
  have ha : avgSurv jp (births.map dropCovs) oldLen = avgSurv jp births oldLen := by
    unfold avgSurv
    rw [List.map_map]; rfl
  have hc : costVal jp (avgSurv jp (births.map dropCovs) oldLen) blocks' = costVal jp (avgSurv jp births oldLen) blocks := by
    funext ts i j
    unfold costVal
    rw [ha, jointCost_rel jp _ hB]
  rw [hc, List.length_map, ← hB.length_eq, h.num, share_same h]

theorem jcorrect_rel (h : SameInner env env') (jp : JParams K) (births : List (Birth K F S C)) (draws : ℕ → ℕ → ℕ → K)
    (meas : List Z) {st : JSt K τ F S C} {st' : JSt K τ F S Unit} (hS : JSameButCovs st st') :
    SameOutcome JSameButCovs (Jglmb.correct env jp births draws meas st)
      (Jglmb.correct env' jp (births.map dropCovs) draws meas st') := by
  have hi := hS.inner
  unfold Jglmb.correct corBlocks
  rcases cases (traverse (Q := Eq) (f := corBlock env jp.base st.g.tab) (g := corBlock env' jp.base st'.g.tab)
    (R := List.Forall₂ OptSame) (l := meas.zipIdx) (l' := meas.zipIdx) (List.forall₂_eq_eq_eq ▸ rfl)
    fun a b hab => hab ▸ corBlock_rel h jp.base hi.table a) with ⟨e, h1, h2⟩ | ⟨bs, bs', h1, h2, hB⟩
  · rw [h1, h2]; exact .error _
  · rw [h1, h2]
    dsimp only
    rw [List.length_map, hS.old, ← hi.table.length_eq, hi.hyps, sumSqrt_same h]
    by_cases hl : births.length + st.oldLen ≠ st.g.tab.length
    · rw [if_pos hl, if_pos hl]; exact .error _
    · rw [if_neg hl, if_neg hl]
      have h3 : (fun hn : Hyp K × ℕ => Jglmb.corOne env' jp (births.map dropCovs) st.oldLen st.g.tab.length
          bs' (sumSqrt env st.g.hyps) (draws hn.2) hn.1) =
          fun hn : Hyp K × ℕ => Jglmb.corOne env jp births st.oldLen st.g.tab.length
          bs (sumSqrt env st.g.hyps) (draws hn.2) hn.1 := funext fun hn => jcorOne_rel h jp births _ _ hB _ _ _
      rw [h3]
      cases traverseE (fun hn : Hyp K × ℕ => Jglmb.corOne env jp births st.oldLen st.g.tab.length
          bs (sumSqrt env st.g.hyps) (draws hn.2) hn.1) st.g.hyps.zipIdx with
      | error x => exact .error _
      | ok ls =>
        dsimp only
        cases normHyps ls.flatten with
        | error x => exact .error _
        | ok hs =>
          dsimp only
          rcases cases (cleanUpd_rel (upTab_rel hi.table hB) (cleanPred hs)) with
            ⟨e, h4, h5⟩ | ⟨⟨T, H⟩, ⟨T', H'⟩, h4, h5, h6, h7⟩
          · rw [h4, h5]; exact .error _
          · rw [h4, h5]
            dsimp only at h6 h7 ⊢
            exact .ok ⟨⟨h6, h7, rfl, hi.time, hi.hist, hi.states, hi.labels⟩, h6.length_eq.symm⟩

theorem jstep_rel (jp : JParams K) {st : JSt K τ F S C} {st' : JSt K τ F S Unit} (hS : JSameButCovs st st')
    {o : JOp K τ F S C Z} {o' : JOp K τ F S Unit Z} (h : JSameCallNC o o') :
    SameOutcome JSameButCovs (Jglmb.step jp st o) (Jglmb.stepNC jp st' o') := by
  cases h with
  | predict h hb => exact jpredict_rel h _ hb hS
  | correct h => exact jcorrect_rel h jp _ _ _ hS
  | cleanup bp bc be u c h =>
    unfold Jglmb.step Jglmb.stepNC
    dsimp only
    rcases cases (cleanup_rel h jp.base bp bc be u c hS.inner) with ⟨e, h7, h8⟩ | ⟨s, s', h7, h8, hS4⟩
    · rw [h7, h8]; exact .error _
    · rw [h7, h8]; exact .ok ⟨hS4, hS.old⟩
  | extract u c =>
    unfold Jglmb.step Jglmb.stepNC
    dsimp only
    rcases cases (extract_rel u c hS.inner) with ⟨e, h7, h8⟩ | ⟨⟨s3, i⟩, ⟨s3', i'⟩, h7, h8, hS4, _⟩
    · rw [h7, h8]; exact .error _
    · rw [h7, h8]; exact .ok ⟨hS4, hS.old⟩

theorem jrun_rel (jp : JParams K) {ops : List (JOp K τ F S C Z)} {ops' : List (JOp K τ F S Unit Z)}
    (h : List.Forall₂ JSameCallNC ops ops') : ∀ {st : JSt K τ F S C} {st' : JSt K τ F S Unit}, JSameButCovs st st' →
      SameOutcome JSameButCovs (Jglmb.run jp st ops) (Jglmb.runNC jp st' ops') := by
  induction h with
  | nil => intro st st' hS; exact .ok hS
  | cons ho _ ih =>
    intro st st' hS
    unfold Jglmb.run Jglmb.runNC
    rcases cases (jstep_rel jp hS ho) with ⟨e, h1, h2⟩ | ⟨s, s', h1, h2, hS'⟩
    · rw [h1, h2]; exact .error _
    · rw [h1, h2]; exact ih hS'

end NoCov

/-- **C135** for the joint filter: the same calls and the same random numbers, with and without `save_covs`, have the same
outcome; both fail with the same error, or both return and agree in everything but the covariances. -/
theorem C135_joint_save_covs {K τ F S C Z : Type*} [Field K] [LinearOrder K] [FloorRing K] [DecidableEq τ]
    (jp : JParams K) (ops : List (JOp K τ F S C Z)) (ops' : List (JOp K τ F S Unit Z))
    (h : List.Forall₂ JSameCallNC ops ops') :
    SameOutcome JSameButCovs (Jglmb.run jp Jglmb.init ops) (Jglmb.runNC jp Jglmb.init ops') :=
  NoCov.jrun_rel jp h ⟨⟨.nil, rfl, rfl, rfl, .nil, rfl, rfl⟩, rfl⟩

/-! ### A concrete case -/

def exJCovOps : List (JOp ℚ ℕ ℚ ℚ ℚ ℚ) :=
  [.predict exCovEnv 0 [⟨[2], [1], [0], [2], 9 / 10⟩],
   .correct exCovEnv [⟨[2], [1], [0], [2], 9 / 10⟩] (fun _ s _ => if s % 2 = 0 then 1 / 2 else 9 / 10) [4, 8],
   .cleanup exCovEnv true true true true true,
   .predict exCovEnv 1 [⟨[2], [1], [10], [2], 9 / 10⟩],
   .correct exCovEnv [⟨[2], [1], [10], [2], 9 / 10⟩] (fun _ s _ => if s % 2 = 0 then 1 / 2 else 9 / 10) [6],
   .cleanup exCovEnv true true true true true]

def exJNoCovOps : List (JOp ℚ ℕ ℚ ℚ Unit ℚ) :=
  [.predict exNoCovEnv 0 [⟨[2], [1], [0], [], 9 / 10⟩],
   .correct exNoCovEnv [⟨[2], [1], [0], [], 9 / 10⟩] (fun _ s _ => if s % 2 = 0 then 1 / 2 else 9 / 10) [4, 8],
   .cleanup exNoCovEnv true true true true true,
   .predict exNoCovEnv 1 [⟨[2], [1], [10], [], 9 / 10⟩],
   .correct exNoCovEnv [⟨[2], [1], [10], [], 9 / 10⟩] (fun _ s _ => if s % 2 = 0 then 1 / 2 else 9 / 10) [6],
   .cleanup exNoCovEnv true true true true true]

theorem exJNoCov_calls : List.Forall₂ JSameCallNC exJCovOps exJNoCovOps := by
  have h : SameInner exCovEnv exNoCovEnv :=
    ⟨rfl, rfl, rfl, fun _ _ => rfl, fun _ _ _ _ => rfl, fun _ _ _ => rfl, fun _ _ _ => rfl⟩
  exact .cons (.predict h (by simp)) (.cons (.correct (births := [⟨[2], [1], [0], [2], 9 / 10⟩]) h)
    (.cons (.cleanup _ _ _ _ _ h) (.cons (.predict h (by simp))
      (.cons (.correct (births := [⟨[2], [1], [10], [2], 9 / 10⟩]) h) (.cons (.cleanup _ _ _ _ _ h) .nil)))))

/-- What the two filters report: the same labels and states; the first also reports covariances. -/
example : ((Jglmb.run exJPr Jglmb.init exJCovOps).toOption.map fun s => (s.g.labels, s.g.states)) =
      some ([[(0, 0)], [(1, 0), (0, 0)]], [[2], [8, 3]]) ∧
    ((Jglmb.runNC exJPr Jglmb.init exJNoCovOps).toOption.map fun s => (s.g.labels, s.g.states)) =
      some ([[(0, 0)], [(1, 0), (0, 0)]], [[2], [8, 3]]) ∧
    ((Jglmb.run exJPr Jglmb.init exJCovOps).toOption.map fun s => s.g.covs) = some [[1], [1, 2]] := by
  refine ⟨by decide +kernel, by decide +kernel, by decide +kernel⟩

end Gasur.Props
