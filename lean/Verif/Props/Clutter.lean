import Verif.Props.GlmbCoord
import Verif.Props.JglmbReport
import Verif.Props.PhdBound

/-!
# Property C148: clutter rate and clutter density matter only through their product

Statement about whole runs of the PHD, GLMB and joint GLMB filters: two filters that differ only in `clutter_rate` and
`clutter_den`, with equal products, behave the same, call by call, errors included.
-/

set_option linter.unusedSectionVars false

namespace Gasur.Props

open Gasur.Glmb Gasur.Spec

namespace Clutter

section glmb

variable {K τ F S C Z : Type*} [Field K] [LinearOrder K] [IsStrictOrderedRing K] [FloorRing K]

/-- All probabilities are multiplied by `k`. -/
def scaleH (k : K) (h : Hyp K) : Hyp K := { h with prob := k * h.prob }

theorem scale_sum (k : K) (l : List (Hyp K)) :
    ((l.map (scaleH k)).map fun h => h.prob).sum = k * (l.map fun h => h.prob).sum := by
  rw [List.map_map, ← List.sum_map_mul_left]
  rfl

theorem normHyps_scale {k : K} (hk : k ≠ 0) (l : List (Hyp K)) : normHyps (l.map (scaleH k)) = normHyps l := by
  unfold normHyps
  rw [scale_sum]
  by_cases h : l ≠ [] ∧ (l.map fun h => h.prob).sum = 0
  · rw [if_pos h, if_pos ⟨by simpa using h.1, by rw [h.2, mul_zero]⟩]
  · rw [if_neg h, if_neg]
    · rw [List.map_map]
      congr 1
      apply List.map_congr_left
      intro x _
      simp only [Function.comp, scaleH, mul_div_mul_left _ _ hk]
    · rintro ⟨h1, h2⟩
      exact h ⟨by simpa using h1, (mul_eq_zero.1 h2).resolve_left hk⟩

/-- The parameters with another clutter rate and density. -/
def withClutter (pr : Params K) (r d : K) : Params K := { pr with clutterRate := r, clutterDen := d }

variable {pr : Params K} {r d : K}

theorem blockCost_eq (env : Env K τ F S C Z) (h : r * d = pr.clutterRate * pr.clutterDen) (te : ℕ × Entry K τ F S C)
    (b : List (Option (Entry K τ F S C) × K)) : blockCost env (withClutter pr r d) te b = blockCost env pr te b := by
  unfold blockCost
  cases getE b te.1 with
  | error e => rfl
  | ok x =>
    show costEntry (withClutter pr r d) (r * d) _ _ = _
    rw [h]
    rfl

theorem corOne_scale (env : Env K τ F S C Z) (h : r * d = pr.clutterRate * pr.clutterDen) {k : K}
    (hk : env.num.expNeg r = k * env.num.expNeg pr.clutterRate) (tab : List (Entry K τ F S C))
    (blocks : List (List (Option (Entry K τ F S C) × K))) (w : K) (hy : Hyp K) :
    corOne env (withClutter pr r d) tab blocks w hy = (corOne env pr tab blocks w hy).map (List.map (scaleH k)) := by
  have hc : ∀ ents, costRows env (withClutter pr r d) blocks hy.tracks ents =
      costRows env pr blocks hy.tracks ents := by
    intro ents
    unfold costRows
    congr 1
    funext te
    congr 1
    funext b
    exact blockCost_eq env h te b
  have hr : (withClutter pr r d).clutterRate = r := rfl
  have hd : (withClutter pr r d).clutterDen = d := rfl
  have hu : (withClutter pr r d).reqUpd = pr.reqUpd := rfl
  unfold corOne
  cases traverseE (getE tab) hy.tracks with
  | error e => rfl
  | ok ents =>
    dsimp only
    rw [hr, hd, h, hu, hc]
    by_cases hb : blocks = []
    · rw [if_pos hb, if_pos hb]
      simp only [Except.map, List.map_cons, List.map_nil, scaleH, hk]
      congr 3
      ring
    · rw [if_neg hb, if_neg hb]
      by_cases hcl : pr.clutterRate * pr.clutterDen ≤ 0
      · rw [if_pos hcl, if_pos hcl]; rfl
      · rw [if_neg hcl, if_neg hcl]
        by_cases ht : hy.tracks = []
        · rw [if_pos ht, if_pos ht]
          simp only [Except.map, List.map_cons, List.map_nil, scaleH, hk]
          congr 3
          ring
        · rw [if_neg ht, if_neg ht]
          cases costRows env pr blocks hy.tracks ents with
          | error e => rfl
          | ok rows =>
            dsimp only
            cases share env pr.reqUpd hy.prob w with
            | error e => rfl
            | ok m =>
              dsimp only
              cases Murty.murty (costMat env rows hy.tracks.length blocks.length) m with
              | error e => rfl
              | ok assigns =>
                simp only [Except.map, List.map_map]
                congr 1
                apply List.map_congr_left
                intro x _
                simp only [Function.comp, scaleH, hk]
                congr 1
                ring

theorem corHyps_eq (env : Env K τ F S C Z) (h : r * d = pr.clutterRate * pr.clutterDen)
    (he : ∀ x, env.num.expNeg x ≠ 0) (tab : List (Entry K τ F S C))
    (blocks : List (List (Option (Entry K τ F S C) × K))) (hyps : List (Hyp K)) :
    corHyps env (withClutter pr r d) tab blocks hyps = corHyps env pr tab blocks hyps := by
  have hk : env.num.expNeg r = (env.num.expNeg r / env.num.expNeg pr.clutterRate) * env.num.expNeg pr.clutterRate :=
    (div_mul_cancel₀ _ (he _)).symm
  have h1 := traverseE_nat (f := corOne env pr tab blocks (sumSqrt env hyps))
    (f' := corOne env (withClutter pr r d) tab blocks (sumSqrt env hyps)) (g := id) hyps
    (fun a _ => corOne_scale env h hk tab blocks _ a)
  rw [List.map_id] at h1
  unfold corHyps
  rw [h1]
  cases traverseE (corOne env pr tab blocks (sumSqrt env hyps)) hyps with
  | error e => rfl
  | ok ls =>
    simp only [Except.map]
    rw [← List.map_flatten, normHyps_scale (div_ne_zero (he _) (he _))]

theorem glmb_correct_eq (env : Env K τ F S C Z) (h : r * d = pr.clutterRate * pr.clutterDen)
    (he : ∀ x, env.num.expNeg x ≠ 0) (meas : List Z) (st : St K τ F S C) :
    Glmb.correct env (withClutter pr r d) meas st = Glmb.correct env pr meas st := by
  unfold Glmb.correct
  have : corBlocks env (withClutter pr r d) st.tab meas = corBlocks env pr st.tab meas := rfl
  rw [this]
  cases corBlocks env pr st.tab meas with
  | error e => rfl
  | ok blocks =>
    dsimp only
    rw [corHyps_eq env h he]

variable [DecidableEq τ]

/-- The numerical functions of the calls: `exp` has no zero (it is the real exponential function). -/
def ExpOp : Glmb.Op K τ F S C Z → Prop
  | .correct env _ => ∀ x, env.num.expNeg x ≠ 0
  | _ => True

theorem glmb_step_eq (h : r * d = pr.clutterRate * pr.clutterDen) (o : Glmb.Op K τ F S C Z) (ho : ExpOp o)
    (st : St K τ F S C) : Glmb.step (withClutter pr r d) st o = Glmb.step pr st o := by
  cases o with
  | predict env lab births => rfl
  | correct env meas => exact glmb_correct_eq env h ho meas st
  | cleanup env bp bc be u c => rfl
  | extract u c => rfl

end glmb

section joint

variable {K τ F S C Z : Type*} [Field K] [LinearOrder K] [IsStrictOrderedRing K] [FloorRing K]

open Gasur.Jglmb

/-- The parameters with another clutter rate and density. -/
def jWithClutter (jp : JParams K) (r d : K) : JParams K := { jp with base := withClutter jp.base r d }

variable {jp : JParams K} {r d : K}

theorem costVal_eq (h : r * d = jp.base.clutterRate * jp.base.clutterDen) (sv : List K)
    (blocks : List (List (Option (Entry K τ F S C) × K))) (ts : List ℕ) :
    costVal (jWithClutter jp r d) sv blocks ts = costVal jp sv blocks ts := by
  have hj : jointCost (jWithClutter jp r d) sv blocks ts = jointCost jp sv blocks ts := by
    funext i j
    unfold jointCost
    have e1 : (jWithClutter jp r d).base.clutterRate * (jWithClutter jp r d).base.clutterDen =
        jp.base.clutterRate * jp.base.clutterDen := h
    rw [e1]
    rfl
  funext i j
  unfold costVal
  rw [hj]
  rfl

theorem jcorOne_scale (env : Env K τ F S C Z) (h : r * d = jp.base.clutterRate * jp.base.clutterDen) {k : K}
    (hk : env.num.expNeg r = k * env.num.expNeg jp.base.clutterRate) (births : List (Birth K F S C))
    (oldLen tabLen : ℕ) (blocks : List (List (Option (Entry K τ F S C) × K))) (w : K) (u : ℕ → ℕ → K) (hy : Hyp K) :
    Jglmb.corOne env (jWithClutter jp r d) births oldLen tabLen blocks w u hy =
      (Jglmb.corOne env jp births oldLen tabLen blocks w u hy).map (List.map (scaleH k)) := by
  have hr : (jWithClutter jp r d).base.clutterRate = r := rfl
  have hd : (jWithClutter jp r d).base.clutterDen = d := rfl
  have hu : (jWithClutter jp r d).base.reqUpd = jp.base.reqUpd := rfl
  have ha : avgSurv (jWithClutter jp r d) births oldLen = avgSurv jp births oldLen := rfl
  unfold Jglmb.corOne
  dsimp only
  rw [hr, hd, h, hu, ha, costVal_eq h]
  split
  · rfl
  · cases share env jp.base.reqUpd hy.prob w with
    | error e => rfl
    | ok m =>
      dsimp only
      split
      · rfl
      · split
        · rfl
        · simp only [Except.map, List.map_map]
          congr 1
          apply List.map_congr_left
          intro x _
          simp only [Function.comp, scaleH, hk]
          congr 1
          ring

theorem joint_correct_eq (env : Env K τ F S C Z) (h : r * d = jp.base.clutterRate * jp.base.clutterDen)
    (he : ∀ x, env.num.expNeg x ≠ 0) (births : List (Birth K F S C)) (draws : ℕ → ℕ → ℕ → K) (meas : List Z)
    (st : JSt K τ F S C) :
    Jglmb.correct env (jWithClutter jp r d) births draws meas st = Jglmb.correct env jp births draws meas st := by
  have hk : env.num.expNeg r = (env.num.expNeg r / env.num.expNeg jp.base.clutterRate) *
      env.num.expNeg jp.base.clutterRate := (div_mul_cancel₀ _ (he _)).symm
  unfold Jglmb.correct
  have : corBlocks env (jWithClutter jp r d).base st.g.tab meas = corBlocks env jp.base st.g.tab meas := rfl
  rw [this]
  cases corBlocks env jp.base st.g.tab meas with
  | error e => rfl
  | ok blocks =>
    dsimp only
    split
    · rfl
    · have h1 := traverseE_nat
        (f := fun (hn : Hyp K × ℕ) => Jglmb.corOne env jp births st.oldLen st.g.tab.length blocks
          (sumSqrt env st.g.hyps) (draws hn.2) hn.1)
        (f' := fun (hn : Hyp K × ℕ) => Jglmb.corOne env (jWithClutter jp r d) births st.oldLen st.g.tab.length blocks
          (sumSqrt env st.g.hyps) (draws hn.2) hn.1) (g := id) st.g.hyps.zipIdx
        (fun a _ => jcorOne_scale env h hk births _ _ blocks _ _ a.1)
      rw [List.map_id] at h1
      rw [h1]
      cases traverseE (fun (hn : Hyp K × ℕ) => Jglmb.corOne env jp births st.oldLen st.g.tab.length blocks
          (sumSqrt env st.g.hyps) (draws hn.2) hn.1) st.g.hyps.zipIdx with
      | error e => rfl
      | ok ls =>
        simp only [Except.map]
        rw [← List.map_flatten, normHyps_scale (div_ne_zero (he _) (he _))]

variable [DecidableEq τ]

/-- As `ExpOp`. -/
def JExpOp : JOp K τ F S C Z → Prop
  | .correct env _ _ _ => ∀ x, env.num.expNeg x ≠ 0
  | _ => True

theorem joint_step_eq (h : r * d = jp.base.clutterRate * jp.base.clutterDen) (o : JOp K τ F S C Z) (ho : JExpOp o)
    (st : JSt K τ F S C) : Jglmb.step (jWithClutter jp r d) st o = Jglmb.step jp st o := by
  cases o with
  | predict env lab births => rfl
  | correct env births draws meas => exact joint_correct_eq env h ho births draws meas st
  | cleanup env bp bc be u c => rfl
  | extract u c => rfl

end joint

end Clutter

open Clutter

section
variable {K τ F S C Z : Type*} [Field K] [LinearOrder K] [IsStrictOrderedRing K] [FloorRing K] [DecidableEq τ]

/-- **C148, GLMB filter.** Replacing clutter rate and clutter density by others with the same product changes nothing: any
sequence of calls in any state has the same outcome (state or error). -/
theorem C148_glmb (pr : Glmb.Params K) (r d : K) (h : r * d = pr.clutterRate * pr.clutterDen) :
    ∀ (ops : List (Glmb.Op K τ F S C Z)), (∀ o ∈ ops, ExpOp o) → ∀ st : Glmb.St K τ F S C,
      Glmb.run { pr with clutterRate := r, clutterDen := d } st ops = Glmb.run pr st ops
  | [], _, _ => rfl
  | o :: os, ho, st => by
    show Glmb.run (withClutter pr r d) st (o :: os) = _
    unfold Glmb.run
    rw [glmb_step_eq h o (ho o List.mem_cons_self)]
    cases Glmb.step pr st o with
    | error e => rfl
    | ok s => exact C148_glmb pr r d h os (fun x hx => ho x (List.mem_cons_of_mem _ hx)) s

/-- **C148, joint GLMB filter.** The same for the joint filter, for the same random draws. -/
theorem C148_joint (jp : Jglmb.JParams K) (r d : K) (h : r * d = jp.base.clutterRate * jp.base.clutterDen) :
    ∀ (ops : List (Jglmb.JOp K τ F S C Z)), (∀ o ∈ ops, JExpOp o) → ∀ st : Jglmb.JSt K τ F S C,
      Jglmb.run { jp with base := { jp.base with clutterRate := r, clutterDen := d } } st ops = Jglmb.run jp st ops
  | [], _, _ => rfl
  | o :: os, ho, st => by
    show Jglmb.run (jWithClutter jp r d) st (o :: os) = _
    unfold Jglmb.run
    rw [joint_step_eq h o (ho o List.mem_cons_self)]
    cases Jglmb.step jp st o with
    | error e => rfl
    | ok s => exact C148_joint jp r d h os (fun x hx => ho x (List.mem_cons_of_mem _ hx)) s

end

section phd
variable {K V P Z : Type*} [Field K] [LinearOrder K] [IsStrictOrderedRing K]
  [AddCommGroup V] [Module K V] [AddCommGroup P] [Module K P] [FloorRing K]

theorem Clutter.phd_correct_eq (pr : Phd.Params K) (r d : K) (h : r * d = pr.clutterRate * pr.clutterDen)
    (f : Phd.Filt K V P Z) (m : Phd.Mix K V P) : ∀ zs : List Z,
      Phd.correctDensity { pr with clutterRate := r, clutterDen := d } f m zs = Phd.correctDensity pr f m zs
  | [] => rfl
  | z :: zs => by
    have hn : ∀ ws, Phd.normalise { pr with clutterRate := r, clutterDen := d } ws = Phd.normalise pr ws := by
      intro ws
      simp only [Phd.normalise, h]
    unfold Phd.correctDensity
    rw [Clutter.phd_correct_eq pr r d h f m zs]
    dsimp only
    cases Phd.corOne f m (m.ws.map fun x => pr.probDetection * x) z (List.range m.ms.length) with
    | error e => rfl
    | ok x =>
      dsimp only
      rw [hn]

/-- **C148, PHD filter.** -/
theorem C148_phd (env : Phd.Env K V P Z) (pr : Phd.Params K) (r d : K)
    (h : r * d = pr.clutterRate * pr.clutterDen) : ∀ (ops : List (Phd.Op K V P Z)) (s : Phd.PState K V P),
      Phd.run env { pr with clutterRate := r, clutterDen := d } s ops = Phd.run env pr s ops
  | [], _ => rfl
  | o :: os, s => by
    have hs : Phd.step env { pr with clutterRate := r, clutterDen := d } s o = Phd.step env pr s o := by
      cases o with
      | predict f b => rfl
      | correct f z =>
        simp only [Phd.step, Phd.correct, Clutter.phd_correct_eq pr r d h f s.mix z]
      | cleanup bp bm bc be => rfl
      | extract => rfl
    unfold Phd.run
    rw [hs]
    cases Phd.step env pr s o with
    | error e => rfl
    | ok s' => exact C148_phd env pr r d h os s'

end phd

/-! Non-vacuity: the runs of the examples return; with clutter rate 2 and density 1/2 instead of 1 and 1 the outcome is the
same, with rate 2 and density 1 it is another. -/

example : (∀ o ∈ exTrackOps, ExpOp o) ∧ (2 : ℚ) * (1 / 2) = exTrackPr.clutterRate * exTrackPr.clutterDen ∧
    (Glmb.run exTrackPr init exTrackOps).toOption.isSome ∧
    (Glmb.run { exTrackPr with clutterRate := 2, clutterDen := 1 / 2 } init exTrackOps).toOption.map
      (fun st => st.hyps.map fun h => h.prob) =
      (Glmb.run exTrackPr init exTrackOps).toOption.map (fun st => st.hyps.map fun h => h.prob) ∧
    (Glmb.run { exTrackPr with clutterRate := 2, clutterDen := 1 } init exTrackOps).toOption.map
      (fun st => st.hyps.map fun h => h.prob) ≠
      (Glmb.run exTrackPr init exTrackOps).toOption.map (fun st => st.hyps.map fun h => h.prob) := by
  refine ⟨?_, by decide +kernel, by decide +kernel, by decide +kernel, by decide +kernel⟩
  intro o ho
  simp only [exTrackOps, List.mem_cons, List.not_mem_nil, or_false] at ho
  rcases ho with rfl | rfl | rfl | rfl | rfl <;> first | trivial | exact fun x => (exTrackEnv_exp x).ne'

example : (∀ o ∈ exJOps, JExpOp o) ∧ (2 : ℚ) * (1 / 2) = exJPr.base.clutterRate * exJPr.base.clutterDen ∧
    (Jglmb.run exJPr Jglmb.init exJOps).toOption.isSome := by
  refine ⟨?_, by decide +kernel, by decide +kernel⟩
  intro o ho
  simp only [exJOps, List.mem_cons, List.not_mem_nil, or_false] at ho
  rcases ho with rfl | rfl | rfl | rfl | rfl <;> first | trivial | exact fun x => (exTrackEnv_exp x).ne'

example : (1 / 5 : ℚ) * (1 / 2) = exParams.clutterRate * exParams.clutterDen ∧
    (Phd.run exEnv exParams Phd.init (exPhdRound [1, 7]).ops).toOption.isSome := by decide +kernel

end Gasur.Props
