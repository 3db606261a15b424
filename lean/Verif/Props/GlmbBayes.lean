import Verif.Proofs.GlmbBayes
import Verif.Props.GlmbExtract
import Verif.Spec.Jglmb

/-!
# Property C51: the GLMB update follows Bayes' rule
-/

set_option linter.unusedSectionVars false

namespace Gasur.Props

open Gasur.Glmb Gasur.Spec

variable {K τ F S C Z : Type*} [Field K] [LinearOrder K] [IsStrictOrderedRing K] [FloorRing K]
  [DecidableEq τ]

/-- **C51.** There is one constant `Zc` such that every hypothesis `h'` after `correct` comes from a
hypothesis `p` before it and an assignment `a` of measurements to its tracks, and
`h'.prob * Zc = p.prob * exp(-λ) * κ^m * Π_i g_i`, where `λ` is the clutter rate, `κ` the clutter intensity,
`m` the number of measurements and `g_i` is `1 - p_D` for a missed track and `p_D * likelihood / κ` for a
track with an assigned measurement. This is the multi-target Bayes update (with `exp`, `log` exact).
Conditions: `0 < p_D < 1`, non-negative likelihoods, every track has at least one component. -/
theorem C51_bayes_weights (env : Env K τ F S C Z) (pr : Params K) (heps : 0 < pr.eps)
    (hadd : ∀ x y, env.num.expNeg (x + y) = env.num.expNeg x * env.num.expNeg y)
    (hzero : env.num.expNeg 0 = 1) (hinv : ∀ x, 0 < x → env.num.expNeg (env.num.negLog x) = x)
    (st st' : St K τ F S C)
    (hlik : ∀ e ∈ st.tab, ∀ f ∈ e.fStates, ∀ z s w x, env.corF z f s w = some x → 0 ≤ x.2.2.2)
    (hdet : ∀ e ∈ st.tab, 0 < env.pdet e ∧ env.pdet e < 1)
    (hcomp : ∀ e ∈ st.tab, ∀ w, e.wHist.getLast? = some w → w ≠ []) (meas : List Z)
    (hidx : ∀ h ∈ st.hyps, h.tracks.Nodup ∧ ∀ i ∈ h.tracks, i < st.tab.length)
    (h : correct env pr meas st = .ok st') :
    ∃ Zc, (st'.hyps ≠ [] → Zc ≠ 0) ∧ ∀ h' ∈ st'.hyps, ∃ p ∈ st.hyps,
      ∃ (a : Fin p.tracks.length → Option ℕ) (g : Fin p.tracks.length → K),
      (∀ i i' m, a i = some m → a i' = some m → i = i') ∧
      h'.prob * Zc = env.num.expNeg pr.clutterRate *
        (pr.clutterRate * pr.clutterDen) ^ meas.length * p.prob * ∏ i, g i ∧
      ∃ hlen : h'.tracks.length = p.tracks.length,
      ∀ i : Fin p.tracks.length, ∃ e e', st.tab[p.tracks[i]]? = some e ∧
        st'.tab[h'.tracks[i.val]'(by rw [hlen]; exact i.isLt)]? = some e' ∧
        e'.mHist = e.mHist ++ [a i] ∧ e'.label = e.label ∧
        (a i = none → g i = 1 - env.pdet e) ∧
        ∀ j, a i = some j → ∃ z c, meas[j]? = some z ∧ TrackLikelihood env pr.eps z e c ∧
          g i = env.pdet e * c / (pr.clutterRate * pr.clutterDen) :=
  correct_weight ⟨hadd, hzero, hinv⟩ heps hlik hdet hcomp
    ⟨fun h hh => (hidx h hh).2, fun h hh => (hidx h hh).1⟩ h

/-- The conditions of C51 hold for the real functions and the environment used in the C50 example; the
state after the first prediction meets the conditions on the state. -/
example :
    (∀ x y, realNum.expNeg (x + y) = realNum.expNeg x * realNum.expNeg y) ∧ realNum.expNeg 0 = 1 ∧
    (∀ x, 0 < x → realNum.expNeg (realNum.negLog x) = x) ∧
    (∀ e, 0 < (realEnv (some (1 / 2))).pdet e ∧ (realEnv (some (1 / 2))).pdet e < 1) ∧
    ∃ st' : St ℝ ℝ Unit Unit Unit, correct (realEnv (some (1 / 2))) (realPr 1 1 2 1) []
      (st1 0 (realBirth (9 / 10))) = .ok st' ∧
    ∀ e ∈ (st1 (0 : ℝ) (realBirth (9 / 10))).tab, ∀ w, e.wHist.getLast? = some w → w ≠ [] := by
  refine ⟨fun x y => ?_, by simp [realNum], fun x hx => ?_, fun e => ?_, _, correct_st1 _ (realEnv_exp _)
    (fun _ => by norm_num [realEnv]), ?_⟩
  · simp only [realNum]
    rw [neg_add, Real.exp_add]
  · simp only [realNum, neg_neg]
    exact Real.exp_log hx
  · norm_num [realEnv]
  · intro e he w hw
    simp only [st1, birthTab, List.zipIdx_cons, List.zipIdx_nil, List.map_cons, List.map_nil,
      List.mem_singleton] at he
    subst he
    simp only [List.getLast?_singleton, Option.some.injEq] at hw
    subst hw
    simp [realBirth]

end Gasur.Props
