import Verif.Proofs.Snapshot
import Verif.Props.Glmb

/-!
# C26: is a saved filter state a snapshot?

No: `save_filter_state` copies nothing, and `correct` without measurements, `cleanup` and
`save_measurements` change objects that the saved state shares (`C26_refuted_*`). It is a snapshot when the
next call that replaces hypotheses is `predict`, or `correct` with at least one measurement
(`C26_snapshot_partial`). The model with shared objects refines the model of `Verif/Model/Glmb.lean`
(`C26_store_model`).
-/

set_option linter.unusedSectionVars false

namespace Gasur.Props

open Gasur.Glmb Gasur.Spec Gasur.Snapshot

variable {K τ F S C Z : Type*} [Field K] [LinearOrder K] [IsStrictOrderedRing K] [FloorRing K]
  [DecidableEq τ]

/-- What a later `load_filter_state` of `sv` gives, when the store is that of `s`. -/
def restored (s : HSt K τ F S C Z) (sv : Saved K τ F S C) : St K τ F S C × List (List Z) :=
  ((s.load sv).read, (s.load sv).meas)

/-- The calls that create new hypothesis objects. -/
def CreatesHyps : Op K τ F S C Z → Prop
  | .predict _ _ _ => True
  | .correct _ meas => meas ≠ []
  | _ => False

/-- The calls that change no hypothesis at all: extraction, and `cleanup` without pruning and capping. -/
def KeepsHyps : Op K τ F S C Z → Prop
  | .extract _ _ => True
  | .cleanup _ bp bc _ _ _ => bp = false ∧ bc = false
  | _ => False

/-- A sequence of calls after `save_filter_state` in which the first call that replaces or changes
hypotheses creates new ones; anything may follow. -/
def StartsFresh : List (Op K τ F S C Z) → Prop
  | [] => True
  | o :: os => CreatesHyps o ∨ (KeepsHyps o ∧ StartsFresh os)

/-- Loading a state immediately after saving it gives that state. -/
theorem C26_restored_now (s : HSt K τ F S C Z) : restored s s.save = (s.read, s.meas) := rfl

/-- The model with shared objects behaves, as seen through the store, like the GLMB model. -/
theorem C26_store_model (pr : Params K) (sm : Bool) (ops : List (Op K τ F S C Z))
    (hops : ∀ o ∈ ops, OpOK o) :
    (hRun pr sm hInit ops).map HSt.read = run pr init ops :=
  (hRun_refines ops inv_init hops).1

theorem create_sep {s s' : HSt K τ F S C Z} {pr : Params K} {sm : Bool} {o : Op K τ F S C Z}
    {b : ℕ} {s0 : HSt K τ F S C Z} (hb : b ≤ s.next) (hm : ∀ a < b, s.mem a = s0.mem a)
    (ho : CreatesHyps o) (hs : hStep pr sm s o = .ok s') : Sep b s0 s' := by
  cases o with
  | predict env lab births =>
    simp only [hStep, hPredict] at hs
    split at hs
    · simp at hs
    · simp only [Except.ok.injEq] at hs
      subst hs
      exact sep_alloc hb hm _
  | correct env meas =>
    simp only [hStep, hCorrect] at hs
    obtain ⟨k1, k2, k3⟩ := correct_pre sm meas hb hm
    split at hs
    · simp at hs
    · simp only [Except.ok.injEq] at hs
      subst hs
      have : meas.isEmpty = false := by simpa [CreatesHyps] using ho
      rw [this]
      exact sep_alloc k1 k2 _
  | cleanup => exact ho.elim
  | extract => exact ho.elim

theorem keep_mem {s s' : HSt K τ F S C Z} {pr : Params K} {sm : Bool} {o : Op K τ F S C Z}
    (ho : KeepsHyps o) (hs : hStep pr sm s o = .ok s') : s'.mem = s.mem ∧ s'.next = s.next := by
  cases o with
  | predict => exact ho.elim
  | correct => exact ho.elim
  | cleanup env bp bc be u c =>
    obtain ⟨rfl, rfl⟩ := ho
    simp only [hStep, hCleanup, Bool.false_eq_true, if_false] at hs
    split at hs
    · have := extract_same hs
      exact ⟨this.1, this.2.1⟩
    · cases hs; exact ⟨rfl, rfl⟩
  | extract u c =>
    have := extract_same hs
    exact ⟨this.1, this.2.1⟩

theorem fresh_mem {pr : Params K} {sm : Bool} {b : ℕ} {s0 : HSt K τ F S C Z} :
    ∀ (ops : List (Op K τ F S C Z)) {s s' : HSt K τ F S C Z}, StartsFresh ops → b ≤ s.next →
      (∀ a < b, s.mem a = s0.mem a) → hRun pr sm s ops = .ok s' → ∀ a < b, s'.mem a = s0.mem a
  | [], s, s', _, _, hm, hs => by cases hs; exact hm
  | o :: ops, s, s', hf, hb, hm, hs => by
    rw [hRun] at hs
    split at hs
    · simp at hs
    · rename_i s1 h1
      rcases hf with ho | ⟨ho, hf⟩
      · exact (sep_run ops (create_sep hb hm ho h1) hs).mem
      · obtain ⟨e1, e2⟩ := keep_mem ho h1
        exact fresh_mem ops hf (by rw [e2]; exact hb) (by rw [e1]; exact hm) hs

/-- **C26, partial.** From any reachable filter (`HInv`), if the calls after saving start with extractions
and then `predict` or `correct` with measurements, whatever comes later, then loading the saved state still
restores the filter state of the moment of saving, and also the saved measurements unless
`save_measurements` is set. *Missing:* the sequences of `C26_refuted_*`. -/
theorem C26_snapshot_partial (pr : Params K) (sm : Bool) (s s' : HSt K τ F S C Z) (hI : HInv s)
    (ops : List (Op K τ F S C Z)) (hf : StartsFresh ops) (hs : hRun pr sm s ops = .ok s') :
    (restored s' s.save).1 = s.read ∧ (sm = false → (restored s' s.save).2 = s.meas) := by
  have hm := fresh_mem (b := s.next) (s0 := s) ops hf le_rfl (fun _ _ => rfl) hs
  constructor
  · simp only [restored, HSt.load, HSt.read, HSt.save]
    congr 1
    exact List.map_congr_left fun r hr => hm r (hI.lt r hr)
  · rintro rfl
    simp only [restored, HSt.load, HSt.meas, HSt.save]
    rw [lists_run ops hs]

/-- Reachable filters satisfy the condition. -/
theorem C26_reachable (pr : Params K) (sm : Bool) (ops : List (Op K τ F S C Z))
    (hops : ∀ o ∈ ops, OpOK o) (s : HSt K τ F S C Z) (hs : hRun pr sm hInit ops = .ok s) : HInv s :=
  (hRun_refines ops inv_init hops).2 s hs

/-! ### Counterexamples to the full property -/

/-- `k_shortest` with one unfavourable and one favourable element and `k = 1`. -/
theorem kList_two {env : Env K τ F S C Z} {pr : Params K} (heps : 0 < pr.eps) {c0 c1 : K}
    (h0 : pr.eps ≤ c0) (h1 : c1 ≤ -pr.eps) :
    kList env pr [(c0 : WithTop K), (c1 : WithTop K)] 1 = .ok [([1], ((c1 + pr.eps : K) : WithTop K))] := by
  have hfun : (fun i : Fin [(c0 : WithTop K), (c1 : WithTop K)].length => [(c0 : WithTop K), (c1 : WithTop K)][i]) =
      fun i => ((fun i => [c0, c1][i] : Fin [c0, c1].length → K) i : WithTop K) := by
    funext i
    rcases i with ⟨i, hi⟩
    have : i = 0 ∨ i = 1 := by simp at hi; omega
    rcases this with rfl | rfl <;> rfl
  have hk := KShortest.kShortest_spec (fun i : Fin [c0, c1].length => [c0, c1][i])
    (env.sortInds [(c0 : WithTop K), (c1 : WithTop K)].length fun i => [(c0 : WithTop K), (c1 : WithTop K)][i]) heps (by
      intro i
      right
      have hi : i = ⟨0, by simp⟩ ∨ i = ⟨1, by simp⟩ := by
        rcases i with ⟨i, hi⟩
        have : i = 0 ∨ i = 1 := by simp at hi; omega
        rcases this with rfl | rfl
        · exact .inl rfl
        · exact .inr rfl
      rcases hi with rfl | rfl
      · simpa using h0.trans (le_abs_self c0)
      · have := neg_le_abs c1
        simp only [Fin.getElem_fin, List.getElem_cons_succ, List.getElem_cons_zero]
        linarith) 1 one_pos
  obtain ⟨p, d, rest, e1, e2, e3, e4, e5⟩ := hk
  have hr : rest = [] := List.length_eq_zero_iff.1 (by omega)
  subst hr
  set f : Fin [c0, c1].length → K := fun i => [c0, c1][i] with hf
  have hall : ∀ i : Fin [c0, c1].length, i = ⟨0, by simp⟩ ∨ i = ⟨1, by simp⟩ := by
    rintro ⟨i, hi⟩
    have : i = 0 ∨ i = 1 := by simp at hi; omega
    rcases this with rfl | rfl
    · exact .inl rfl
    · exact .inr rfl
  have f0 : f ⟨0, by simp⟩ = c0 := rfl
  have f1 : f ⟨1, by simp⟩ = c1 := rfl
  have hnd := (e3 (p, d) List.mem_cons_self).1
  have hbest := e5 {⟨1, by simp⟩}
  rw [e4] at hbest
  simp only [Finset.sum_singleton, WithTop.coe_le_coe] at hbest
  rw [f1] at hbest
  have hp : p = [⟨1, by simp⟩] := by
    cases p with
    | nil =>
      exfalso
      simp only [List.map_nil, List.sum_nil] at hbest
      linarith
    | cons a l =>
      cases l with
      | nil =>
        rcases hall a with rfl | rfl
        · exfalso
          simp only [List.map_cons, List.map_nil, List.sum_cons, List.sum_nil, f0] at hbest
          linarith
        · rfl
      | cons b l =>
        exfalso
        have hab : a ≠ b := by
          intro h
          simp [h] at hnd
        have hl : l = [] := by
          cases l with
          | nil => rfl
          | cons c l =>
            exfalso
            simp only [List.nodup_cons, List.mem_cons, not_or] at hnd
            rcases hall a with rfl | rfl <;> rcases hall b with rfl | rfl <;>
              rcases hall c with rfl | rfl <;> simp at hnd
        subst hl
        have hsum : ([a, b].map f).sum = c0 + c1 := by
          rcases hall a with rfl | rfl <;> rcases hall b with rfl | rfl
          · exact absurd rfl hab
          · simp only [List.map_cons, List.map_nil, List.sum_cons, List.sum_nil, f0, f1]; ring
          · simp only [List.map_cons, List.map_nil, List.sum_cons, List.sum_nil, f0, f1]; ring
          · exact absurd rfl hab
        rw [hsum] at hbest
        linarith
  subst hp
  unfold kList
  rw [hfun] at e1 ⊢
  have e1' : KShortest.kShortestInf (fun i => (f i : WithTop K)) _ pr.eps 1 = _ := (KSub.kShortestInf_coe f _ _ _).trans e1
  erw [e1']
  simp only [List.map_cons, List.map_nil, e4, f1, List.sum_cons, List.sum_nil, add_zero]

/-- Two birth terms, the second one likely; one birth hypothesis is requested. -/
noncomputable def twoBirths : List (Birth ℝ Unit Unit Unit) := [realBirth (1 / 10), realBirth (9 / 10)]

/-- The state after the first prediction. -/
noncomputable def stTwo : St ℝ ℝ Unit Unit Unit :=
  { tab := birthTab 0 0 twoBirths, hyps := [⟨1, [1]⟩], card := [1], cntr := 0, ext := [], states := [],
    labels := [], covs := [] }

theorem predict_two : predict (realEnv none) (realPr 1 1 1 1) 0 twoBirths init = .ok stTwo := by
  have heps : (0 : ℝ) < (realPr 1 1 1 1).eps := by norm_num [realPr]
  have hodds0 : (realPr 1 1 1 1).eps ≤ realNum.negLog ((1 / 10 : ℝ) / (1 - 1 / 10)) := by
    have h1 : ((1 / 10 : ℝ) / (1 - 1 / 10)) = 9⁻¹ := by norm_num
    have h2 : (1 : ℝ) - 9⁻¹ ≤ Real.log 9 := Real.one_sub_inv_le_log_of_pos (by norm_num)
    simp only [realNum, realPr]
    rw [h1, Real.log_inv, neg_neg]
    have : (1 / 2 ^ 52 : ℝ) ≤ 1 - 9⁻¹ := by norm_num
    linarith
  unfold predict
  have h1 : traverseE (logOdds (realEnv none)) (twoBirths.map fun b => b.prob) =
      .ok [((realNum.negLog ((1 / 10 : ℝ) / (1 - 1 / 10)) : ℝ) : WithTop ℝ),
        ((realNum.negLog ((9 / 10 : ℝ) / (1 - 9 / 10)) : ℝ) : WithTop ℝ)] := by
    simp only [twoBirths, realBirth, List.map_cons, List.map_nil, traverseE]
    rw [logOdds_pos (by norm_num) (by norm_num), logOdds_pos (by norm_num) (by norm_num)]
    rfl
  rw [h1]
  simp only
  rw [show (realPr 1 1 1 1).reqBirths = 1 from rfl, kList_two heps hodds0 realOdds]
  simp only
  have h2 : birthHyps (realEnv none) twoBirths
      [([1], ((realNum.negLog ((9 / 10 : ℝ) / (1 - 9 / 10)) + (realPr 1 1 1 1).eps : ℝ) : WithTop ℝ))] =
      .ok [⟨1, [1]⟩] := by
    unfold birthHyps
    simp only [List.map_cons, List.map_nil]
    apply normHyps_one
    refine mul_ne_zero ?_ (Real.exp_pos _).ne'
    norm_num [twoBirths, realBirth]
  rw [h2]
  simp only [init, traverseE]
  have h3 : survHyps (realEnv none) (realPr 1 1 1 1) ([] : List (Entry ℝ ℝ Unit Unit Unit)) [⟨1, []⟩] =
      .ok [⟨1, []⟩] := by
    unfold survHyps
    simp only [traverseE, survOne, if_true, List.flatten_cons, List.flatten_nil, List.append_nil]
    exact normHyps_one one_ne_zero []
  rw [h3]
  simp only
  have h4 : setPredHyps twoBirths.length [(⟨1, [1]⟩ : Hyp ℝ)] [⟨1, []⟩] = .ok [⟨1, [1]⟩] := by
    unfold setPredHyps
    simp only [List.flatMap_cons, List.flatMap_nil, List.map_cons, List.map_nil, List.append_nil, mul_one]
    exact normHyps_one one_ne_zero _
  rw [h4]
  simp [stTwo, cleanPred, addHyp, calcCard_one_nil]

/-- The state after `correct` without measurements. -/
theorem correct_two : ∃ st, correct (realEnv none) (realPr 1 1 1 1) [] stTwo = .ok st ∧
    st.hyps = [⟨1, [0]⟩] := by
  have hcb : corBlocks (realEnv none) (realPr 1 1 1 1) stTwo.tab ([] : List Unit) = .ok [] := rfl
  unfold correct
  rw [hcb]
  simp only
  have hch : corHyps (realEnv none) (realPr 1 1 1 1) stTwo.tab [] stTwo.hyps = .ok [⟨1, [1]⟩] := by
    unfold corHyps
    have : corOne (realEnv none) (realPr 1 1 1 1) stTwo.tab []
        (sumSqrt (realEnv none) stTwo.hyps) ⟨1, [1]⟩ = .ok [⟨Real.exp (-1) * (1 - 9 / 10), [1]⟩] := by
      unfold corOne
      simp [stTwo, twoBirths, birthTab, traverseE, getE, realEnv, realNum, realPr]
    simp only [stTwo] at this ⊢
    simp only [traverseE, this, List.flatten_cons, List.flatten_nil, List.append_nil]
    apply normHyps_one
    exact mul_ne_zero (Real.exp_pos _).ne' (by norm_num)
  rw [hch]
  refine ⟨_, by simp only [cleanUpd]; rw [if_neg (by simp [upTab, stTwo, birthTab, twoBirths])], ?_⟩
  simp [upTab, usedInds, isUsed, stTwo, birthTab, twoBirths, List.range_succ]

/-- **C26 is false of this code.** A state is saved after `predict`, the next measurement set is empty:
after `correct` the saved state has a different hypothesis, which refers to the other track. -/
theorem C26_refuted_correct : ∃ (pr : Params ℝ) (env : Env ℝ ℝ Unit Unit Unit Unit)
    (births : List (Birth ℝ Unit Unit Unit)) (s s' : HSt ℝ ℝ Unit Unit Unit Unit),
    hRun pr false hInit [.predict env 0 births] = .ok s ∧ hRun pr false s [.correct env []] = .ok s' ∧
    (restored s s.save).1.hyps = [⟨1, [1]⟩] ∧ (restored s' s.save).1.hyps = [⟨1, [0]⟩] ∧
    (restored s' s.save).1.tab = (restored s s.save).1.tab ∧ s.read.tab.length = 2 := by
  obtain ⟨st, h1, h2⟩ := correct_two
  have hs : hRun (realPr 1 1 1 1) false (hInit : HSt ℝ ℝ Unit Unit Unit Unit)
      [.predict (realEnv none) 0 twoBirths] = .ok (alloc hInit stTwo) := by
    simp only [hRun, hStep, hPredict, read_init, predict_two]
  have hs' : hRun (realPr 1 1 1 1) false (alloc (hInit : HSt ℝ ℝ Unit Unit Unit Unit) stTwo)
      [.correct (realEnv none) []] =
      .ok (inPlace (alloc hInit stTwo) (alloc (hInit : HSt ℝ ℝ Unit Unit Unit Unit) stTwo).refs st) := by
    simp only [hRun, hStep, hCorrect, Bool.false_eq_true, if_false, read_alloc, h1, List.isEmpty_nil,
      if_true]
  refine ⟨realPr 1 1 1 1, realEnv none, twoBirths, _, _, hs, hs', ?_, ?_, rfl, ?_⟩
  · rw [C26_restored_now, read_alloc]; rfl
  · have := read_inPlace (alloc (hInit : HSt ℝ ℝ Unit Unit Unit Unit) stTwo)
      (alloc (hInit : HSt ℝ ℝ Unit Unit Unit Unit) stTwo).refs st (inv_alloc _ _).nodup
      (by rw [h2]; simp [alloc, stTwo])
    rw [← h2, ← this]
    rfl
  · rw [read_alloc]; simp [stTwo, birthTab, twoBirths]

/-- **C26 is false of this code** when measurements are saved: the saved list of measurements is the
filter's own list and grows with it. -/
theorem C26_refuted_measurements : ∃ (pr : Params ℝ) (env : Env ℝ ℝ Unit Unit Unit Unit)
    (s s' : HSt ℝ ℝ Unit Unit Unit Unit), s = hInit ∧
    hRun pr true s [.correct env []] = .ok s' ∧
    (restored s s.save).2 = [] ∧ (restored s' s.save).2 = [[]] := by
  have h : ∃ st, correct (realEnv none) (realPr 1 1 1 1) [] init = .ok st := by
    have hcb : corBlocks (realEnv none) (realPr 1 1 1 1) [] ([] : List Unit) = .ok [] := rfl
    unfold correct
    simp only [init]
    rw [hcb]
    simp only
    have hch : corHyps (realEnv none) (realPr 1 1 1 1) [] [] [⟨1, []⟩] = .ok [⟨1, []⟩] := by
      unfold corHyps
      simp only [traverseE, corOne, if_true, List.flatten_cons, List.flatten_nil, List.append_nil,
        List.map_nil, List.prod_nil]
      apply normHyps_one
      simpa [realEnv, realNum] using (Real.exp_pos _).ne'
    rw [hch]
    simp [cleanUpd, upTab]
  obtain ⟨st, h⟩ := h
  have e : hRun (realPr 1 1 1 1) true (hInit : HSt ℝ ℝ Unit Unit Unit Unit)
      [.correct (realEnv none) []] = .ok (inPlace { (hInit : HSt ℝ ℝ Unit Unit Unit Unit) with
        lists := Function.update (fun _ => []) 0 [[]] } [0] st) := by
    simp only [hRun, hStep, hCorrect, if_true, List.isEmpty_nil]
    rw [show ({ (hInit : HSt ℝ ℝ Unit Unit Unit Unit) with
      lists := Function.update (hInit : HSt ℝ ℝ Unit Unit Unit Unit).lists
        (hInit : HSt ℝ ℝ Unit Unit Unit Unit).measRef
        ((hInit : HSt ℝ ℝ Unit Unit Unit Unit).lists (hInit : HSt ℝ ℝ Unit Unit Unit Unit).measRef ++
          [[]]) } : HSt ℝ ℝ Unit Unit Unit Unit).read = init from rfl, h]
    rfl
  refine ⟨realPr 1 1 1 1, realEnv none, hInit, _, rfl, e, rfl, ?_⟩
  simp [restored, HSt.load, HSt.meas, HSt.save, inPlace, hInit]

/-- The partial theorem applies to the usual schedule: after a complete time step the next call is
`predict`. -/
example (env : Env ℝ ℝ Unit Unit Unit Unit) (births) :
    StartsFresh [.predict env 0 births, .correct env [], .cleanup env true true true true true] :=
  .inl trivial

end Gasur.Props
