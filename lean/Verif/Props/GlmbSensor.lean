import Verif.Props.GlmbClutter

/-!
# Property C163: a better sensor, more detections
-/

set_option linter.unusedSectionVars false

namespace Gasur.Props

open Gasur.Glmb Gasur.Spec

variable {K τ F S C Z : Type*} [Field K] [LinearOrder K] [IsStrictOrderedRing K] [FloorRing K]
  [DecidableEq τ]

/-- The likelihoods of an association. -/
def likProd (lik : ℕ → ℕ → K) (ts : List ℕ) (a : List (Option ℕ)) : K :=
  ((ts.zip a).map fun x => match x.2 with
    | none => 1
    | some j => lik x.1 j).prod

theorem zip_detection {q : K} (hq : q < 1) (lik : ℕ → ℕ → K) : ∀ (ts : List ℕ) (a : List (Option ℕ)), a.length = ts.length →
    ((ts.zip a).map fun x => assocFactor 1 (fun _ => q) lik x.1 x.2).prod =
      (1 - q) ^ ts.length * (likProd lik ts a * (q / (1 - q)) ^ countDet a)
  | [], [], _ => by simp [countDet, likProd]
  | t :: ts, o :: a, h => by
    have ih := zip_detection hq lik ts a (by simpa using h)
    have h1 : 1 - q ≠ 0 := (sub_pos.2 hq).ne'
    rw [List.zip_cons_cons, List.map_cons, List.prod_cons, ih]
    cases o with
    | none =>
      simp only [countDet, assocFactor, likProd, List.countP_cons, Option.isSome_none, List.zip_cons_cons, List.map_cons,
        List.prod_cons, List.length_cons, pow_succ, one_mul]
      simp
      ring
    | some j =>
      simp only [countDet, assocFactor, likProd, List.countP_cons, Option.isSome_some, if_true, List.zip_cons_cons,
        List.map_cons, List.prod_cons, List.length_cons, pow_succ, div_one]
      field_simp

/-- The expected value of a function of the number of detections, for a sensor with the same detection probability
everywhere, if all hypotheses have equally many tracks. -/
theorem expect_sensor (env : Env K τ F S C Z) (pr : Params K) {st st' : St K τ F S C} {m n : ℕ} {q : K}
    {lik : ℕ → ℕ → K} {kids : List (List (List (Option ℕ)))} (hk : AllAssocs st.hyps m kids)
    (hidx : ∀ h ∈ st.hyps, ∀ i ∈ h.tracks, i < st.tab.length) (hexp : ∀ x, 0 < env.num.expNeg x)
    (hκ : 0 < pr.clutterRate * pr.clutterDen) (hq : q < 1) (hn : ∀ h ∈ st.hyps, h.tracks.length = n)
    (h : List.Forall₂ (fun (x : Hyp K × List (Option ℕ)) (h' : Hyp K) =>
          h'.prob = bayesWeight env pr m (fun _ => q) lik x.1 x.2 /
            assocMass (bayesWeight env pr m (fun _ => q) lik) st.hyps kids ∧
          IsUpdated st.tab st'.tab x.1 x.2 h') (familyPairs st.hyps kids) st'.hyps) (f : ℕ → K) :
    let w : Hyp K × List (Option ℕ) → K := fun x => x.1.prob * likProd lik x.1.tracks x.2
    let z := q / (1 - q) * (pr.clutterRate * pr.clutterDen)⁻¹
    expectDetected f st' = ((familyPairs st.hyps kids).map fun x => w x * z ^ countDet x.2 * f (countDet x.2)).sum /
      ((familyPairs st.hyps kids).map fun x => w x * z ^ countDet x.2).sum := by
  intro w z
  have h0 := expect_exact env pr hk hidx hexp hκ h f
  have hs : SomeAssocs st.hyps m kids := hk.imp fun p ks h => ⟨h.1, fun a ha => (h.2 a).1 ha⟩
  have hB : (1 - q) ^ n ≠ 0 := pow_ne_zero _ (sub_pos.2 hq).ne'
  have hx : ∀ x ∈ familyPairs st.hyps kids, x.1.prob * ((x.1.tracks.zip x.2).map fun y =>
      assocFactor 1 (fun _ => q) lik y.1 y.2).prod * (pr.clutterRate * pr.clutterDen)⁻¹ ^ countDet x.2 =
        (1 - q) ^ n * (w x * z ^ countDet x.2) := by
    intro x hx
    obtain ⟨q1, q2⟩ := mem_pairs hs x hx
    rw [zip_detection hq lik _ _ q2.1, hn _ q1]
    simp only [w, z, mul_pow]
    ring
  dsimp only at h0
  rw [h0, List.map_congr_left hx, List.map_congr_left (g := fun x => (1 - q) ^ n * (w x * z ^ countDet x.2 * f (countDet x.2)))
    (fun x hm => by rw [hx x hm]; ring), List.sum_map_mul_left, List.sum_map_mul_left, mul_div_mul_left _ _ hB]

/-- **C163.** A better sensor, more detections. Let two GLMB filters differ in their detection probability only (`q` and
`q'`, the same for all tracks, `q ≤ q'`), and let all hypotheses have equally many tracks. If enough updates are requested,
then after the update of the same state with the same measurements every increasing function of the number of detected
tracks has a mean that is not smaller for the second filter; in particular it is not less probable that at least `k` tracks
were detected. -/
theorem C163_better_sensor (env : Env K τ F S C Z) (pr : Params K) (q q' : K) (hq : 0 < q) (hqq : q ≤ q') (hq' : q' < 1)
    (hκ : 0 < pr.clutterRate * pr.clutterDen)
    (hadd : ∀ x y, env.num.expNeg (x + y) = env.num.expNeg x * env.num.expNeg y)
    (hzero : env.num.expNeg 0 = 1) (hinv : ∀ x, 0 < x → env.num.expNeg (env.num.negLog x) = x)
    (hanti : ∀ x y, x ≤ y → env.num.expNeg y ≤ env.num.expNeg x) (hexp : ∀ x, 0 < env.num.expNeg x)
    (hsqrt : ∀ x, 0 ≤ env.num.sqrt x) (hsqrt' : ∀ x, 0 < x → 0 < env.num.sqrt x) (st : St K τ F S C) (meas : List Z)
    (lik : ℕ → ℕ → K)
    (hlik : ∀ (t : ℕ) (e : Entry K τ F S C) (j : ℕ) (z : Z), st.tab[t]? = some e → meas[j]? = some z →
      TrackLikelihood env pr.eps z e (lik t j) ∧ 0 < lik t j)
    (hidx : ∀ h ∈ st.hyps, ∀ i ∈ h.tracks, i < st.tab.length) (hp : ∀ h ∈ st.hyps, 0 < h.prob)
    (n : ℕ) (hn : ∀ h ∈ st.hyps, h.tracks.length = n) :
    ∃ R0, ∀ R R', R0 ≤ R → R0 ≤ R' → ∀ st1 st2,
      correct { env with pdet := fun _ => q } { pr with reqUpd := R } meas st = .ok st1 →
      correct { env with pdet := fun _ => q' } { pr with reqUpd := R' } meas st = .ok st2 →
      (∀ f : ℕ → K, Monotone f → expectDetected f st1 ≤ expectDetected f st2) ∧
      ∀ k, probDetected k st1 ≤ probDetected k st2 := by
  obtain ⟨R1, h1⟩ := C98_update_exact { env with pdet := fun _ => q } pr hadd hzero hinv hanti hexp hsqrt hsqrt' st meas
    (fun _ => q) lik (fun _ _ _ => ⟨rfl, hq, hqq.trans_lt hq'⟩) hlik hidx hp
  obtain ⟨R2, h2⟩ := C98_update_exact { env with pdet := fun _ => q' } pr hadd hzero hinv hanti hexp hsqrt hsqrt' st meas
    (fun _ => q') lik (fun _ _ _ => ⟨rfl, hq.trans_le hqq, hq'⟩) hlik hidx hp
  refine ⟨max R1 R2, fun R R' hR hR' st1 st2 c1 c2 => ?_⟩
  have main : ∀ f : ℕ → K, Monotone f → expectDetected f st1 ≤ expectDetected f st2 := by
    intro f hf
    obtain ⟨kids1, a1, b1⟩ := h1 R ((le_max_left _ _).trans hR) st1 c1
    obtain ⟨kids2, a2, b2⟩ := h2 R' ((le_max_right _ _).trans hR') st2 c2
    have e1 := expect_sensor _ pr a1 hidx hexp hκ (hqq.trans_lt hq') hn b1 f
    have e2 := expect_sensor _ pr a2 hidx hexp hκ hq' hn b2 f
    have hperm := familyPairs_perm a2 a1
    dsimp only at e1 e2
    rw [(hperm.map _).sum_eq, (hperm.map _).sum_eq] at e2
    have hs : SomeAssocs st.hyps meas.length kids1 := a1.imp fun p ks h => ⟨h.1, fun a ha => (h.2 a).1 ha⟩
    have hw : ∀ x ∈ familyPairs st.hyps kids1, 0 < x.1.prob * likProd lik x.1.tracks x.2 := by
      intro x hx
      obtain ⟨q1, q2⟩ := mem_pairs hs x hx
      refine mul_pos (hp _ q1) (List.prod_pos ?_)
      intro v hv
      obtain ⟨y, hy, rfl⟩ := List.mem_map.1 hv
      have k1 := hidx _ q1 _ (List.of_mem_zip hy).1
      have k2 := (List.of_mem_zip hy).2
      obtain ⟨t, o⟩ := y
      have he := List.getElem?_eq_getElem k1
      cases o with
      | none => exact one_pos
      | some j =>
        have hj := List.getElem?_eq_getElem (q2.2.1 j k2)
        exact (hlik _ _ _ _ he hj).2
    have hc : 0 < (pr.clutterRate * pr.clutterDen)⁻¹ := inv_pos.2 hκ
    have o1 : 0 < q / (1 - q) := div_pos hq (sub_pos.2 (hqq.trans_lt hq'))
    have o2 : q / (1 - q) ≤ q' / (1 - q') :=
      div_le_div₀ (hq.le.trans hqq) hqq (sub_pos.2 hq') (by linarith)
    have hz := mul_pos o1 hc
    have hzz := mul_le_mul_of_nonneg_right o2 hc.le
    have hd := detect_dominance (familyPairs st.hyps kids1) _ (fun x => countDet x.2) f hf (fun x hx => (hw x hx).le)
      hz.le hzz
    rw [e1, e2]
    by_cases hne : familyPairs st.hyps kids1 = []
    · rw [hne]
      simp
    have hpos : ∀ z : K, 0 < z → 0 < ((familyPairs st.hyps kids1).map fun x => x.1.prob * likProd lik x.1.tracks x.2 *
        z ^ countDet x.2).sum := by
      intro z hz
      refine List.sum_pos _ ?_ (by simpa using hne)
      intro v hv
      obtain ⟨x, hx, rfl⟩ := List.mem_map.1 hv
      exact mul_pos (hw x hx) (pow_pos hz _)
    rw [div_le_div_iff₀ (hpos _ hz) (hpos _ (hz.trans_le hzz))]
    exact hd
  refine ⟨main, fun n => ?_⟩
  rw [← expect_prob, ← expect_prob]
  refine main _ ?_
  intro i j hij
  dsimp only
  split
  · rw [if_pos (by omega)]
  · split
    · exact zero_le_one
    · exact le_rfl

/-! A concrete case: one track, two measurements, the detection probability 1/2 or 9/10. -/

theorem real_correct_sensor (R : ℕ) (q : ℝ) (h0 : 0 < q) (h1 : q < 1) : ∃ st' : St ℝ ℝ Unit Unit Unit,
    correct { realEnv (some (1 / 2)) with pdet := fun _ => q } { realPr 1 1 0 1 with reqUpd := R } [(), ()]
      (st1 0 (realBirth (9 / 10))) = .ok st' := by
  obtain ⟨st', hst, _, hc⟩ := correct_total (env := { realEnv (some (1 / 2)) with pdet := fun _ => q })
    (pr := { realPr 1 1 0 1 with reqUpd := R }) (by norm_num [realPr])
    (st := st1 0 (realBirth (9 / 10)))
    ⟨realEnv_exp (some (1 / 2)), fun x hx => Real.sqrt_pos.2 hx, fun e _ => .inr (.inr (by
      have h1 := realOdds
      change (1 : ℝ) / 2 ^ 52 ≤ |realNum.negLog (9 / 10 / (1 - 9 / 10))|
      rw [abs_of_nonpos (h1.trans (by norm_num))]
      linarith)), fun e _ => by norm_num [realEnv], fun e _ => h1, by
      intro e _ f _ z s w x hx
      simp only [realEnv, Option.map_some, Option.some.injEq] at hx
      subst hx
      norm_num, realArgsort⟩ (by norm_num [realPr]) [(), ()] st1_tinv (by
        intro e he
        simp only [st1, birthTab, List.zipIdx_cons, List.zipIdx_nil, List.map_cons, List.map_nil, List.mem_singleton] at he
        subst he
        simp [st1])
  exact ⟨st', hst⟩

/-- The conditions of C163 can be met, and both updates succeed. -/
example : ∃ R, ∃ st1' st2', correct { realEnv (some (1 / 2)) with pdet := fun _ => (1 / 2 : ℝ) }
      { realPr 1 1 0 1 with reqUpd := R } [(), ()] (st1 0 (realBirth (9 / 10))) = .ok st1' ∧
    correct { realEnv (some (1 / 2)) with pdet := fun _ => (9 / 10 : ℝ) } { realPr 1 1 0 1 with reqUpd := R } [(), ()]
      (st1 0 (realBirth (9 / 10))) = .ok st2' ∧ probDetected 1 st1' ≤ probDetected 1 st2' := by
  obtain ⟨R0, hR⟩ := C163_better_sensor (realEnv (some (1 / 2))) (realPr 1 1 0 1) (1 / 2) (9 / 10) (by norm_num)
    (by norm_num) (by norm_num) (by norm_num [realPr]) realNum_add (by simp [realNum, realEnv])
    (fun x hx => by simp only [realEnv, realNum, neg_neg]; exact Real.exp_log hx)
    (fun x y hxy => Real.exp_le_exp.2 (by linarith)) (realEnv_exp _) (fun x => Real.sqrt_nonneg x)
    (fun x hx => Real.sqrt_pos.2 hx) (st1 0 (realBirth (9 / 10))) [(), ()]
    (fun _ _ => 1 / 2 + 1 / 2 ^ 52)
    (real_lik 0) st1_tinv.idx.range st1_tinv.pos 1 (by
      intro h hh
      simp only [st1, List.mem_singleton] at hh
      subst hh
      rfl)
  obtain ⟨s1, h1⟩ := real_correct_sensor R0 (1 / 2) (by norm_num) (by norm_num)
  obtain ⟨s2, h2⟩ := real_correct_sensor R0 (9 / 10) (by norm_num) (by norm_num)
  exact ⟨R0, s1, s2, h1, h2, (hR R0 R0 le_rfl le_rfl s1 s2 h1 h2).2 1⟩

end Gasur.Props
