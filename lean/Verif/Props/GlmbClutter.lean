import Verif.Props.GlmbOrder
import Verif.Spec.Detected

/-!
# Property C159: more clutter, fewer detections
-/

set_option linter.unusedSectionVars false

namespace Gasur.Props

open Gasur.Glmb Gasur.Spec

variable {K τ F S C Z : Type*} [Field K] [LinearOrder K] [IsStrictOrderedRing K] [FloorRing K]
  [DecidableEq τ]

/-- A smaller factor per detection makes an increasing function of their number smaller in the mean. -/
theorem detect_dominance {ι : Type*} (l : List ι) (a : ι → K) (n : ι → ℕ) (f : ℕ → K) (hf : Monotone f)
    (ha : ∀ i ∈ l, 0 ≤ a i) {x y : K} (hy : 0 ≤ y) (hxy : y ≤ x) :
    (l.map fun i => a i * y ^ n i * f (n i)).sum * (l.map fun i => a i * x ^ n i).sum ≤
      (l.map fun i => a i * x ^ n i * f (n i)).sum * (l.map fun i => a i * y ^ n i).sum := by
  have hx : 0 ≤ x := hy.trans hxy
  simp only [← Fin.sum_univ_fun_getElem, Finset.sum_mul_sum]
  rw [← sub_nonneg, ← Finset.sum_sub_distrib]
  simp only [← Finset.sum_sub_distrib]
  set T := ∑ i : Fin l.length, ∑ j : Fin l.length, (a l[i] * x ^ n l[i] * f (n l[i]) * (a l[j] * y ^ n l[j]) -
    a l[i] * y ^ n l[i] * f (n l[i]) * (a l[j] * x ^ n l[j])) with hT
  have h2 : T + T = ∑ i : Fin l.length, ∑ j : Fin l.length, a l[i] * a l[j] * ((f (n l[i]) - f (n l[j])) *
      (x ^ n l[i] * y ^ n l[j] - y ^ n l[i] * x ^ n l[j])) := by
    nth_rewrite 2 [hT]
    rw [Finset.sum_comm, hT, ← Finset.sum_add_distrib]
    refine Finset.sum_congr rfl fun i _ => ?_
    rw [← Finset.sum_add_distrib]
    refine Finset.sum_congr rfl fun j _ => ?_
    ring
  have key : ∀ p q : ℕ, p ≤ q → y ^ q * x ^ p ≤ x ^ q * y ^ p := by
    intro p q hpq
    obtain ⟨d, rfl⟩ := Nat.exists_eq_add_of_le hpq
    rw [pow_add, pow_add]
    have := mul_le_mul_of_nonneg_left (pow_le_pow_left₀ hy hxy d) (mul_nonneg (pow_nonneg hx p) (pow_nonneg hy p))
    nlinarith
  have h0 : 0 ≤ T + T := by
    rw [h2]
    refine Finset.sum_nonneg fun i _ => Finset.sum_nonneg fun j _ => ?_
    refine mul_nonneg (mul_nonneg (ha _ (List.getElem_mem _)) (ha _ (List.getElem_mem _))) ?_
    rcases le_total (n l[i]) (n l[j]) with h | h
    · refine mul_nonneg_of_nonpos_of_nonpos (sub_nonpos.2 (hf h)) (sub_nonpos.2 ?_)
      have := key _ _ h
      linarith
    · exact mul_nonneg (sub_nonneg.2 (hf h)) (sub_nonneg.2 (key _ _ h))
  have h1 : 0 ≤ T := by linarith
  exact h1

/-- The number of measurements of an association. -/
def countDet (a : List (Option ℕ)) : ℕ := a.countP Option.isSome

theorem zip_factor (κ : K) (pd : ℕ → K) (lik : ℕ → ℕ → K) : ∀ (ts : List ℕ) (a : List (Option ℕ)), a.length = ts.length →
    ((ts.zip a).map fun x => assocFactor κ pd lik x.1 x.2).prod =
      ((ts.zip a).map fun x => assocFactor 1 pd lik x.1 x.2).prod * κ⁻¹ ^ countDet a
  | [], [], _ => by simp [countDet]
  | t :: ts, o :: a, h => by
    have ih := zip_factor κ pd lik ts a (by simpa using h)
    rw [List.zip_cons_cons, List.map_cons, List.map_cons, List.prod_cons, List.prod_cons, ih]
    cases o with
    | none => simp [countDet, assocFactor, mul_assoc]
    | some j =>
      simp only [countDet, assocFactor, List.countP_cons, Option.isSome_some, if_true, pow_succ, div_one, div_eq_mul_inv]
      ring

theorem detections_updated {tab tab' : List (Entry K τ F S C)} {p h' : Hyp K} {a : List (Option ℕ)}
    (h : IsUpdated tab tab' p a h') (ha : a.length = p.tracks.length) (hp : ∀ t ∈ p.tracks, t < tab.length) :
    detections tab' h' = countDet a := by
  unfold detections countDet
  set P : ℕ → Bool := fun t => match tab'[t]? with
    | some e => match e.mHist.getLast? with
      | some (some _) => true
      | _ => false
    | none => false with hP
  have : h'.tracks.map P = a.map Option.isSome := by
    refine List.ext_getElem? fun i => ?_
    rw [List.getElem?_map, List.getElem?_map]
    by_cases hi : i < p.tracks.length
    · have e1 : p.tracks[i]? = some p.tracks[i] := List.getElem?_eq_getElem hi
      have ht := hp _ (List.getElem_mem hi)
      have ea : a[i]? = some a[i] := List.getElem?_eq_getElem (by omega)
      obtain ⟨t', e', k1, k2, -, k4⟩ := h.2 i _ _ _ e1 (List.getElem?_eq_getElem ht) ea
      rw [k1, ea, Option.map_some, Option.map_some]
      simp only [hP, k2, k4, List.getLast?_append, List.getLast?_singleton, Option.some_or]
      cases a[i] <;> rfl
    · have h1 := h.1
      rw [List.getElem?_eq_none (by omega), List.getElem?_eq_none (by omega)]
      rfl
  have h1 := congrArg (List.countP id) this
  rw [List.countP_map, List.countP_map] at h1
  exact h1

theorem familyPairs_perm {hyps : List (Hyp K)} {m : ℕ} : ∀ {kids kids' : List (List (List (Option ℕ)))},
    AllAssocs hyps m kids → AllAssocs hyps m kids' → (familyPairs hyps kids).Perm (familyPairs hyps kids') := by
  induction hyps with
  | nil => rintro _ _ ⟨⟩ ⟨⟩; exact .refl _
  | cons p hyps ih =>
    rintro _ _ (_ | ⟨h1, t1⟩) (_ | ⟨h2, t2⟩)
    rw [familyPairs_cons, familyPairs_cons]
    refine List.Perm.append (List.Perm.map _ ?_) (ih t1 t2)
    exact (List.perm_ext_iff_of_nodup h1.1 h2.1).2 fun a => (h1.2 a).trans (h2.2 a).symm

/-- The expected value of a function of the number of detections, from the exact weights. -/
theorem expect_exact (env : Env K τ F S C Z) (pr : Params K) {st st' : St K τ F S C} {m : ℕ} {pd : ℕ → K}
    {lik : ℕ → ℕ → K} {kids : List (List (List (Option ℕ)))} (hk : AllAssocs st.hyps m kids)
    (hidx : ∀ h ∈ st.hyps, ∀ i ∈ h.tracks, i < st.tab.length) (hexp : ∀ x, 0 < env.num.expNeg x)
    (hκ : 0 < pr.clutterRate * pr.clutterDen)
    (h : List.Forall₂ (fun (x : Hyp K × List (Option ℕ)) (h' : Hyp K) =>
          h'.prob = bayesWeight env pr m pd lik x.1 x.2 / assocMass (bayesWeight env pr m pd lik) st.hyps kids ∧
          IsUpdated st.tab st'.tab x.1 x.2 h') (familyPairs st.hyps kids) st'.hyps) (f : ℕ → K) :
    let w : Hyp K × List (Option ℕ) → K := fun x => x.1.prob * ((x.1.tracks.zip x.2).map fun y => assocFactor 1 pd lik y.1 y.2).prod
    let z := (pr.clutterRate * pr.clutterDen)⁻¹
    expectDetected f st' = ((familyPairs st.hyps kids).map fun x => w x * z ^ countDet x.2 * f (countDet x.2)).sum /
      ((familyPairs st.hyps kids).map fun x => w x * z ^ countDet x.2).sum := by
  intro w z
  set B := env.num.expNeg pr.clutterRate * (pr.clutterRate * pr.clutterDen) ^ m with hB
  have hB0 : B ≠ 0 := (mul_pos (hexp _) (pow_pos hκ _)).ne'
  have hs : SomeAssocs st.hyps m kids := hk.imp fun p ks h => ⟨h.1, fun a ha => (h.2 a).1 ha⟩
  have hwt : ∀ x ∈ familyPairs st.hyps kids, bayesWeight env pr m pd lik x.1 x.2 = B * (w x * z ^ countDet x.2) := by
    intro x hx
    obtain ⟨-, q2⟩ := mem_pairs hs x hx
    unfold bayesWeight assocWeight
    rw [zip_factor _ _ _ _ _ q2.1]
    simp only [w, z, hB]
    ring
  have hmass : assocMass (bayesWeight env pr m pd lik) st.hyps kids =
      B * ((familyPairs st.hyps kids).map fun x => w x * z ^ countDet x.2).sum := by
    unfold assocMass
    rw [List.map_congr_left hwt, List.sum_map_mul_left]
  have h2 : List.Forall₂ (fun (x : Hyp K × List (Option ℕ)) (h' : Hyp K) =>
      w x * z ^ countDet x.2 * f (countDet x.2) / ((familyPairs st.hyps kids).map fun x => w x * z ^ countDet x.2).sum =
        h'.prob * f (detections st'.tab h')) (familyPairs st.hyps kids) st'.hyps := by
    refine forall₂_imp_left h ?_
    rintro x hx h' ⟨k1, k2⟩
    obtain ⟨q1, q2⟩ := mem_pairs hs x hx
    rw [detections_updated k2 q2.1 (hidx _ q1), k1, hmass, hwt x hx, mul_div_mul_left _ _ hB0]
    ring
  unfold expectDetected
  rw [div_eq_mul_inv, ← List.sum_map_mul_right]
  simp only [← div_eq_mul_inv]
  congr 1
  have h3 := (List.forall₂_map_left_iff (f := fun x : Hyp K × List (Option ℕ) => w x * z ^ countDet x.2 * f (countDet x.2) / ((familyPairs st.hyps kids).map fun x => w x * z ^ countDet x.2).sum)).2
    ((List.forall₂_map_right_iff (f := fun h' : Hyp K => h'.prob * f (detections st'.tab h'))).2 h2)
  exact (List.forall₂_eq_eq_eq ▸ h3 : _ = _).symm

theorem expect_prob (n : ℕ) (st : St K τ F S C) :
    expectDetected (fun k => if n ≤ k then 1 else 0) st = probDetected n st := by
  unfold expectDetected probDetected
  induction st.hyps with
  | nil => rfl
  | cons h l ih =>
    rw [List.map_cons, List.sum_cons, ih, List.filter_cons]
    by_cases hn : n ≤ detections st.tab h <;> simp [hn]

/-- **C159.** More clutter, fewer detections. Let two GLMB filters differ in their clutter rate or density only, the
second with the higher clutter intensity. If enough updates are requested, then after the update of the same state with the
same measurements every increasing function of the number of detected tracks has a mean that is not larger for the second
filter; in particular it is not more probable that at least `n` tracks were detected. -/
theorem C159_more_clutter (env : Env K τ F S C Z) (pr : Params K) (rate' den' : K)
    (hκ : 0 < pr.clutterRate * pr.clutterDen) (hle : pr.clutterRate * pr.clutterDen ≤ rate' * den')
    (hadd : ∀ x y, env.num.expNeg (x + y) = env.num.expNeg x * env.num.expNeg y)
    (hzero : env.num.expNeg 0 = 1) (hinv : ∀ x, 0 < x → env.num.expNeg (env.num.negLog x) = x)
    (hanti : ∀ x y, x ≤ y → env.num.expNeg y ≤ env.num.expNeg x) (hexp : ∀ x, 0 < env.num.expNeg x)
    (hsqrt : ∀ x, 0 ≤ env.num.sqrt x) (hsqrt' : ∀ x, 0 < x → 0 < env.num.sqrt x) (st : St K τ F S C) (meas : List Z)
    (pd : ℕ → K) (lik : ℕ → ℕ → K)
    (hpd : ∀ (t : ℕ) (e : Entry K τ F S C), st.tab[t]? = some e → pd t = env.pdet e ∧ 0 < pd t ∧ pd t < 1)
    (hlik : ∀ (t : ℕ) (e : Entry K τ F S C) (j : ℕ) (z : Z), st.tab[t]? = some e → meas[j]? = some z →
      TrackLikelihood env pr.eps z e (lik t j) ∧ 0 < lik t j)
    (hidx : ∀ h ∈ st.hyps, ∀ i ∈ h.tracks, i < st.tab.length) (hp : ∀ h ∈ st.hyps, 0 < h.prob) :
    ∃ R0, ∀ R R', R0 ≤ R → R0 ≤ R' → ∀ st1 st2, correct env { pr with reqUpd := R } meas st = .ok st1 →
      correct env { pr with reqUpd := R', clutterRate := rate', clutterDen := den' } meas st = .ok st2 →
      (∀ f : ℕ → K, Monotone f → expectDetected f st2 ≤ expectDetected f st1) ∧
      ∀ n, probDetected n st2 ≤ probDetected n st1 := by
  obtain ⟨R1, h1⟩ := C98_update_exact env pr hadd hzero hinv hanti hexp hsqrt hsqrt' st meas pd lik hpd hlik hidx hp
  obtain ⟨R2, h2⟩ := C98_update_exact env { pr with clutterRate := rate', clutterDen := den' } hadd hzero hinv hanti hexp
    hsqrt hsqrt' st meas pd lik hpd hlik hidx hp
  refine ⟨max R1 R2, fun R R' hR hR' st1 st2 c1 c2 => ?_⟩
  have main : ∀ f : ℕ → K, Monotone f → expectDetected f st2 ≤ expectDetected f st1 := by
    intro f hf
    obtain ⟨kids1, a1, b1⟩ := h1 R ((le_max_left _ _).trans hR) st1 c1
    obtain ⟨kids2, a2, b2⟩ := h2 R' ((le_max_right _ _).trans hR') st2 c2
    have e1 := expect_exact env pr a1 hidx hexp hκ b1 f
    have e2 := expect_exact env { pr with clutterRate := rate', clutterDen := den' } a2 hidx hexp (hκ.trans_le hle) b2 f
    have hperm := familyPairs_perm a2 a1
    dsimp only at e1 e2
    rw [(hperm.map _).sum_eq, (hperm.map _).sum_eq] at e2
    have hs : SomeAssocs st.hyps meas.length kids1 := a1.imp fun p ks h => ⟨h.1, fun a ha => (h.2 a).1 ha⟩
    have hw : ∀ x ∈ familyPairs st.hyps kids1, 0 < x.1.prob * ((x.1.tracks.zip x.2).map fun y =>
        assocFactor 1 pd lik y.1 y.2).prod := by
      intro x hx
      obtain ⟨q1, q2⟩ := mem_pairs hs x hx
      refine mul_pos (hp _ q1) (List.prod_pos ?_)
      intro v hv
      obtain ⟨y, hy, rfl⟩ := List.mem_map.1 hv
      have k1 := hidx _ q1 _ (List.of_mem_zip hy).1
      have k2 := (List.of_mem_zip hy).2
      obtain ⟨t, o⟩ := y
      have he := List.getElem?_eq_getElem k1
      cases o with
      | none => exact sub_pos.2 (hpd _ _ he).2.2
      | some j =>
        have hj := List.getElem?_eq_getElem (q2.2.1 j k2)
        simp only [assocFactor, div_one]
        exact mul_pos (hpd _ _ he).2.1 (hlik _ _ _ _ he hj).2
    have hz : 0 < (pr.clutterRate * pr.clutterDen)⁻¹ := inv_pos.2 hκ
    have hz' : 0 < (rate' * den')⁻¹ := inv_pos.2 (hκ.trans_le hle)
    have hzz : (rate' * den')⁻¹ ≤ (pr.clutterRate * pr.clutterDen)⁻¹ := inv_anti₀ hκ hle
    have hd := detect_dominance (familyPairs st.hyps kids1) _ (fun x => countDet x.2) f hf (fun x hx => (hw x hx).le)
      hz'.le hzz
    rw [e1, e2]
    by_cases hne : familyPairs st.hyps kids1 = []
    · rw [hne]
      simp
    have hpos : ∀ z : K, 0 < z → 0 < ((familyPairs st.hyps kids1).map fun x => (x.1.prob * ((x.1.tracks.zip x.2).map
        fun y => assocFactor 1 pd lik y.1 y.2).prod) * z ^ countDet x.2).sum := by
      intro z hz
      refine List.sum_pos _ ?_ (by simpa using hne)
      intro v hv
      obtain ⟨x, hx, rfl⟩ := List.mem_map.1 hv
      exact mul_pos (hw x hx) (pow_pos hz _)
    rw [div_le_div_iff₀ (hpos _ hz') (hpos _ hz)]
    exact hd
  refine ⟨main, fun n => ?_⟩
  rw [← expect_prob, ← expect_prob]
  refine main _ ?_
  intro i j hij
  dsimp only
  split
  · rw [if_pos (by omega)]
  · split
    · exact zero_le_one
    · exact le_rfl

/-! A concrete case: one track, two measurements, the clutter rate 1 or 2. -/

theorem real_correct_clutter (R : ℕ) (c : ℝ) (hc : 0 < c) : ∃ st' : St ℝ ℝ Unit Unit Unit,
    correct (realEnv (some (1 / 2))) { realPr 1 1 0 1 with reqUpd := R, clutterRate := c } [(), ()]
      (st1 0 (realBirth (9 / 10))) = .ok st' := by
  obtain ⟨st', hst, _, hc⟩ := correct_total (env := realEnv (some (1 / 2)))
    (pr := { realPr 1 1 0 1 with reqUpd := R, clutterRate := c }) (by norm_num [realPr])
    (st := st1 0 (realBirth (9 / 10)))
    ⟨realEnv_exp _, fun x hx => Real.sqrt_pos.2 hx, fun e _ => .inr (.inr (by
      have h1 := realOdds
      have h2 : (realPr 1 1 R 1).eps = 1 / 2 ^ 52 := rfl
      have h3 : (realEnv (some (1 / 2))).psurv e = 9 / 10 := rfl
      rw [h3, show (({ realPr 1 1 0 1 with reqUpd := R, clutterRate := c } : Params ℝ)).eps = 1 / 2 ^ 52 from rfl]
      change _ ≤ |realNum.negLog _|
      rw [abs_of_nonpos (h1.trans (by norm_num))]
      linarith)), fun e _ => by norm_num [realEnv], fun e _ => by norm_num [realEnv], by
      intro e _ f _ z s w x hx
      simp only [realEnv, Option.map_some, Option.some.injEq] at hx
      subst hx
      norm_num, realArgsort⟩ (by simp only [realPr, mul_one]; exact hc) [(), ()] st1_tinv (by
        intro e he
        simp only [st1, birthTab, List.zipIdx_cons, List.zipIdx_nil, List.map_cons, List.map_nil, List.mem_singleton] at he
        subst he
        simp [st1])
  exact ⟨st', hst⟩

/-- The conditions of C159 can be met, and both updates succeed. -/
example : ∃ R, ∃ st1' st2', correct (realEnv (some (1 / 2))) { realPr 1 1 0 1 with reqUpd := R, clutterRate := 1 } [(), ()]
      (st1 0 (realBirth (9 / 10))) = .ok st1' ∧
    correct (realEnv (some (1 / 2))) { realPr 1 1 0 1 with reqUpd := R, clutterRate := 2 } [(), ()]
      (st1 0 (realBirth (9 / 10))) = .ok st2' ∧ probDetected 1 st2' ≤ probDetected 1 st1' := by
  obtain ⟨R0, hR⟩ := C159_more_clutter (realEnv (some (1 / 2))) (realPr 1 1 0 1) 2 1 (by norm_num [realPr])
    (by norm_num [realPr]) realNum_add (by simp [realNum, realEnv])
    (fun x hx => by simp only [realEnv, realNum, neg_neg]; exact Real.exp_log hx)
    (fun x y hxy => Real.exp_le_exp.2 (by linarith)) (realEnv_exp _) (fun x => Real.sqrt_nonneg x)
    (fun x hx => Real.sqrt_pos.2 hx) (st1 0 (realBirth (9 / 10))) [(), ()]
    (fun _ => 9 / 10) (fun _ _ => 1 / 2 + 1 / 2 ^ 52) (fun t e _ => ⟨rfl, by norm_num, by norm_num⟩)
    (real_lik 0) st1_tinv.idx.range st1_tinv.pos
  obtain ⟨s1, h1⟩ := real_correct_clutter R0 1 (by norm_num)
  obtain ⟨s2, h2⟩ := real_correct_clutter R0 2 (by norm_num)
  exact ⟨R0, s1, s2, h1, h2, (hR R0 R0 le_rfl le_rfl s1 s2 h1 h2).2 1⟩

end Gasur.Props
