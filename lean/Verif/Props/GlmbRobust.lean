import Verif.Props.GlmbSensor
import Verif.Spec.Event

/-!
# Property C169: a wrong sensor model has bounded effects
-/

set_option linter.unusedSectionVars false

namespace Gasur.Props

open Gasur.Glmb Gasur.Spec

variable {K τ F S C Z : Type*} [Field K] [LinearOrder K] [IsStrictOrderedRing K] [FloorRing K]
  [DecidableEq τ]

theorem prod_ratio {α : Type*} {ρ : K} (hρ : 1 ≤ ρ) {f g : α → K} {N : ℕ} : ∀ {l : List α}, l.length ≤ N →
    (∀ x ∈ l, 0 < f x ∧ 0 < g x ∧ g x ≤ ρ * f x) → (l.map g).prod ≤ ρ ^ N * (l.map f).prod := by
  have h0 : 0 ≤ ρ := zero_le_one.trans hρ
  have key : ∀ l : List α, (∀ x ∈ l, 0 < f x ∧ 0 < g x ∧ g x ≤ ρ * f x) →
      (l.map g).prod ≤ ρ ^ l.length * (l.map f).prod ∧ 0 < (l.map f).prod ∧ 0 < (l.map g).prod := by
    intro l
    induction l with
    | nil => simp
    | cons x l ih =>
      intro h
      obtain ⟨i1, i2, i3⟩ := ih fun y hy => h y (List.mem_cons_of_mem _ hy)
      obtain ⟨h1, h2, h3⟩ := h x List.mem_cons_self
      rw [List.map_cons, List.map_cons, List.prod_cons, List.prod_cons, List.length_cons]
      refine ⟨?_, mul_pos h1 i2, mul_pos h2 i3⟩
      calc g x * (l.map g).prod ≤ (ρ * f x) * (ρ ^ l.length * (l.map f).prod) :=
            mul_le_mul h3 i1 i3.le (mul_nonneg h0 h1.le)
        _ = ρ ^ (l.length + 1) * (f x * (l.map f).prod) := by rw [pow_succ]; ring
  intro l hl h
  obtain ⟨h1, h2, -⟩ := key l h
  exact h1.trans (mul_le_mul_of_nonneg_right (pow_le_pow_right₀ hρ hl) h2.le)

theorem sum_ratio {α : Type*} {c : K} {f g : α → K} {l : List α} (h : ∀ x ∈ l, g x ≤ c * f x) :
    (l.map g).sum ≤ c * (l.map f).sum := by
  rw [← List.sum_map_mul_left]
  exact List.sum_le_sum h

theorem forall₂_join {α β γ : Type*} {R : α → β → Prop} {Q : α → γ → Prop} {l : List α} {b : List β} {c : List γ}
    (h : List.Forall₂ R l b) : List.Forall₂ Q l c → List.Forall₂ (fun b c => ∃ a ∈ l, R a b ∧ Q a c) b c := by
  induction h generalizing c with
  | nil => rintro ⟨⟩; exact .nil
  | cons h1 _ ih =>
    rintro (_ | ⟨h2, t2⟩)
    refine .cons ⟨_, List.mem_cons_self, h1, h2⟩ ((ih t2).imp ?_)
    rintro b c ⟨a, ha, q⟩
    exact ⟨a, List.mem_cons_of_mem _ ha, q⟩

/-- The factors of one track for two sensor models differ by at most the factor `ρ`: missed, `1 - p_D`; detected, odds of the
measurement against clutter. -/
def SensorClose (ρ κ κ' : K) (pd pd' : ℕ → K) (lik lik' : ℕ → ℕ → K) (T m : ℕ) : Prop :=
  ∀ t < T, (1 - pd' t ≤ ρ * (1 - pd t) ∧ 1 - pd t ≤ ρ * (1 - pd' t)) ∧
    ∀ j < m, pd' t * lik' t j / κ' ≤ ρ * (pd t * lik t j / κ) ∧ pd t * lik t j / κ ≤ ρ * (pd' t * lik' t j / κ')

/-- **C169.** A wrong sensor model has bounded effects. Let two GLMB filters with different sensor models (detection
probabilities, likelihoods, clutter) update the same state, whose hypotheses have at most `N` tracks, with the same
measurements, and let the factors of each track differ by at most the factor `ρ`. If enough updates are requested, then the
hypotheses of the results correspond one to one: each pair comes from the same hypothesis by the same association, and their
weights differ by at most the factor `ρ ^ (2 N)`. -/
theorem C169_robust (env env' : Env K τ F S C Z) (henv : env'.num = env.num) (pr pr' : Params K)
    (hadd : ∀ x y, env.num.expNeg (x + y) = env.num.expNeg x * env.num.expNeg y)
    (hzero : env.num.expNeg 0 = 1) (hinv : ∀ x, 0 < x → env.num.expNeg (env.num.negLog x) = x)
    (hanti : ∀ x y, x ≤ y → env.num.expNeg y ≤ env.num.expNeg x) (hexp : ∀ x, 0 < env.num.expNeg x)
    (hsqrt : ∀ x, 0 ≤ env.num.sqrt x) (hsqrt' : ∀ x, 0 < x → 0 < env.num.sqrt x)
    (hκ : 0 < pr.clutterRate * pr.clutterDen) (hκ' : 0 < pr'.clutterRate * pr'.clutterDen)
    (st : St K τ F S C) (meas : List Z) (pd pd' : ℕ → K) (lik lik' : ℕ → ℕ → K)
    (hpd : ∀ (t : ℕ) (e : Entry K τ F S C), st.tab[t]? = some e → pd t = env.pdet e ∧ 0 < pd t ∧ pd t < 1)
    (hpd' : ∀ (t : ℕ) (e : Entry K τ F S C), st.tab[t]? = some e → pd' t = env'.pdet e ∧ 0 < pd' t ∧ pd' t < 1)
    (hlik : ∀ (t : ℕ) (e : Entry K τ F S C) (j : ℕ) (z : Z), st.tab[t]? = some e → meas[j]? = some z →
      TrackLikelihood env pr.eps z e (lik t j) ∧ 0 < lik t j)
    (hlik' : ∀ (t : ℕ) (e : Entry K τ F S C) (j : ℕ) (z : Z), st.tab[t]? = some e → meas[j]? = some z →
      TrackLikelihood env' pr'.eps z e (lik' t j) ∧ 0 < lik' t j)
    (hidx : ∀ h ∈ st.hyps, ∀ i ∈ h.tracks, i < st.tab.length) (hp : ∀ h ∈ st.hyps, 0 < h.prob)
    (N : ℕ) (hN : ∀ h ∈ st.hyps, h.tracks.length ≤ N) (ρ : K) (hρ : 1 ≤ ρ)
    (hclose : SensorClose ρ (pr.clutterRate * pr.clutterDen) (pr'.clutterRate * pr'.clutterDen) pd pd' lik lik'
      st.tab.length meas.length) :
    ∃ R0, ∀ R R', R0 ≤ R → R0 ≤ R' → ∀ st1 st2,
      correct env { pr with reqUpd := R } meas st = .ok st1 →
      correct env' { pr' with reqUpd := R' } meas st = .ok st2 →
      ∃ l, l.Perm st2.hyps ∧ List.Forall₂ (fun h1 h2 => (∃ p ∈ st.hyps, ∃ a, IsUpdated st.tab st1.tab p a h1 ∧
        IsUpdated st.tab st2.tab p a h2) ∧ h2.prob ≤ ρ ^ (2 * N) * h1.prob ∧ h1.prob ≤ ρ ^ (2 * N) * h2.prob) st1.hyps l := by
  obtain ⟨R1, h1⟩ := C98_update_exact env pr hadd hzero hinv hanti hexp hsqrt hsqrt' st meas pd lik hpd hlik hidx hp
  obtain ⟨R2, h2⟩ := C98_update_exact env' pr' (by rw [henv]; exact hadd) (by rw [henv]; exact hzero)
    (by rw [henv]; exact hinv) (by rw [henv]; exact hanti) (by rw [henv]; exact hexp) (by rw [henv]; exact hsqrt)
    (by rw [henv]; exact hsqrt') st meas pd' lik' hpd' hlik' hidx hp
  refine ⟨max R1 R2, fun R R' hR hR' st1 st2 c1 c2 => ?_⟩
  obtain ⟨kids1, a1, b1⟩ := h1 R ((le_max_left _ _).trans hR) st1 c1
  obtain ⟨kids2, a2, b2⟩ := h2 R' ((le_max_right _ _).trans hR') st2 c2
  have hperm := familyPairs_perm a1 a2
  obtain ⟨l, f2, hl⟩ := List.perm_comp_forall₂ hperm b2
  refine ⟨l, hl, (forall₂_join b1 f2).imp ?_⟩
  set pairs := familyPairs st.hyps kids1 with hpairs
  have hs : SomeAssocs st.hyps meas.length kids1 := a1.imp fun p ks h => ⟨h.1, fun a ha => (h.2 a).1 ha⟩
  have hρ0 : 0 < ρ := zero_lt_one.trans_le hρ
  -- the products of the factors
  set P1 : Hyp K × List (Option ℕ) → K := fun x => x.1.prob * ((x.1.tracks.zip x.2).map fun y =>
    assocFactor (pr.clutterRate * pr.clutterDen) pd lik y.1 y.2).prod with hP1
  set P2 : Hyp K × List (Option ℕ) → K := fun x => x.1.prob * ((x.1.tracks.zip x.2).map fun y =>
    assocFactor (pr'.clutterRate * pr'.clutterDen) pd' lik' y.1 y.2).prod with hP2
  have hfac : ∀ x ∈ pairs, ∀ y ∈ x.1.tracks.zip x.2,
      (0 < assocFactor (pr.clutterRate * pr.clutterDen) pd lik y.1 y.2 ∧
        0 < assocFactor (pr'.clutterRate * pr'.clutterDen) pd' lik' y.1 y.2) ∧
      assocFactor (pr'.clutterRate * pr'.clutterDen) pd' lik' y.1 y.2 ≤
        ρ * assocFactor (pr.clutterRate * pr.clutterDen) pd lik y.1 y.2 ∧
      assocFactor (pr.clutterRate * pr.clutterDen) pd lik y.1 y.2 ≤
        ρ * assocFactor (pr'.clutterRate * pr'.clutterDen) pd' lik' y.1 y.2 := by
    rintro x hx ⟨t, o⟩ hy
    obtain ⟨q1, q2⟩ := mem_pairs hs x hx
    have k1 := hidx _ q1 _ (List.of_mem_zip hy).1
    have k2 := (List.of_mem_zip hy).2
    have he := List.getElem?_eq_getElem k1
    have hc := hclose t k1
    cases o with
    | none => exact ⟨⟨sub_pos.2 (hpd _ _ he).2.2, sub_pos.2 (hpd' _ _ he).2.2⟩, hc.1.1, hc.1.2⟩
    | some j =>
      have hj := q2.2.1 j k2
      have hz := List.getElem?_eq_getElem hj
      exact ⟨⟨div_pos (mul_pos (hpd _ _ he).2.1 (hlik _ _ _ _ he hz).2) hκ,
        div_pos (mul_pos (hpd' _ _ he).2.1 (hlik' _ _ _ _ he hz).2) hκ'⟩, (hc.2 j hj).1, (hc.2 j hj).2⟩
  have hpos1 : ∀ x ∈ pairs, 0 < P1 x := fun x hx => mul_pos (hp _ (mem_pairs hs x hx).1) (List.prod_pos (by
    intro v hv
    obtain ⟨y, hy, rfl⟩ := List.mem_map.1 hv
    exact (hfac x hx y hy).1.1))
  have hpos2 : ∀ x ∈ pairs, 0 < P2 x := fun x hx => mul_pos (hp _ (mem_pairs hs x hx).1) (List.prod_pos (by
    intro v hv
    obtain ⟨y, hy, rfl⟩ := List.mem_map.1 hv
    exact (hfac x hx y hy).1.2))
  have hlen : ∀ x ∈ pairs, (x.1.tracks.zip x.2).length ≤ N := fun x hx => by
    rw [List.length_zip]
    exact (min_le_left _ _).trans (hN _ (mem_pairs hs x hx).1)
  have hr1 : ∀ x ∈ pairs, P2 x ≤ ρ ^ N * P1 x := fun x hx => by
    have := prod_ratio hρ (hlen x hx) fun y hy => ⟨(hfac x hx y hy).1.1, (hfac x hx y hy).1.2, (hfac x hx y hy).2.1⟩
    have hq := (hp _ (mem_pairs hs x hx).1).le
    calc P2 x ≤ x.1.prob * (ρ ^ N * _) := mul_le_mul_of_nonneg_left this hq
      _ = ρ ^ N * P1 x := by simp only [hP1]; ring
  have hr2 : ∀ x ∈ pairs, P1 x ≤ ρ ^ N * P2 x := fun x hx => by
    have := prod_ratio hρ (hlen x hx) fun y hy => ⟨(hfac x hx y hy).1.2, (hfac x hx y hy).1.1, (hfac x hx y hy).2.2⟩
    have hq := (hp _ (mem_pairs hs x hx).1).le
    calc P1 x ≤ x.1.prob * (ρ ^ N * _) := mul_le_mul_of_nonneg_left this hq
      _ = ρ ^ N * P2 x := by simp only [hP2]; ring
  -- the weights
  have hw1 : ∀ x, bayesWeight env pr meas.length pd lik x.1 x.2 =
      (env.num.expNeg pr.clutterRate * (pr.clutterRate * pr.clutterDen) ^ meas.length) * P1 x := fun x => by
    unfold bayesWeight assocWeight
    simp only [hP1]
    ring
  have hw2 : ∀ x, bayesWeight env' pr' meas.length pd' lik' x.1 x.2 =
      (env.num.expNeg pr'.clutterRate * (pr'.clutterRate * pr'.clutterDen) ^ meas.length) * P2 x := fun x => by
    unfold bayesWeight assocWeight
    rw [henv]
    simp only [hP2]
    ring
  have hB1 : env.num.expNeg pr.clutterRate * (pr.clutterRate * pr.clutterDen) ^ meas.length ≠ 0 :=
    (mul_pos (hexp _) (pow_pos hκ _)).ne'
  have hB2 : env.num.expNeg pr'.clutterRate * (pr'.clutterRate * pr'.clutterDen) ^ meas.length ≠ 0 :=
    (mul_pos (hexp _) (pow_pos hκ' _)).ne'
  have hm1 : assocMass (bayesWeight env pr meas.length pd lik) st.hyps kids1 =
      (env.num.expNeg pr.clutterRate * (pr.clutterRate * pr.clutterDen) ^ meas.length) * (pairs.map P1).sum := by
    unfold assocMass
    rw [← List.sum_map_mul_left]
    exact congrArg List.sum (List.map_congr_left fun x _ => hw1 x)
  have hm2 : assocMass (bayesWeight env' pr' meas.length pd' lik') st.hyps kids2 =
      (env.num.expNeg pr'.clutterRate * (pr'.clutterRate * pr'.clutterDen) ^ meas.length) * (pairs.map P2).sum := by
    unfold assocMass
    rw [← List.sum_map_mul_left, (hperm.symm.map _).sum_eq]
    exact congrArg List.sum (List.map_congr_left fun x _ => hw2 x)
  have hsr1 := sum_ratio hr1
  have hsr2 := sum_ratio hr2
  rintro g1 g2 ⟨x, hx, ⟨e1, u1⟩, e2, u2⟩
  have hne : pairs ≠ [] := List.ne_nil_of_mem hx
  have hS1 : 0 < (pairs.map P1).sum := List.sum_pos _ (by
    intro v hv
    obtain ⟨y, hy, rfl⟩ := List.mem_map.1 hv
    exact hpos1 y hy) (by simpa using hne)
  have hS2 : 0 < (pairs.map P2).sum := List.sum_pos _ (by
    intro v hv
    obtain ⟨y, hy, rfl⟩ := List.mem_map.1 hv
    exact hpos2 y hy) (by simpa using hne)
  rw [hw1, hm1, mul_div_mul_left _ _ hB1] at e1
  rw [hw2, hm2, mul_div_mul_left _ _ hB2] at e2
  have hρN : 0 ≤ ρ ^ N := pow_nonneg hρ0.le _
  refine ⟨⟨x.1, (mem_pairs hs x hx).1, x.2, u1, u2⟩, ?_, ?_⟩
  · rw [e1, e2, ← mul_div_assoc, div_le_div_iff₀ hS2 hS1, two_mul, pow_add]
    calc P2 x * (pairs.map P1).sum ≤ (ρ ^ N * P1 x) * (ρ ^ N * (pairs.map P2).sum) :=
          mul_le_mul (hr1 x hx) hsr2 hS1.le (mul_nonneg hρN (hpos1 x hx).le)
      _ = _ := by ring
  · rw [e1, e2, ← mul_div_assoc, div_le_div_iff₀ hS1 hS2, two_mul, pow_add]
    calc P1 x * (pairs.map P2).sum ≤ (ρ ^ N * P2 x) * (ρ ^ N * (pairs.map P1).sum) :=
          mul_le_mul (hr2 x hx) hsr1 hS2.le (mul_nonneg hρN (hpos2 x hx).le)
      _ = _ := by ring

/-- Corresponding hypotheses within a factor: events about the number of objects within the same factor. -/
theorem number_ratio {c : K} {R : Hyp K → Hyp K → Prop} {l1 l2 l : List (Hyp K)} (hl : l.Perm l2)
    (h : List.Forall₂ R l1 l) (hlen : ∀ a b, R a b → a.tracks.length = b.tracks.length)
    (hR : ∀ a b, R a b → b.prob ≤ c * a.prob ∧ a.prob ≤ c * b.prob) (P : ℕ → Bool) :
    probEvent (fun ts => P ts.length) l2 ≤ c * probEvent (fun ts => P ts.length) l1 ∧
      probEvent (fun ts => P ts.length) l1 ≤ c * probEvent (fun ts => P ts.length) l2 := by
  have e : probEvent (fun ts => P ts.length) l2 = probEvent (fun ts => P ts.length) l := by
    unfold probEvent
    exact ((hl.symm.filter _).map _).sum_eq
  rw [e]
  clear hl e
  unfold probEvent
  induction h with
  | nil => simp
  | cons h1 _ ih =>
    dsimp only at ih ⊢
    simp only [List.filter_cons]
    rw [← hlen _ _ h1]
    split
    · rw [List.map_cons, List.map_cons, List.sum_cons, List.sum_cons, mul_add, mul_add]
      exact ⟨add_le_add (hR _ _ h1).1 ih.1, add_le_add (hR _ _ h1).2 ih.2⟩
    · exact ih

/-- A concrete case: one track, two measurements; the detection probability is `8/10` in the one model, `9/10` in the other.
Each factor differs by at most `2`, so the probability that there is an object differs by at most `4`. -/
example : ∃ R, ∃ st1' st2', correct { realEnv (some (1 / 2)) with pdet := fun _ => (8 / 10 : ℝ) }
      { realPr 1 1 0 1 with reqUpd := R } [(), ()] (st1 0 (realBirth (9 / 10))) = .ok st1' ∧
    correct { realEnv (some (1 / 2)) with pdet := fun _ => (9 / 10 : ℝ) } { realPr 1 1 0 1 with reqUpd := R } [(), ()]
      (st1 0 (realBirth (9 / 10))) = .ok st2' ∧
    probEvent (fun ts => decide (ts.length = 1)) st2'.hyps ≤ 2 ^ 2 * probEvent (fun ts => decide (ts.length = 1)) st1'.hyps := by
  obtain ⟨R0, hR⟩ := C169_robust { realEnv (some (1 / 2)) with pdet := fun _ => (8 / 10 : ℝ) }
    { realEnv (some (1 / 2)) with pdet := fun _ => (9 / 10 : ℝ) } rfl (realPr 1 1 0 1) (realPr 1 1 0 1)
    realNum_add (by simp [realNum, realEnv])
    (fun x hx => by simp only [realEnv, realNum, neg_neg]; exact Real.exp_log hx)
    (fun x y hxy => Real.exp_le_exp.2 (by linarith)) (realEnv_exp (some (1 / 2))) (fun x => Real.sqrt_nonneg x)
    (fun x hx => Real.sqrt_pos.2 hx) (by norm_num [realPr]) (by norm_num [realPr]) (st1 0 (realBirth (9 / 10))) [(), ()]
    (fun _ => 8 / 10) (fun _ => 9 / 10) (fun _ _ => 1 / 2 + 1 / 2 ^ 52) (fun _ _ => 1 / 2 + 1 / 2 ^ 52)
    (fun _ _ _ => ⟨rfl, by norm_num, by norm_num⟩) (fun _ _ _ => ⟨rfl, by norm_num, by norm_num⟩)
    (real_lik 0) (real_lik 0) st1_tinv.idx.range st1_tinv.pos 1 (by
      intro h hh
      simp only [st1, List.mem_singleton] at hh
      subst hh
      exact le_rfl) 2 one_le_two (by
      intro t _
      refine ⟨by norm_num, fun j _ => ?_⟩
      norm_num [realPr])
  obtain ⟨s1, h1⟩ := real_correct_sensor R0 (8 / 10) (by norm_num) (by norm_num)
  obtain ⟨s2, h2⟩ := real_correct_sensor R0 (9 / 10) (by norm_num) (by norm_num)
  obtain ⟨l, hl, hF⟩ := hR R0 R0 le_rfl le_rfl s1 s2 h1 h2
  exact ⟨R0, s1, s2, h1, h2, (number_ratio hl hF (fun a b h => by
    obtain ⟨⟨p, _, a', u1, u2⟩, _⟩ := h
    rw [u1.1, u2.1]) (fun a b h => h.2) fun n => decide (n = 1)).1⟩

end Gasur.Props
