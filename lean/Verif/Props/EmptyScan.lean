import Verif.Props.GlmbClutter
import Verif.Props.CphdMore

/-!
# Property C161: when nothing is measured, fewer objects
-/

set_option linter.unusedSectionVars false

namespace Gasur.Props

open Gasur.Glmb Gasur.Spec

section
variable {K τ F S C Z : Type*} [Field K] [LinearOrder K] [IsStrictOrderedRing K] [FloorRing K]
  [DecidableEq τ]

theorem map_eq_of_forall₂ {α β γ : Type*} {f : α → γ} {g : β → γ} {l : List α} {l' : List β}
    (h : List.Forall₂ (fun a b => f a = g b) l l') : l.map f = l'.map g := by
  induction h with
  | nil => rfl
  | cons h _ ih => rw [List.map_cons, List.map_cons, h, ih]

theorem zip_none (κ : K) (pd : ℕ → K) (lik : ℕ → ℕ → K) (q : K) : ∀ ts : List ℕ, (∀ t ∈ ts, pd t = q) →
    ((ts.zip (List.replicate ts.length none)).map fun x => assocFactor κ pd lik x.1 x.2).prod = (1 - q) ^ ts.length
  | [], _ => by simp
  | t :: ts, h => by
    rw [List.length_cons, List.replicate_succ, List.zip_cons_cons, List.map_cons, List.prod_cons,
      zip_none κ pd lik q ts fun t' ht => h t' (List.mem_cons_of_mem _ ht), pow_succ, mul_comm]
    simp [assocFactor, h t List.mem_cons_self]

/-- The hypotheses after an update without measurements. -/
theorem empty_update (env : Env K τ F S C Z) (pr : Params K)
    (hadd : ∀ x y, env.num.expNeg (x + y) = env.num.expNeg x * env.num.expNeg y)
    (hzero : env.num.expNeg 0 = 1) (hinv : ∀ x, 0 < x → env.num.expNeg (env.num.negLog x) = x)
    (hanti : ∀ x y, x ≤ y → env.num.expNeg y ≤ env.num.expNeg x) (hexp : ∀ x, 0 < env.num.expNeg x)
    (hsqrt : ∀ x, 0 ≤ env.num.sqrt x) (st st' : St K τ F S C) (q : K) (hq0 : 0 < q) (hq1 : q < 1)
    (hpd : ∀ e ∈ st.tab, env.pdet e = q)
    (hidx : ∀ h ∈ st.hyps, ∀ i ∈ h.tracks, i < st.tab.length) (hp : ∀ h ∈ st.hyps, 0 ≤ h.prob)
    (h : correct env pr [] st = .ok st') : ∃ Zc, (st'.hyps ≠ [] → Zc ≠ 0) ∧
      Zc = (st.hyps.map fun p => env.num.expNeg pr.clutterRate * (p.prob * (1 - q) ^ p.tracks.length)).sum ∧
      List.Forall₂ (fun p h' => h'.prob * Zc = env.num.expNeg pr.clutterRate * (p.prob * (1 - q) ^ p.tracks.length) ∧
        h'.tracks.length = p.tracks.length) st.hyps st'.hyps := by
  obtain ⟨Zc, h1, kids, h2, h3, h4⟩ := C85_best_associations env pr hadd hzero hinv hanti hexp hsqrt st st' []
    (fun _ => q) (fun _ _ => 1) (fun t e he => ⟨(hpd e (List.mem_of_getElem? he)).symm, hq0, hq1⟩) (by simp) hidx hp h
  have hk : kids = st.hyps.map fun p => [List.replicate p.tracks.length none] := by
    have := h2.imp (S := fun p ks => [List.replicate p.tracks.length none] = ks) fun p ks h => by
      rw [if_pos (.inr rfl)] at h
      exact h.symm
    rw [← List.forall₂_map_left_iff (f := fun p : Hyp K => [List.replicate p.tracks.length (none : Option ℕ)])
      (R := fun x ks => x = ks)] at this
    exact (List.forall₂_eq_eq_eq ▸ this : _ = _).symm
  have hfam : familyPairs st.hyps kids = st.hyps.map fun p => (p, List.replicate p.tracks.length none) := by
    rw [hk]
    clear h1 h2 h3 h4 hk h hidx hp hpd
    induction st.hyps with
    | nil => rfl
    | cons p l ih =>
      rw [List.map_cons, List.map_cons, ← ih]
      rfl
  rw [hfam] at h3 h4
  rw [List.map_map] at h3
  rw [List.forall₂_map_left_iff] at h4
  have hwt : ∀ p : Hyp K, assocWeight (env.num.expNeg pr.clutterRate * (pr.clutterRate * pr.clutterDen) ^ ([] : List Z).length)
      (pr.clutterRate * pr.clutterDen) (fun _ => q) (fun _ _ => 1) p (List.replicate p.tracks.length none) =
      env.num.expNeg pr.clutterRate * (p.prob * (1 - q) ^ p.tracks.length) := by
    intro p
    unfold assocWeight
    rw [zip_none _ _ _ q _ fun _ _ => rfl, List.length_nil, pow_zero]
    ring
  refine ⟨Zc, h1, ?_, h4.imp fun p h' hx => ⟨by rw [hx.1]; exact hwt p, hx.2.1⟩⟩
  rw [h3]
  refine congrArg List.sum (List.map_congr_left fun p _ => ?_)
  exact hwt p

/-- **C161, GLMB filter.** If no measurement is received and all tracks have the same detection probability, then an update
leaves the number of objects of each hypothesis as it is and makes no increasing function of the number of objects larger
in the mean; so it is not more probable than before that there are at least `n` objects. -/
theorem C161_glmb (env : Env K τ F S C Z) (pr : Params K)
    (hadd : ∀ x y, env.num.expNeg (x + y) = env.num.expNeg x * env.num.expNeg y)
    (hzero : env.num.expNeg 0 = 1) (hinv : ∀ x, 0 < x → env.num.expNeg (env.num.negLog x) = x)
    (hanti : ∀ x y, x ≤ y → env.num.expNeg y ≤ env.num.expNeg x) (hexp : ∀ x, 0 < env.num.expNeg x)
    (hsqrt : ∀ x, 0 ≤ env.num.sqrt x) (st st' : St K τ F S C) (q : K) (hq0 : 0 < q) (hq1 : q < 1)
    (hpd : ∀ e ∈ st.tab, env.pdet e = q)
    (hidx : ∀ h ∈ st.hyps, ∀ i ∈ h.tracks, i < st.tab.length) (hp : ∀ h ∈ st.hyps, 0 < h.prob)
    (hsum : (st.hyps.map Hyp.prob).sum = 1) (h : correct env pr [] st = .ok st') :
    (st'.hyps.map fun h => h.tracks.length) = (st.hyps.map fun h => h.tracks.length) ∧
    (∀ f : ℕ → K, Monotone f → (st'.hyps.map fun h => h.prob * f h.tracks.length).sum ≤
      (st.hyps.map fun h => h.prob * f h.tracks.length).sum) ∧
    ∀ n, ((st'.hyps.filter fun h => n ≤ h.tracks.length).map Hyp.prob).sum ≤
      ((st.hyps.filter fun h => n ≤ h.tracks.length).map Hyp.prob).sum := by
  obtain ⟨Zc, -, z2, hF⟩ := empty_update env pr hadd hzero hinv hanti hexp hsqrt st st' q hq0 hq1 hpd hidx
    (fun h hh => (hp h hh).le) h
  have hq : 0 < 1 - q := sub_pos.2 hq1
  have hne : st.hyps ≠ [] := by
    intro h0
    rw [h0] at hsum
    simp at hsum
  have hS : 0 < (st.hyps.map fun p => p.prob * (1 - q) ^ p.tracks.length).sum := by
    refine List.sum_pos _ ?_ (by simpa using hne)
    intro v hv
    obtain ⟨p, hpm, rfl⟩ := List.mem_map.1 hv
    exact mul_pos (hp p hpm) (pow_pos hq _)
  have hB := hexp pr.clutterRate
  rw [List.sum_map_mul_left] at z2
  have main : ∀ f : ℕ → K, Monotone f → (st'.hyps.map fun h => h.prob * f h.tracks.length).sum ≤
      (st.hyps.map fun h => h.prob * f h.tracks.length).sum := by
    intro f hf
    have e1 : (st'.hyps.map fun h => h.prob * f h.tracks.length).sum =
        (st.hyps.map fun p => p.prob * (1 - q) ^ p.tracks.length * f p.tracks.length).sum /
          (st.hyps.map fun p => p.prob * (1 - q) ^ p.tracks.length).sum := by
      have h2 := hF.imp (S := fun p h' => p.prob * (1 - q) ^ p.tracks.length * f p.tracks.length /
          (st.hyps.map fun p => p.prob * (1 - q) ^ p.tracks.length).sum = h'.prob * f h'.tracks.length) (by
        rintro p h' ⟨k1, k2⟩
        rw [z2] at k1
        have k3 : h'.prob * (st.hyps.map fun p => p.prob * (1 - q) ^ p.tracks.length).sum =
            p.prob * (1 - q) ^ p.tracks.length := by
          refine mul_left_cancel₀ hB.ne' ?_
          rw [← k1]; ring
        rw [k2, div_eq_iff hS.ne', ← k3]
        ring)
      rw [← map_eq_of_forall₂ h2]
      rw [div_eq_mul_inv, ← List.sum_map_mul_right]
      simp only [div_eq_mul_inv]
    rw [e1, div_le_iff₀ hS]
    have hd := detect_dominance st.hyps Hyp.prob (fun p => p.tracks.length) f hf (fun p hpm => (hp p hpm).le) hq.le
      (sub_le_self 1 hq0.le)
    simp only [one_pow, mul_one] at hd
    rwa [show (st.hyps.map fun i => i.prob).sum = 1 from hsum, mul_one] at hd
  have hpr : ∀ (n : ℕ) (l : List (Hyp K)), ((l.filter fun h => n ≤ h.tracks.length).map Hyp.prob).sum =
      (l.map fun h => h.prob * if n ≤ h.tracks.length then 1 else 0).sum := by
    intro n l
    induction l with
    | nil => rfl
    | cons h l ih =>
      rw [List.map_cons, List.sum_cons, ← ih, List.filter_cons]
      by_cases hn : n ≤ h.tracks.length <;> simp [hn]
  refine ⟨?_, main, fun n => ?_⟩
  · exact (map_eq_of_forall₂ (hF.imp fun p h' hx => hx.2.symm)).symm
  · rw [hpr, hpr]
    refine main (fun k => if n ≤ k then 1 else 0) ?_
    intro i j hij
    dsimp only
    split
    · rw [if_pos (by omega)]
    · split
      · exact zero_le_one
      · exact le_rfl
end

section
open Gasur.Cphd Gasur.Phd

variable {V P Z : Type*} [AddCommGroup V] [Module ℝ V] [AddCommGroup P] [Module ℝ P]

/-- **C161, CPHD filter.** If no measurement is received, an update makes no increasing function of the number of objects
larger in the mean; so it is not more probable than before that there are at least `n` objects. -/
theorem C161_cphd {esf : List ℝ → List ℝ} (he : IsEsf esf) {pr : Phd.Params ℝ} (hpr : OkC pr) (f : Filt ℝ V P Z)
    (s s' : CState V P) (N : ℕ) (hd : IsDist N s.card) (h : Cphd.correct esf pr f [] s = .ok s') :
    (∀ g : ℕ → ℝ, Monotone g → (s'.card.zipIdx.map fun x => x.1 * g x.2).sum ≤ (s.card.zipIdx.map fun x => x.1 * g x.2).sum) ∧
    ∀ n, (s'.card.drop n).sum ≤ (s.card.drop n).sum := by
  unfold Cphd.correct at h
  split at h
  swap
  · simp at h
  split at h
  · simp at h
  rename_i cs' c' hc
  simp only [Except.ok.injEq] at h
  obtain ⟨xs, W, d0, rfl, rfl, -, -, -, -, -, hd0, hd0', hcard, -⟩ := correctComps_ok he hc
  have hs' : s'.card = c' := by rw [← h]
  rw [hs', hcard]
  have hU : ∀ n, U0 pr.clutterRate (probDeath pr) ((comps s.mix).map fun c => c.1).sum ([] : List ℝ) n =
      Real.exp (-pr.clutterRate) * probDeath pr ^ n := by
    intro n
    simp [U0, es_zero]
  simp only [List.map_nil, hU] at hd0 ⊢
  have hlen := hd.length
  have hpd0 : 0 ≤ probDeath pr := by unfold probDeath; linarith [hpr.ps1]
  have hpd1 : probDeath pr ≤ 1 := by unfold probDeath; linarith [hpr.ps0]
  have hE := Real.exp_pos (-pr.clutterRate)
  have hnn : ∀ i, 0 ≤ at' s.card i := at'_nonneg hd.nonneg
  set L := List.range s.card.length with hL
  have hzip : ∀ (c : List ℝ) (g : ℕ → ℝ), (c.zipIdx.map fun x => x.1 * g x.2).sum =
      ((List.range c.length).map fun i => at' c i * g i).sum := by
    intro c g
    refine congrArg List.sum (List.ext_getElem (by simp) fun i h1 h2 => ?_)
    have hi : i < c.length := by simpa using h1
    simp [at', List.getElem?_eq_getElem hi]
  have hd1 : d0 = Real.exp (-pr.clutterRate) * (L.map fun i => at' s.card i * probDeath pr ^ i).sum := by
    rw [hd0, ← List.sum_map_mul_left, sum_map_range]
    exact Finset.sum_congr rfl fun i _ => by ring
  have hsum1 : (L.map fun i => at' s.card i).sum = 1 := by
    rw [hL, sum_map_range, ← sum_eq_at', hd.sum]
  have hS : 0 < (L.map fun i => at' s.card i * probDeath pr ^ i).sum := by
    have h1 : 0 ≤ (L.map fun i => at' s.card i * probDeath pr ^ i).sum := by
      refine List.sum_nonneg fun x hx => ?_
      obtain ⟨i, -, rfl⟩ := List.mem_map.1 hx
      exact mul_nonneg (hnn i) (pow_nonneg hpd0 i)
    refine lt_of_le_of_ne h1 fun h0 => hd0' ?_
    rw [hd1, ← h0, mul_zero]
  have main : ∀ g : ℕ → ℝ, Monotone g →
      ((L.map fun n => Real.exp (-pr.clutterRate) * probDeath pr ^ n * at' s.card n / d0).zipIdx.map fun x => x.1 * g x.2).sum ≤
        (s.card.zipIdx.map fun x => x.1 * g x.2).sum := by
    intro g hg
    rw [hzip, hzip, List.length_map, hL, List.length_range, ← hL]
    have hdom := detect_dominance L (at' s.card) id g hg (fun i _ => hnn i) hpd0 hpd1
    simp only [one_pow, mul_one, id] at hdom
    rw [hsum1, mul_one] at hdom
    refine le_trans (le_of_eq ?_) ((div_le_iff₀ hS).2 hdom)
    rw [div_eq_mul_inv, ← List.sum_map_mul_right]
    refine congrArg List.sum (List.map_congr_left fun i hi => ?_)
    rw [hL, List.mem_range] at hi
    rw [at'_map_range _ _ hi, hd1]
    field_simp
  refine ⟨main, fun n => ?_⟩
  have hdrop : ∀ c : List ℝ, (c.drop n).sum = (c.zipIdx.map fun x => x.1 * if n ≤ x.2 then (1 : ℝ) else 0).sum := by
    intro c
    rw [hzip c fun k => if n ≤ k then (1 : ℝ) else 0]
    induction c generalizing n with
    | nil => simp
    | cons a c ih =>
      rw [List.length_cons, List.range_succ_eq_map, List.map_cons, List.sum_cons, List.map_map]
      cases n with
      | zero =>
        have := ih 0
        rw [List.drop_zero] at this ⊢
        rw [List.sum_cons, this]
        simp [at', Function.comp_def]
      | succ n =>
        rw [List.drop_succ_cons, ih n]
        simp [at', Function.comp_def]
  rw [hdrop, hdrop]
  refine main (fun k => if n ≤ k then 1 else 0) ?_
  intro i j hij
  dsimp only
  split
  · rw [if_pos (by omega)]
  · split
    · exact zero_le_one
    · exact le_rfl

/-- The conditions of C161 can be met for the CPHD filter: zero or one object with probability 1/2 each. -/
example : ∃ s', Cphd.correct exEsf exCp exCF [] exCS = .ok s' ∧ (s'.card.drop 1).sum ≤ 1 / 2 := by
  obtain ⟨s', hs'⟩ : ∃ s', Cphd.correct exEsf exCp exCF [] exCS = .ok s' := by
    refine C36_correct_total exEsf_ok exCp_ok exCF (fun _ _ _ => zero_le_one) _ exCS 1 exCS_dist ⟨rfl, rfl⟩ ?_
      (by norm_num [exCS])
    intro w hw
    simp only [exCS, List.mem_cons, List.not_mem_nil, or_false] at hw
    rw [hw]; norm_num
  refine ⟨s', hs', ((C161_cphd exEsf_ok exCp_ok exCF exCS s' 1 exCS_dist hs').2 1).trans ?_⟩
  norm_num [exCS]
end

/-! A concrete case for the GLMB filter: zero or one object with probability 1/2 each, detection probability 9/10. -/

noncomputable def stHalf : St ℝ ℝ Unit Unit Unit :=
  { st1 (0 : ℝ) (realBirth (9 / 10)) with hyps := [⟨1 / 2, []⟩, ⟨1 / 2, [0]⟩] }

theorem stHalf_tinv : TInv 1 stHalf := by
  have h := st1_tinv
  refine ⟨⟨?_, ?_⟩, h.ent, h.time, h.meas, ?_, h.ext⟩
  · intro p hp i hi
    simp only [stHalf, List.mem_cons, List.not_mem_nil, or_false] at hp
    rcases hp with rfl | rfl
    · simp at hi
    · simp only [List.mem_singleton] at hi
      subst hi
      simp [stHalf, st1, birthTab]
  · intro p hp
    simp only [stHalf, List.mem_cons, List.not_mem_nil, or_false] at hp
    rcases hp with rfl | rfl <;> simp
  · intro p hp
    simp only [stHalf, List.mem_cons, List.not_mem_nil, or_false] at hp
    rcases hp with rfl | rfl <;> norm_num

theorem half_correct : ∃ st' : St ℝ ℝ Unit Unit Unit,
    correct (realEnv (some (1 / 2))) (realPr 1 1 3 5) ([] : List Unit) stHalf = .ok st' := by
  obtain ⟨st', hst, _, hc⟩ := correct_total (env := realEnv (some (1 / 2))) (pr := realPr 1 1 3 5) (by norm_num [realPr])
    (st := stHalf)
    ⟨realEnv_exp _, fun x hx => Real.sqrt_pos.2 hx, fun e _ => .inr (.inr (by
      have h1 := realOdds
      have h2 : (realPr 1 1 3 5).eps = 1 / 2 ^ 52 := rfl
      have h3 : (realEnv (some (1 / 2))).psurv e = 9 / 10 := rfl
      rw [h3, h2]
      change _ ≤ |realNum.negLog _|
      rw [abs_of_nonpos (h1.trans (by norm_num))]
      linarith)), fun e _ => by norm_num [realEnv], fun e _ => by norm_num [realEnv], by
      intro e _ f _ z s w x hx
      simp only [realEnv, Option.map_some, Option.some.injEq] at hx
      subst hx
      norm_num, realArgsort⟩ (by norm_num [realPr]) [] stHalf_tinv (by
        intro e he
        simp only [stHalf, st1, birthTab, List.zipIdx_cons, List.zipIdx_nil, List.map_cons, List.map_nil, List.mem_singleton] at he
        subst he
        simp [stHalf, st1])
  exact ⟨st', hst⟩

/-- The conditions of C161 can be met for the GLMB filter. -/
example : ∃ st', correct (realEnv (some (1 / 2))) (realPr 1 1 3 5) ([] : List Unit) stHalf = .ok st' ∧
    ((st'.hyps.filter fun h => 1 ≤ h.tracks.length).map Hyp.prob).sum ≤ 1 / 2 := by
  obtain ⟨st', hst⟩ := half_correct
  refine ⟨st', hst, ((C161_glmb _ _ realNum_add (by simp [realNum, realEnv])
    (fun x hx => by simp only [realEnv, realNum, neg_neg]; exact Real.exp_log hx)
    (fun x y hxy => Real.exp_le_exp.2 (by linarith)) (realEnv_exp _) (fun x => Real.sqrt_nonneg x) stHalf st' (9 / 10)
    (by norm_num) (by norm_num) (fun e _ => rfl) stHalf_tinv.idx.range stHalf_tinv.pos (by norm_num [stHalf]) hst).2.2 1).trans ?_⟩
  simp [stHalf]

end Gasur.Props
