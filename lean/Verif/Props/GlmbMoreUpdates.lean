import Verif.Props.GlmbExact

/-!
# Property C162: asking for more updates never makes the GLMB update worse
-/

set_option linter.unusedSectionVars false

namespace Gasur.Props

open Gasur.Glmb Gasur.Spec

variable {K τ F S C Z : Type*} [Field K] [LinearOrder K] [IsStrictOrderedRing K] [FloorRing K]
  [DecidableEq τ]

/-- `st'` is the exact posterior of `st` cut off to the associations `kids` and rescaled: its hypotheses are one for each of
`kids`, with the weight of the association divided by the total weight of `kids`. -/
def CutTo (wt : Hyp K → List (Option ℕ) → K) (m : ℕ) (st st' : St K τ F S C) (kids : List (List (List (Option ℕ)))) : Prop :=
  SomeAssocs st.hyps m kids ∧
    List.Forall₂ (fun (x : Hyp K × List (Option ℕ)) (h' : Hyp K) =>
      h'.prob = wt x.1 x.2 / assocMass wt st.hyps kids ∧ IsUpdated st.tab st'.tab x.1 x.2 h')
      (familyPairs st.hyps kids) st'.hyps

/-- The total variation between `st'` (with the associations `kids`) and the exact posterior of `st` (with all associations
`full`): the differences of the weights for `kids`, plus the exact weight of the associations left out. -/
def cutError (wt : Hyp K → List (Option ℕ) → K) (st st' : St K τ F S C) (full kids : List (List (List (Option ℕ)))) : K :=
  ((List.zip (familyPairs st.hyps kids) st'.hyps).map fun x =>
      |x.2.prob - wt x.1.1 x.1.2 / assocMass wt st.hyps full|).sum +
    assocMass wt st.hyps (leftOut full kids) / assocMass wt st.hyps full

/-- Of two lists of best associations, the one for the larger number is not shorter. -/
theorem kbest_length {n m k k' : ℕ} {w : List (Option ℕ) → K} {as ks : List (List (Option ℕ))} (h : KBest n m k w as)
    (h' : KBest n m k' w ks) (hk : k ≤ k') : as.length ≤ ks.length := by
  by_cases hall : ∀ a ∈ as, a ∈ ks
  · exact (List.subperm_of_subset h.1 hall).length_le
  · push Not at hall
    obtain ⟨a, ha, hn⟩ := hall
    have e1 := (h'.2.2.2.2 a (h.2.1 a ha) hn).1
    have e2 := h.2.2.2.1
    omega

/-- Rounding is monotone for arguments that differ. -/
theorem round_mono {x x' : K} {k k' : ℕ} (hx : x < x') (h : |(k : K) - x| ≤ 1 / 2) (h' : |(k' : K) - x'| ≤ 1 / 2) : k ≤ k' := by
  by_contra hlt
  have h1 : ((k' : K) + 1) ≤ k := by
    have : k' + 1 ≤ k := by omega
    exact_mod_cast this
  have h2 := (abs_le.1 h).2
  have h3 := (abs_le.1 h').1
  linarith

/-- **C162.** Asking for more updates never makes the GLMB update worse: if `R ≤ R'` and `correct` succeeds with `req_upd`
`R` and with `R'` (and leaves some hypothesis), then for each hypothesis at least as many associations are kept with `R'`,
they carry at least as much of the exact posterior, and the total variation from the exact posterior is at most that of
`R`. -/
theorem C162_more_updates (env : Env K τ F S C Z) (pr : Params K) (R R' : ℕ) (hR : R ≤ R')
    (hadd : ∀ x y, env.num.expNeg (x + y) = env.num.expNeg x * env.num.expNeg y)
    (hzero : env.num.expNeg 0 = 1) (hinv : ∀ x, 0 < x → env.num.expNeg (env.num.negLog x) = x)
    (hanti : ∀ x y, x ≤ y → env.num.expNeg y ≤ env.num.expNeg x) (hexp : ∀ x, 0 < env.num.expNeg x)
    (hsqrt : ∀ x, 0 ≤ env.num.sqrt x) (hsqrt' : ∀ x, 0 < x → 0 < env.num.sqrt x)
    (hκ : 0 < pr.clutterRate * pr.clutterDen) (st st1 st2 : St K τ F S C) (meas : List Z)
    (pd : ℕ → K) (lik : ℕ → ℕ → K)
    (hpd : ∀ (t : ℕ) (e : Entry K τ F S C), st.tab[t]? = some e → pd t = env.pdet e ∧ 0 < pd t ∧ pd t < 1)
    (hlik : ∀ (t : ℕ) (e : Entry K τ F S C) (j : ℕ) (z : Z), st.tab[t]? = some e → meas[j]? = some z →
      TrackLikelihood env pr.eps z e (lik t j) ∧ 0 < lik t j)
    (hidx : ∀ h ∈ st.hyps, ∀ i ∈ h.tracks, i < st.tab.length) (hp : ∀ h ∈ st.hyps, 0 < h.prob)
    (full : List (List (List (Option ℕ)))) (hfull : AllAssocs st.hyps meas.length full)
    (h1 : correct env { pr with reqUpd := R } meas st = .ok st1) (hne1 : st1.hyps ≠ [])
    (h2 : correct env { pr with reqUpd := R' } meas st = .ok st2) (hne2 : st2.hyps ≠ []) :
    let wt := bayesWeight env pr meas.length pd lik
    ∃ kids kids', CutTo wt meas.length st st1 kids ∧ CutTo wt meas.length st st2 kids' ∧
      List.Forall₂ (fun as ks => as.length ≤ ks.length) kids kids' ∧
      assocMass wt st.hyps kids ≤ assocMass wt st.hyps kids' ∧
      cutError wt st st2 full kids' ≤ cutError wt st st1 full kids := by
  intro wt
  rcases hR.eq_or_lt with rfl | hR
  · rw [h1] at h2
    cases h2
    obtain ⟨kids, q1, q2, -⟩ := C99_truncation_error env { pr with reqUpd := R } hadd hzero hinv hanti hexp hsqrt hκ st st1 meas
      pd lik hpd hlik hidx hp full hfull h1 hne1
    exact ⟨kids, kids, ⟨q1, q2⟩, ⟨q1, q2⟩, List.forall₂_same.2 fun _ _ => le_rfl, le_rfl, le_rfl⟩
  obtain ⟨Zc, _, kids, k1, k2, k3⟩ := C85_best_associations env { pr with reqUpd := R } hadd hzero hinv hanti hexp hsqrt
    st st1 meas pd lik hpd hlik hidx (fun h hh => (hp h hh).le) h1
  obtain ⟨Zc', _, kids', k1', k2', k3'⟩ := C85_best_associations env { pr with reqUpd := R' } hadd hzero hinv hanti hexp hsqrt
    st st2 meas pd lik hpd hlik hidx (fun h hh => (hp h hh).le) h2
  obtain ⟨q1, q2, q3, -⟩ := truncation_core env pr hexp hκ st st1 meas pd lik hpd hlik hidx hp full hfull hne1
    (x := fun p => (R : K) * env.num.sqrt p.prob / (st.hyps.map fun h => env.num.sqrt h.prob).sum) k1 k2 k3
  obtain ⟨q1', q2', q3', q4'⟩ := truncation_core env pr hexp hκ st st2 meas pd lik hpd hlik hidx hp full hfull hne2
    (x := fun p => (R' : K) * env.num.sqrt p.prob / (st.hyps.map fun h => env.num.sqrt h.prob).sum) k1' k2' k3'
  have hlen : List.Forall₂ (fun as ks => as.length ≤ ks.length) kids kids' := by
    have hgen : ∀ (l : List (Hyp K)) (as ks : List (List (List (Option ℕ)))), (∀ p ∈ l, p ∈ st.hyps) →
        List.Forall₂ (fun (p : Hyp K) ks =>
          if p.tracks = [] ∨ meas = [] then ks = [List.replicate p.tracks.length none]
          else ∃ k : ℕ, |(k : K) - (R : K) * env.num.sqrt p.prob / (st.hyps.map fun h => env.num.sqrt h.prob).sum| ≤ 1 / 2 ∧
            KBest p.tracks.length meas.length k (wt p) ks) l as →
        List.Forall₂ (fun (p : Hyp K) ks =>
          if p.tracks = [] ∨ meas = [] then ks = [List.replicate p.tracks.length none]
          else ∃ k : ℕ, |(k : K) - (R' : K) * env.num.sqrt p.prob / (st.hyps.map fun h => env.num.sqrt h.prob).sum| ≤ 1 / 2 ∧
            KBest p.tracks.length meas.length k (wt p) ks) l ks →
        List.Forall₂ (fun as ks => as.length ≤ ks.length) as ks := by
      intro l as ks hm ha
      induction ha generalizing ks with
      | nil => rintro ⟨⟩; exact .nil
      | @cons p a l as ha _ ih =>
        rintro ⟨⟩
        rename_i b ks hb hks
        refine .cons ?_ (ih _ (fun q hq => hm q (List.mem_cons_of_mem _ hq)) hks)
        by_cases hc : p.tracks = [] ∨ meas = []
        · rw [if_pos hc] at ha hb
          rw [ha, hb]
        · rw [if_neg hc] at ha hb
          obtain ⟨k, e1, e2⟩ := ha
          obtain ⟨k', e1', e2'⟩ := hb
          have hpm := hm p List.mem_cons_self
          have hs : 0 < (st.hyps.map fun h => env.num.sqrt h.prob).sum := by
            refine List.sum_pos _ ?_ (List.ne_nil_of_mem (List.mem_map_of_mem hpm))
            intro y hy
            obtain ⟨h, hh, rfl⟩ := List.mem_map.1 hy
            exact hsqrt' _ (hp h hh)
          refine kbest_length e2 e2' (round_mono ?_ e1 e1')
          rw [div_lt_div_iff_of_pos_right hs]
          exact mul_lt_mul_of_pos_right (by exact_mod_cast hR) (hsqrt' _ (hp p hpm))
    exact hgen _ _ _ (fun _ h => h) k1 k1'
  have hmass := q4' kids q1 hlen
  refine ⟨kids, kids', ⟨q1, q2⟩, ⟨q1', q2'⟩, hlen, hmass, ?_⟩
  have hw : ∀ p ∈ st.hyps, ∀ a, IsAssoc p.tracks.length meas.length a → 0 < wt p a := by
    intro p hpm a ha
    refine bayesWeight_pos hexp hκ (st := st) ?_ ?_ (hidx p hpm) (hp p hpm) ha
    · exact fun t ht => (hpd t _ (List.getElem?_eq_getElem ht)).2
    · exact fun t j ht hj => (hlik t _ j _ (List.getElem?_eq_getElem ht) (List.getElem?_eq_getElem hj)).2
  have hB : 0 ≤ assocMass wt st.hyps full :=
    mass_nonneg (hfull.imp fun _ _ hx => ⟨hx.1, fun a ha => (hx.2 a).1 ha⟩) hw
  rw [show cutError wt st st2 full kids' = _ from q3', show cutError wt st st1 full kids = _ from q3]
  have := div_le_div_of_nonneg_right hmass hB
  linarith

theorem real_some {R : ℕ} (hR : 1 ≤ R) {st' : St ℝ ℝ Unit Unit Unit} (hst : correct (realEnv (some (1 / 2)))
    (realPr 1 1 R 1) [(), ()] (st1 0 (realBirth (9 / 10))) = .ok st') : st'.hyps ≠ [] := by
  obtain ⟨Zc, _, kids, k1, -, k2⟩ := C85_best_associations (realEnv (some (1 / 2))) (realPr 1 1 R 1) realNum_add (by simp [realNum, realEnv])
    (fun x hx => by simp only [realEnv, realNum, neg_neg]; exact Real.exp_log hx)
    (fun x y hxy => Real.exp_le_exp.2 (by linarith)) (realEnv_exp _) (fun x => Real.sqrt_nonneg x) (st1 0 (realBirth (9 / 10))) st' [(), ()]
    (fun _ => 9 / 10) (fun _ _ => 1 / 2 + 1 / 2 ^ 52) (fun t e _ => ⟨rfl, by norm_num, by norm_num⟩)
    (real_lik R) st1_tinv.idx.range (fun h hh => (st1_tinv.pos h hh).le) hst
  have hf := real_all
  rw [show (st1 (0 : ℝ) (realBirth (9 / 10))).hyps = [⟨1, [0]⟩] from rfl] at k1 k2 hf
  cases k1 with
  | cons h1 h2 =>
    rename_i ks rest
    cases h2
    rw [if_neg (by simp)] at h1
    obtain ⟨k, hk, q1, q2, q3, q4, q5⟩ := h1
    have hk1 : 0 < k := by
      have hs : (realEnv (some (1 / 2))).num.sqrt 1 = 1 := Real.sqrt_one
      simp only [List.map_cons, List.map_nil, List.sum_cons, List.sum_nil, add_zero] at hk
      rw [hs, show (realPr 1 1 R 1).reqUpd = R from rfl, abs_le] at hk
      norm_num at hk
      have a0 : (1 : ℝ) ≤ R := by exact_mod_cast hR
      have a1 : (0 : ℝ) < k := by linarith [hk.1]
      exact_mod_cast a1
    intro he
    rw [he] at k2
    have hl := k2.length_eq
    have h0 : ks = [] := by
      rw [← List.length_eq_zero_iff]
      simpa [familyPairs] using hl
    cases hf with
    | cons h3 _ =>
      have := (q5 [none] ((h3.2 _).1 (by simp)) (by rw [h0]; simp)).1
      rw [h0, List.length_nil] at this
      omega

/-- The conditions of C162 can be met: with one requested update one association is kept, and with any larger number the
error is at most the same. -/
example (R' : ℕ) (hR : 1 ≤ R') : ∀ wt : Hyp ℝ → List (Option ℕ) → ℝ, wt = bayesWeight (realEnv (some (1 / 2)))
      (realPr 1 1 0 1) 2 (fun _ => 9 / 10) (fun _ _ => 1 / 2 + 1 / 2 ^ 52) →
    ∃ s1 s2 : St ℝ ℝ Unit Unit Unit,
    correct (realEnv (some (1 / 2))) (realPr 1 1 1 1) [(), ()] (st1 0 (realBirth (9 / 10))) = .ok s1 ∧ s1.hyps.length = 1 ∧
    correct (realEnv (some (1 / 2))) (realPr 1 1 R' 1) [(), ()] (st1 0 (realBirth (9 / 10))) = .ok s2 ∧
    ∃ kids kids', CutTo wt 2 (st1 0 (realBirth (9 / 10))) s1 kids ∧ CutTo wt 2 (st1 0 (realBirth (9 / 10))) s2 kids' ∧
      cutError wt (st1 0 (realBirth (9 / 10))) s2 [[[none], [some 0], [some 1]]] kids' ≤
        cutError wt (st1 0 (realBirth (9 / 10))) s1 [[[none], [some 0], [some 1]]] kids := by
  rintro wt rfl
  obtain ⟨s1, hs1, _⟩ := real_correct 1
  obtain ⟨s2, hs2, _⟩ := real_correct R'
  obtain ⟨kids, kids', c1, c2, -, -, q⟩ := C162_more_updates (realEnv (some (1 / 2))) (realPr 1 1 0 1) 1 R' hR realNum_add
    (by simp [realNum, realEnv])
    (fun x hx => by simp only [realEnv, realNum, neg_neg]; exact Real.exp_log hx)
    (fun x y hxy => Real.exp_le_exp.2 (by linarith)) (realEnv_exp _) (fun x => Real.sqrt_nonneg x)
    (fun x hx => Real.sqrt_pos.2 hx)
    (by norm_num [realPr]) (st1 0 (realBirth (9 / 10))) s1 s2 [(), ()]
    (fun _ => 9 / 10) (fun _ _ => 1 / 2 + 1 / 2 ^ 52) (fun t e _ => ⟨rfl, by norm_num, by norm_num⟩)
    (real_lik 1) st1_tinv.idx.range st1_tinv.pos _ real_all hs1 (real_some le_rfl hs1) hs2 (real_some hR hs2)
  exact ⟨s1, s2, hs1, real_one hs1, hs2, kids, kids', c1, c2, q⟩

end Gasur.Props
