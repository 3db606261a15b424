import Verif.Proofs.GlmbBest
import Verif.Props.GlmbBayes

/-!
# Property C85: the GLMB update keeps the most likely associations
-/

set_option linter.unusedSectionVars false

namespace Gasur.Props

open Gasur.Glmb Gasur.Spec

variable {K τ F S C Z : Type*} [Field K] [LinearOrder K] [IsStrictOrderedRing K] [FloorRing K]
  [DecidableEq τ]

/-- **C85.** Let `lik t j` be the likelihood of measurement `j` for track `t` of the table and `pd t` the track's
detection probability. `correct` replaces every hypothesis `p` by hypotheses for its `k` heaviest associations of tracks
with measurements, heaviest first and without repetition (all associations if there are fewer than `k`), where `k` is
`reqUpd * √p.prob / Σ √prob` rounded; a hypothesis without tracks, or without measurements, has only one association.
The weight of an association is `exp(-λ) κ^m p.prob Π_i g_i` with `g_i = 1 - pd` for a missed track and `pd * lik / κ` for
a detected one; the new hypotheses have these weights divided by their sum `Zc`, the labels of the old tracks and
their measurement histories extended by the association. No hypothesis is lost, none is added. -/
theorem C85_best_associations (env : Env K τ F S C Z) (pr : Params K)
    (hadd : ∀ x y, env.num.expNeg (x + y) = env.num.expNeg x * env.num.expNeg y)
    (hzero : env.num.expNeg 0 = 1) (hinv : ∀ x, 0 < x → env.num.expNeg (env.num.negLog x) = x)
    (hanti : ∀ x y, x ≤ y → env.num.expNeg y ≤ env.num.expNeg x) (hexp : ∀ x, 0 < env.num.expNeg x)
    (hsqrt : ∀ x, 0 ≤ env.num.sqrt x) (st st' : St K τ F S C) (meas : List Z) (pd : ℕ → K) (lik : ℕ → ℕ → K)
    (hpd : ∀ (t : ℕ) (e : Entry K τ F S C), st.tab[t]? = some e → pd t = env.pdet e ∧ 0 < pd t ∧ pd t < 1)
    (hlik : ∀ (t : ℕ) (e : Entry K τ F S C) (j : ℕ) (z : Z), st.tab[t]? = some e → meas[j]? = some z →
      TrackLikelihood env pr.eps z e (lik t j) ∧ 0 < lik t j)
    (hidx : ∀ h ∈ st.hyps, ∀ i ∈ h.tracks, i < st.tab.length) (hp : ∀ h ∈ st.hyps, 0 ≤ h.prob)
    (h : correct env pr meas st = .ok st') :
    ∃ Zc, (st'.hyps ≠ [] → Zc ≠ 0) ∧ ∃ kids : List (List (List (Option ℕ))),
      List.Forall₂ (fun (p : Hyp K) ks =>
        if p.tracks = [] ∨ meas = [] then ks = [List.replicate p.tracks.length none]
        else ∃ k : ℕ, |(k : K) - (pr.reqUpd : K) * env.num.sqrt p.prob / (st.hyps.map fun h => env.num.sqrt h.prob).sum|
            ≤ 1 / 2 ∧
          KBest p.tracks.length meas.length k
            (assocWeight (env.num.expNeg pr.clutterRate * (pr.clutterRate * pr.clutterDen) ^ meas.length)
              (pr.clutterRate * pr.clutterDen) pd lik p) ks) st.hyps kids ∧
      Zc = ((familyPairs st.hyps kids).map fun x => assocWeight
        (env.num.expNeg pr.clutterRate * (pr.clutterRate * pr.clutterDen) ^ meas.length)
        (pr.clutterRate * pr.clutterDen) pd lik x.1 x.2).sum ∧
      List.Forall₂ (fun (x : Hyp K × List (Option ℕ)) (h' : Hyp K) =>
        h'.prob * Zc = assocWeight (env.num.expNeg pr.clutterRate * (pr.clutterRate * pr.clutterDen) ^ meas.length)
          (pr.clutterRate * pr.clutterDen) pd lik x.1 x.2 ∧
        IsUpdated st.tab st'.tab x.1 x.2 h') (familyPairs st.hyps kids) st'.hyps := by
  obtain ⟨-, Zc, h1, kids, h2, h3, h4⟩ := correct_best ⟨hadd, hzero, hinv⟩ hanti hexp hsqrt ⟨hpd, hlik⟩ hidx hp h
  refine ⟨Zc, h1, kids, h2.imp fun p ks hk => ?_, h3, h4⟩
  split
  · rename_i hc
    rwa [if_pos hc] at hk
  · rename_i hc
    rw [if_neg hc] at hk
    obtain ⟨k, -, hk⟩ := hk
    exact ⟨k, hk⟩

/-! A concrete case: one track, two measurements and three requested updates, over the reals. -/

theorem realNum_add (x y : ℝ) : realNum.expNeg (x + y) = realNum.expNeg x * realNum.expNeg y := by
  simp only [realNum]
  rw [neg_add, Real.exp_add]

theorem st1_tinv : TInv 1 (st1 (0 : ℝ) (realBirth (9 / 10))) := by
  refine ⟨⟨?_, ?_⟩, ?_, ?_, ?_, ?_, ?_⟩
  · intro h hh i hi
    simp only [st1, List.mem_singleton] at hh
    subst hh
    simp only [List.mem_singleton] at hi
    subst hi
    simp [st1, birthTab]
  · intro h hh
    simp only [st1, List.mem_singleton] at hh
    subst hh
    simp
  · intro e he
    exact birthTab_wf (lab := 0) (cntr := 0) (births := [realBirth (9 / 10)]) (by
      intro b hb
      rw [List.mem_singleton] at hb
      subst hb
      exact ⟨rfl, rfl, rfl, by simp [realBirth], by norm_num [realBirth], by norm_num [realBirth]⟩) he
  · intro e he
    simp only [st1, birthTab, List.zipIdx_cons, List.zipIdx_nil, List.map_cons, List.map_nil, List.mem_singleton] at he
    subst he
    simp [st1]
  · intro e he
    simp only [st1, birthTab, List.zipIdx_cons, List.zipIdx_nil, List.map_cons, List.map_nil, List.mem_singleton] at he
    subst he
    simp [st1]
  · intro h hh
    simp only [st1, List.mem_singleton] at hh
    subst hh
    norm_num
  · intro x hx
    simp [st1] at hx

/-- The conditions of C85 can be met, and with one track, two measurements and three requested updates all three
associations are kept. -/
example : ∃ st' : St ℝ ℝ Unit Unit Unit,
    correct (realEnv (some (1 / 2))) (realPr 1 1 3 1) [(), ()] (st1 0 (realBirth (9 / 10))) = .ok st' ∧
    st'.hyps.length = 3 := by
  obtain ⟨st', hst, _⟩ := correct_total (env := realEnv (some (1 / 2))) (pr := realPr 1 1 3 1) (by norm_num [realPr])
    (st := st1 0 (realBirth (9 / 10)))
    ⟨realEnv_exp _, fun x hx => Real.sqrt_pos.2 hx, fun e _ => .inr (.inr (by
      have h1 := realOdds
      have h2 : (realPr 1 1 3 1).eps = 1 / 2 ^ 52 := rfl
      have h3 : (realEnv (some (1 / 2))).psurv e = 9 / 10 := rfl
      rw [h3, h2]
      change _ ≤ |realNum.negLog _|
      rw [abs_of_nonpos (h1.trans (by norm_num))]
      linarith)), fun e _ => by norm_num [realEnv], fun e _ => by norm_num [realEnv], by
      intro e _ f _ z s w x hx
      simp only [realEnv, Option.map_some, Option.some.injEq] at hx
      subst hx
      norm_num, realArgsort⟩ (by norm_num [realPr]) [(), ()] st1_tinv (by
        intro e he
        simp only [st1, birthTab, List.zipIdx_cons, List.zipIdx_nil, List.map_cons, List.map_nil, List.mem_singleton] at he
        subst he
        simp [st1])
  refine ⟨st', hst, ?_⟩
  obtain ⟨Zc, _, kids, k1, -, k2⟩ := C85_best_associations _ _ realNum_add (by simp [realNum, realEnv])
    (fun x hx => by simp only [realEnv, realNum, neg_neg]; exact Real.exp_log hx)
    (fun x y hxy => Real.exp_le_exp.2 (by linarith)) (realEnv_exp _) (fun x => Real.sqrt_nonneg x) _ st' _
    (fun _ => 9 / 10) (fun _ _ => 1 / 2 + 1 / 2 ^ 52) (fun t e _ => ⟨rfl, by norm_num, by norm_num⟩) (by
      intro t e j z he _
      have : e ∈ (st1 (0 : ℝ) (realBirth (9 / 10))).tab := List.mem_of_getElem? he
      simp only [st1, birthTab, List.zipIdx_cons, List.zipIdx_nil, List.map_cons, List.map_nil, List.mem_singleton] at this
      subst this
      refine ⟨⟨[()], [1], [((), (), (), 1 / 2)], rfl, rfl, .cons rfl .nil, ?_⟩, by norm_num⟩
      simp [realPr]) st1_tinv.idx.range (fun h hh => (st1_tinv.pos h hh).le) hst
  rw [show (st1 (0 : ℝ) (realBirth (9 / 10))).hyps = [⟨1, [0]⟩] from rfl] at k1 k2
  cases k1 with
  | cons h1 h2 =>
    rename_i ks rest
    cases h2
    rw [if_neg (by simp)] at h1
    obtain ⟨k, hk, q1, q2, q3, q4, q5⟩ := h1
    have hk3 : k = 3 := by
      have hs : (realEnv (some (1 / 2))).num.sqrt 1 = 1 := Real.sqrt_one
      simp only [List.map_cons, List.map_nil, List.sum_cons, List.sum_nil, add_zero] at hk
      rw [hs, show (realPr 1 1 3 1).reqUpd = 3 from rfl, abs_le] at hk
      norm_num at hk
      have a1 : (2 : ℝ) < k := by linarith [hk.1]
      have a2 : (k : ℝ) < 4 := by linarith [hk.2]
      have b1 : 2 < k := by exact_mod_cast a1
      have b2 : k < 4 := by exact_mod_cast a2
      omega
    have hall : ks.length = 3 := by
      by_contra hne
      have hmem : ∀ b, IsAssoc 1 2 b → b ∈ ks := by
        intro b hb
        by_contra hn
        exact hne ((q5 b hb hn).1.trans hk3)
      have i0 : ∀ o : Option ℕ, (∀ j, o = some j → j < 2) → IsAssoc 1 2 [o] := by
        intro o ho
        refine ⟨rfl, fun j hj => ho j (List.mem_singleton.1 hj).symm, ?_⟩
        intro i i' j h1 h2
        rw [List.getElem?_eq_some_iff] at h1 h2
        obtain ⟨h1, _⟩ := h1
        obtain ⟨h2, _⟩ := h2
        simp only [List.length_cons, List.length_nil] at h1 h2
        omega
      have hsub : [[none], [some 0], [some 1]] ⊆ ks := by
        intro b hb
        simp only [List.mem_cons, List.not_mem_nil, or_false] at hb
        rcases hb with rfl | rfl | rfl
        · exact hmem _ (i0 _ (by simp))
        · exact hmem _ (i0 _ (by simp))
        · exact hmem _ (i0 _ (by simp))
      have := (List.subperm_of_subset (by decide) hsub).length_le
      simp only [List.length_cons, List.length_nil] at this
      omega
    have := k2.length_eq
    rw [← this]
    simp [familyPairs, hall]

end Gasur.Props
