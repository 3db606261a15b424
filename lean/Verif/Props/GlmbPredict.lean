import Verif.Proofs.GlmbPredict
import Verif.Proofs.KNat
import Verif.Props.GlmbBest
import Mathlib.Data.Fin.Tuple.Sort

/-!
# Property C93: the GLMB prediction follows Bayes' rule

The prediction step keeps the requested number of the most probable sets of births, and for every hypothesis its share
of the most probable sets of survivors; the predicted probability of a set of tracks is proportional to the product of
the three probabilities (`Spec.BayesPredict`). The claim is false as soon as three or more sets of two or more tracks are
requested, because `k_shortest` then omits some of the most probable sets (C08); it holds below that limit.
-/

set_option linter.unusedSectionVars false
set_option linter.unusedSimpArgs false

namespace Gasur.Props

open Gasur.Glmb Gasur.KShortest Gasur.Spec

section
variable {K τ F S C Z : Type*} [Field K] [LinearOrder K] [IsStrictOrderedRing K] [FloorRing K]

/-- **C93, partial.** Exact arithmetic, `exp`/`log` inverse to each other, a sorting `argsort`, positive birth and survival
probabilities whose log odds are not below machine precision. If at most two sets of births are requested (or there is
at most one birth term) and the share of every hypothesis is below 5/2 (or it has at most one track), the hypotheses
after `predict` carry the probabilities of Bayes' rule, restricted to the most probable sets of births and, per
hypothesis, the `ks` most probable sets of survivors, where `ks` is the share `reqSurv · √w / Σ √w` rounded to a nearest
integer. *Missing:* more requested sets (false, see `C93_refuted`); hypotheses with tracks are underrated by the factor
`exp (-eps)`, relative to the empty hypothesis. -/
theorem C93_predict_bayes_partial (env : Env K τ F S C Z) (pr : Params K)
    (hadd : ∀ x y, env.num.expNeg (x + y) = env.num.expNeg x * env.num.expNeg y) (hzero : env.num.expNeg 0 = 1)
    (hinv : ∀ x, 0 < x → env.num.expNeg (env.num.negLog x) = x)
    (hanti : ∀ x y, x ≤ y → env.num.expNeg y ≤ env.num.expNeg x)
    (hexp : ∀ x, 0 < env.num.expNeg x) (hsqrt : ∀ x, 0 ≤ env.num.sqrt x) (heps : 0 < pr.eps)
    (hsort : ∀ (n : ℕ) (lc : Fin n → WithTop K) (i j : Fin n), i ≤ j → lc (env.sortInds n lc j) ≤ lc (env.sortInds n lc i))
    (lab : τ) (births : List (Birth K F S C)) (st st' : St K τ F S C) (pb ps : ℕ → K)
    (hpb : ∀ (i : ℕ) (b : Birth K F S C), births[i]? = some b → pb i = b.prob)
    (hps : ∀ (t : ℕ) (e : Entry K τ F S C), st.tab[t]? = some e → ps t = env.psurv e)
    (hidx : ∀ h ∈ st.hyps, ∀ t ∈ h.tracks, t < st.tab.length) (hnd : ∀ h ∈ st.hyps, h.tracks.Nodup)
    (hp : ∀ h ∈ st.hyps, 0 ≤ h.prob)
    (hposB : ∀ i < births.length, 0 < pb i) (hposS : ∀ t < st.tab.length, 0 < ps t)
    (hoddsB : ∀ i < births.length, pr.eps ≤ |env.num.negLog (pb i / (1 - pb i))|)
    (hoddsS : ∀ t < st.tab.length, pr.eps ≤ |env.num.negLog (ps t / (1 - ps t))|)
    (hsmallB : pr.reqBirths ≤ 2 ∨ births.length ≤ 1)
    (hsmallS : ∀ h ∈ st.hyps, (pr.reqSurv : K) * env.num.sqrt h.prob /
      (st.hyps.map fun h => env.num.sqrt h.prob).sum < 5 / 2 ∨ h.tracks.length ≤ 1)
    (h : predict env pr lab births st = .ok st') :
    ∃ ks : Hyp K → ℕ,
      (∀ h ∈ st.hyps, |(ks h : K) - (pr.reqSurv : K) * env.num.sqrt h.prob /
        (st.hyps.map fun h => env.num.sqrt h.prob).sum| ≤ 1 / 2) ∧
      BayesPredict (env.num.expNeg pr.eps) births.length pb ps pr.reqBirths ks st.hyps st'.hyps := by
  have hnn : ∀ h : Hyp K, 0 ≤ (pr.reqSurv : K) * env.num.sqrt h.prob /
      (st.hyps.map fun h => env.num.sqrt h.prob).sum := by
    intro h
    refine div_nonneg (mul_nonneg (Nat.cast_nonneg _) (hsqrt _)) ?_
    exact List.sum_nonneg (by
      intro x hx'
      obtain ⟨y, _, rfl⟩ := List.mem_map.1 hx'
      exact hsqrt _)
  refine ⟨_, ?_, predict_bayes ⟨hadd, hzero, hinv⟩ heps hexp hanti hsort hpb hps ⟨hidx, hnd⟩ hp hposB hposS hoddsB hoddsS hsmallB ?_ h⟩
  · intro h _
    exact pyRound_near _ (hnn h)
  · intro h hh
    refine (hsmallS h hh).imp_left fun hlt => ?_
    have h1 := (abs_le.1 (pyRound_near _ (hnn h))).2
    have h2 : ((Phd.pyRound ((pr.reqSurv : K) * env.num.sqrt h.prob /
      (st.hyps.map fun h => env.num.sqrt h.prob).sum)).toNat : K) < ((3 : ℕ) : K) := by
      push_cast
      linarith
    have := Nat.cast_lt.1 h2
    omega

end

/-! ### The environment of the examples: a genuine descending sort -/

/-- As `realEnv`, with a sorting `argsort` and survival probability `p`. -/
noncomputable def sortEnv (p : ℝ) : Env ℝ ℝ Unit Unit Unit Unit :=
  { realEnv (some (1 / 2)) with
    sortInds := fun _ lc => Tuple.sort fun i => OrderDual.toDual (lc i)
    psurv := fun _ => p }

theorem sortEnv_sorts (p : ℝ) : Sorts (sortEnv p) := by
  intro n lc i j hij
  exact Tuple.monotone_sort (fun i => OrderDual.toDual (lc i)) hij

/-- A probability with log odds 4. -/
noncomputable def p4 : ℝ := Real.exp 4 / (1 + Real.exp 4)

theorem p4_pos : 0 < p4 := by unfold p4; positivity

theorem p4_lt : p4 < 1 := by
  unfold p4
  rw [div_lt_one (by positivity)]
  linarith

theorem p4_odds : realNum.negLog (p4 / (1 - p4)) = -4 := by
  have h : p4 / (1 - p4) = Real.exp 4 := by
    unfold p4
    have := Real.exp_pos 4
    field_simp
    ring
  simp only [realNum]
  rw [h, Real.log_exp]

theorem p4_half : 1 - p4 < p4 := by
  unfold p4
  have h1 : (1 : ℝ) < Real.exp 4 := by
    rw [← Real.exp_zero]; exact Real.exp_lt_exp.2 (by norm_num)
  rw [sub_lt_iff_lt_add, ← add_div, lt_div_iff₀ (by positivity)]
  linarith

theorem sortEnv_pos (p : ℝ) (h0 : 0 < p) (h1 : p < 1) (pr : Params ℝ) (hodds : OddsOk (sortEnv p) pr p)
    (tab : List (Entry ℝ ℝ Unit Unit Unit)) : EnvPos (sortEnv p) pr tab :=
  ⟨fun _ => Real.exp_pos _, fun _ hx => Real.sqrt_pos.2 hx, fun _ _ => hodds, fun _ _ => ⟨h0.le, h1⟩,
    fun _ _ => by norm_num [sortEnv, realEnv], by
      intro e _ f _ z s w x hx
      simp only [sortEnv, realEnv, Option.map_some, Option.some.injEq] at hx
      subst hx
      norm_num, realArgsort⟩

/-- A state with one hypothesis of two tracks. -/
noncomputable def stPair : St ℝ ℝ Unit Unit Unit :=
  { tab := birthTab 0 0 [realBirth p4, realBirth p4], hyps := [⟨1, [0, 1]⟩], card := [0, 0, 1], cntr := 1, ext := [],
    states := [], labels := [], covs := [] }

theorem stPair_tinv : TInv 0 stPair := by
  have hmem : ∀ e ∈ stPair.tab, e.tIdx = 0 ∧ e.sHist.length = 1 ∧ e.mHist = [] := by
    intro e he
    simp only [stPair, birthTab, List.zipIdx_cons, List.zipIdx_nil, List.map_cons, List.map_nil, List.mem_cons,
      List.not_mem_nil, or_false] at he
    rcases he with rfl | rfl <;> simp
  refine ⟨⟨?_, ?_⟩, ?_, ?_, ?_, ?_, ?_⟩
  · intro h hh i hi
    simp only [stPair, List.mem_singleton] at hh
    subst hh
    simp only [List.mem_cons, List.not_mem_nil, or_false] at hi
    rcases hi with rfl | rfl <;> simp [stPair, birthTab]
  · intro h hh
    simp only [stPair, List.mem_singleton] at hh
    subst hh
    simp
  · intro e he
    exact birthTab_wf (lab := 0) (cntr := 0) (births := [realBirth p4, realBirth p4]) (by
      intro b hb
      simp only [List.mem_cons, List.not_mem_nil, or_false, or_self] at hb
      subst hb
      exact realBirth_wf p4_pos p4_lt) he
  · intro e he
    obtain ⟨h1, h2, _⟩ := hmem e he
    rw [h1, h2]
    simp [stPair]
  · intro e he
    obtain ⟨h1, _, h2⟩ := hmem e he
    rw [h1, h2]
    simp [stPair]
  · intro h hh
    simp only [stPair, List.mem_singleton] at hh
    subst hh
    norm_num
  · intro x hx
    simp [stPair] at hx

/-- The conditions of C93 can be met: two tracks, two birth terms, two requested sets of each; the two most probable
sets of survivors and births are combined. -/
example : ∃ st' : St ℝ ℝ Unit Unit Unit,
    predict (sortEnv p4) (realPr 2 2 1 1) 1 [realBirth p4, realBirth p4] stPair = .ok st' ∧
    ∃ ks : Hyp ℝ → ℕ, ks ⟨1, [0, 1]⟩ = 2 ∧
      BayesPredict ((sortEnv p4).num.expNeg (realPr 2 2 1 1).eps) 2 (fun _ => p4) (fun _ => p4) 2 ks
        [⟨1, [0, 1]⟩] st'.hyps := by
  have h4 : (sortEnv p4).num.negLog (p4 / (1 - p4)) = -4 := p4_odds
  have hodds : OddsOk (sortEnv p4) (realPr 2 2 1 1) p4 := by
    right; right
    rw [h4]
    norm_num [realPr]
  obtain ⟨st', hst, _⟩ := predict_total (env := sortEnv p4) (pr := realPr 2 2 1 1) (by norm_num [realPr])
    (sortEnv_pos p4 p4_pos p4_lt _ hodds _) (1 : ℝ) (births := [realBirth p4, realBirth p4]) (by
      intro b hb
      simp only [List.mem_cons, List.not_mem_nil, or_false, or_self] at hb
      subst hb
      exact realBirth_wf p4_pos p4_lt) (by
      intro b hb
      simp only [List.mem_cons, List.not_mem_nil, or_false, or_self] at hb
      subst hb
      exact hodds) stPair_tinv
  have hsq : (sortEnv p4).num.sqrt 1 = 1 := Real.sqrt_one
  obtain ⟨ks, k1, k2⟩ := C93_predict_bayes_partial (sortEnv p4) (realPr 2 2 1 1) realNum_add
    (by simp [sortEnv, realNum, realEnv]) (fun x hx => by simp only [sortEnv, realEnv, realNum, neg_neg]; exact Real.exp_log hx)
    (fun x y hxy => Real.exp_le_exp.2 (by linarith)) (fun _ => Real.exp_pos _) (fun x => Real.sqrt_nonneg x)
    (by norm_num [realPr]) (sortEnv_sorts p4) 1 [realBirth p4, realBirth p4] stPair st' (fun _ => p4) (fun _ => p4)
    (by
      intro i b hb
      have := List.mem_of_getElem? hb
      simp only [List.mem_cons, List.not_mem_nil, or_false, or_self] at this
      subst this
      rfl) (fun _ _ _ => rfl) stPair_tinv.idx.range stPair_tinv.idx.nodup (fun h hh => (stPair_tinv.pos h hh).le)
    (fun _ _ => p4_pos) (fun _ _ => p4_pos) (by intro i _; rw [h4]; norm_num [realPr]) (by intro i _; rw [h4]; norm_num [realPr])
    (.inl le_rfl) (by
      intro h hh
      simp only [stPair, List.mem_singleton] at hh
      subst hh
      left
      simp only [stPair, List.map_cons, List.map_nil, List.sum_cons, List.sum_nil, hsq]
      norm_num [realPr]) hst
  refine ⟨st', hst, ks, ?_, k2⟩
  have := k1 ⟨1, [0, 1]⟩ (by simp [stPair])
  simp only [stPair, List.map_cons, List.map_nil, List.sum_cons, List.sum_nil, hsq] at this
  have h2 : ((realPr 2 2 1 1).reqSurv : ℝ) = 2 := by norm_num [realPr]
  rw [h2] at this
  obtain ⟨a1, a2⟩ := abs_le.1 this
  have b1 : (ks ⟨1, [0, 1]⟩ : ℝ) < ((3 : ℕ) : ℝ) := by push_cast; linarith
  have b2 : ((1 : ℕ) : ℝ) < (ks ⟨1, [0, 1]⟩ : ℝ) := by push_cast; linarith
  have c1 := Nat.cast_lt.1 b1
  have c2 := Nat.cast_lt.1 b2
  omega

/-! ### The counterexample -/

/-- What `k_shortest` returns for two equally favourable elements and three requested sets: the last one is the empty
set, although both single elements are cheaper. -/
theorem kz3 : (kShortest (n := 2) (K := ℤ) (fun _ => -2 ^ 54) (Equiv.refl _) 1 3).toOption =
    some [([0, 1], ((-2 ^ 55 + 1 : ℤ) : WithTop ℤ)), ([1], ((-2 ^ 54 + 1 : ℤ) : WithTop ℤ)),
      ([], ((-2 ^ 54 + 1 : ℤ) : WithTop ℤ))] := by
  decide +kernel

theorem kEmb : KNat.Emb (fun n : ℤ => (n : ℝ) / 2 ^ 52) := by
  refine ⟨?_, ?_⟩
  · intro a b
    push_cast
    ring
  · intro a b hab
    have : (a : ℝ) < b := Int.cast_lt.2 hab
    simp only
    gcongr

theorem kList_p4 : ∃ paths,
    kList (sortEnv p4) (realPr 3 1 1 1) [((-4 : ℝ) : WithTop ℝ), ((-4 : ℝ) : WithTop ℝ)] 3 = .ok paths ∧
    paths.map (fun pc => pc.1) = [[0, 1], [1], []] := by
  have hl : (fun i : Fin [((-4 : ℝ) : WithTop ℝ), ((-4 : ℝ) : WithTop ℝ)].length =>
      [((-4 : ℝ) : WithTop ℝ), ((-4 : ℝ) : WithTop ℝ)][i]) =
      fun i => (((fun _ : Fin 2 => ((-2 ^ 54 : ℤ) : ℝ) / 2 ^ 52 : Fin 2 → ℝ) i : ℝ) : WithTop ℝ) := by
    funext i
    have hc : ∀ i : Fin 2, [((-4 : ℝ) : WithTop ℝ), ((-4 : ℝ) : WithTop ℝ)][i] = ((-4 : ℝ) : WithTop ℝ) := by
      intro i
      fin_cases i <;> rfl
    rw [show [((-4 : ℝ) : WithTop ℝ), ((-4 : ℝ) : WithTop ℝ)][i] = ((-4 : ℝ) : WithTop ℝ) from hc i, WithTop.coe_inj]
    push_cast
    norm_num
  have hs : (sortEnv p4).sortInds 2 (fun i => (((fun _ : Fin 2 => ((-2 ^ 54 : ℤ) : ℝ) / 2 ^ 52 : Fin 2 → ℝ) i : ℝ) : WithTop ℝ)) =
      Equiv.refl _ := by
    apply Tuple.sort_eq_refl_iff_monotone.2
    intro i j _
    exact le_refl _
  have hk := KNat.kShortest_up kEmb (fun _ : Fin 2 => (-2 ^ 54 : ℤ)) (Equiv.refl _) 1 3
  have hz := kz3
  cases hkk : kShortest (n := 2) (K := ℤ) (fun _ => -2 ^ 54) (Equiv.refl _) 1 3 with
  | error e => rw [hkk] at hz; simp [Except.toOption] at hz
  | ok o =>
    rw [hkk] at hz hk
    simp only [Except.toOption, Option.some.injEq] at hz
    subst hz
    have he : (realPr 3 1 1 1).eps = ((1 : ℤ) : ℝ) / 2 ^ 52 := by norm_num [realPr]
    unfold kList
    rw [hl, he]
    have hk' := (KSub.kShortestInf_coe (fun _ : Fin 2 => ((-2 ^ 54 : ℤ) : ℝ) / 2 ^ 52) (Equiv.refl _)
      (((1 : ℤ) : ℝ) / 2 ^ 52) 3).trans hk
    erw [hs]
    refine ⟨_, by erw [hk']; rfl, ?_⟩
    simp [KNat.upP]

/-- **C93 is false of this code.** Two birth terms of probability `e⁴ / (1 + e⁴)` (about 0.98), three requested birth
hypotheses, first prediction: the prediction succeeds, but its hypotheses do not follow Bayes' rule for the three most
probable sets of births, whatever is chosen for the survivors: the empty set gets a positive probability although it is
the least probable of the four sets. -/
theorem C93_refuted : ∃ st' : St ℝ ℝ Unit Unit Unit,
    predict (sortEnv p4) (realPr 3 1 1 1) 0 [realBirth p4, realBirth p4] init = .ok st' ∧
    ∀ (c : ℝ) (ks : Hyp ℝ → ℕ), ¬ BayesPredict c 2 (fun _ => p4) (fun _ => p4) (realPr 3 1 1 1).reqBirths ks
      (init : St ℝ ℝ Unit Unit Unit).hyps st'.hyps := by
  have hodds : OddsOk (sortEnv p4) (realPr 3 1 1 1) p4 := by
    right; right
    have : (sortEnv p4).num.negLog (p4 / (1 - p4)) = -4 := p4_odds
    rw [this]
    norm_num [realPr]
  have hb : ∀ b ∈ [realBirth p4, realBirth p4], BirthWF b := by
    intro b hb
    simp only [List.mem_cons, List.not_mem_nil, or_false, or_self] at hb
    subst hb
    exact realBirth_wf p4_pos p4_lt
  obtain ⟨st', hst, hT, _⟩ := predict_total (env := sortEnv p4) (pr := realPr 3 1 1 1) (by norm_num [realPr])
    (sortEnv_pos p4 p4_pos p4_lt _ hodds _) (0 : ℝ) hb (by
      intro b hb
      simp only [List.mem_cons, List.not_mem_nil, or_false, or_self] at hb
      subst hb
      exact hodds) init_tinv
  refine ⟨st', hst, ?_⟩
  obtain ⟨costs, paths, bh, survTab, sh, hs, h1, h2, h3, h4, h5, h6, rfl⟩ := predict_ok hst
  have hcosts : costs = [((-4 : ℝ) : WithTop ℝ), ((-4 : ℝ) : WithTop ℝ)] := by
    cases h1 with
    | cons ha h1 =>
      cases h1 with
      | cons hb' h1 =>
        cases h1
        have : (sortEnv p4).num.negLog (p4 / (1 - p4)) = -4 := p4_odds
        have e1 := (ha.resolve_left fun h => p4_pos.ne' h.1).2.2
        have e2 := (hb'.resolve_left fun h => p4_pos.ne' h.1).2.2
        simp only [realBirth] at e1 e2
        rw [e1, e2, this]
  subst hcosts
  obtain ⟨paths', k1, k2⟩ := kList_p4
  rw [show (realPr 3 1 1 1).reqBirths = 3 from rfl, k1] at h2
  simp only [Except.ok.injEq] at h2
  subst h2
  -- the empty set has positive probability
  have hE : 0 < probOf (cleanPred hs) ∅ := by
    have hclean : probOf (cleanPred hs) ∅ = probOf hs ∅ :=
      cleanPred_massOf (fun l => l.toFinset = ∅) (fun a b hab => by
        have : a.toFinset = b.toFinset := by ext t; simp [hab.mem_iff]
        rw [this]) hs
    have hsh : sh = [⟨1, []⟩] := by
      have h0 : survHyps (sortEnv p4) (realPr 3 1 1 1) (init : St ℝ ℝ Unit Unit Unit).tab
          (init : St ℝ ℝ Unit Unit Unit).hyps = .ok [⟨1, []⟩] := by
        unfold survHyps
        simp only [init, traverseE, survOne, if_true, List.flatten_cons, List.flatten_nil, List.append_nil]
        exact normHyps_one one_ne_zero []
      rw [h0] at h5
      simpa using h5.symm
    subst hsh
    have hprod : 0 < ([realBirth p4, realBirth p4].map fun b => 1 - b.prob).prod := by
      have := p4_lt
      simp only [List.map_cons, List.map_nil, List.prod_cons, List.prod_nil, mul_one, realBirth]
      exact mul_pos (by linarith) (by linarith)
    have hraw : ∀ x ∈ paths'.map (fun pc => (⟨([realBirth p4, realBirth p4].map fun b => 1 - b.prob).prod *
        expNegTop (sortEnv p4) pc.2, pc.1⟩ : Hyp ℝ)), 0 < x.prob := by
      intro x hx
      obtain ⟨pc, hpc, rfl⟩ := List.mem_map.1 hx
      exact mul_pos hprod (expNegTop_pos (fun _ => Real.exp_pos _)
        ((kList_ok (by norm_num [realPr]) k1).2.2 pc hpc).2.2.1)
    unfold birthHyps at h3
    obtain ⟨zb, hzb, hbn, hEb⟩ := expc_norm h3 (fun x hx => (hraw x hx).le)
    unfold setPredHyps at h6
    obtain ⟨zp, hzp, _, hEp⟩ := expc_norm h6 (by
      intro x hxm
      obtain ⟨b, hb, hxm⟩ := List.mem_flatMap.1 hxm
      obtain ⟨s, hs', rfl⟩ := List.mem_map.1 hxm
      simp only [List.mem_singleton] at hs'
      subst hs'
      exact mul_nonneg (hbn b hb) zero_le_one)
    have e1 := hEp (fun t => if t.toFinset = ∅ then 1 else 0)
    rw [expc_prod] at e1
    have e2 : (fun tb : List ℕ => expc (fun ts => if (tb ++ ts.map fun x => x + 2).toFinset = ∅
        then (1 : ℝ) else 0) [⟨1, []⟩]) = fun tb => if tb.toFinset = ∅ then 1 else 0 := by
      funext tb
      simp [expc]
    have e3 := hEb (fun t => if t.toFinset = ∅ then 1 else 0)
    simp only [List.length_cons, List.length_nil] at e1
    rw [e2] at e1
    have e4 : 0 < expc (fun t => if t.toFinset = ∅ then (1 : ℝ) else 0)
        (paths'.map (fun pc => (⟨([realBirth p4, realBirth p4].map fun b => 1 - b.prob).prod *
          expNegTop (sortEnv p4) pc.2, pc.1⟩ : Hyp ℝ))) := by
      have hm : ([] : List ℕ) ∈ paths'.map fun pc => pc.1 := by rw [k2]; simp
      obtain ⟨pc, hpc, hpc0⟩ := List.mem_map.1 hm
      have hx := List.mem_map_of_mem (f := fun pc => (⟨([realBirth p4, realBirth p4].map fun b => 1 - b.prob).prod *
          expNegTop (sortEnv p4) pc.2, pc.1⟩ : Hyp ℝ)) hpc
      unfold expc
      refine lt_of_lt_of_le (hraw _ hx) ?_
      refine le_trans (le_of_eq ?_) (List.single_le_sum ?_ _ (List.mem_map_of_mem hx))
      · simp [hpc0]
      · intro y hy
        obtain ⟨x, hx, rfl⟩ := List.mem_map.1 hy
        refine mul_nonneg (hraw x hx).le ?_
        by_cases hc : x.tracks.toFinset = ∅
        · simp [hc]
        · simp [hc]
    rw [hclean, probOf_expc]
    rw [← e3] at e4
    have e5 := pos_of_mul_pos_left e4 hzb.le
    rw [← e1] at e5
    exact pos_of_mul_pos_left e5 hzp.le
  rintro c ks ⟨Zc, births, survs, hZ, hH, hS, hX⟩
  have hX0 := hX ∅
  have hi : (init : St ℝ ℝ Unit Unit Unit).hyps = [⟨1, []⟩] := rfl
  rw [hi] at hS hX0
  cases hS with
  | cons ha hS =>
    cases hS
    simp only [if_true] at ha
    subst ha
    simp only [List.zip_cons_cons, List.zip_nil_right, List.map_cons, List.map_nil, List.sum_cons, List.sum_nil,
      Finset.sum_singleton, Finset.image_empty, Finset.union_empty, add_zero] at hX0
    have hpos := mul_pos hE hZ
    have hmem : ∅ ∈ births := by
      by_contra hn
      rw [hX0] at hpos
      refine absurd hpos (not_lt.2 (le_of_eq (Finset.sum_eq_zero ?_)))
      intro B hB
      rw [if_neg]
      rintro rfl
      exact hn hB
    obtain ⟨g1, g2, g3⟩ := hH
    have hcard : births.card = 3 := by
      rw [g2]
      simp [realPr]
    obtain ⟨B, hB, hBn⟩ : ∃ B ∈ (Finset.range 2).powerset, B ∉ births := by
      by_contra hcon
      push Not at hcon
      have := Finset.card_le_card (fun B hB => hcon B hB)
      rw [Finset.card_powerset, Finset.card_range, hcard] at this
      omega
    have hB' := Finset.mem_powerset.1 hB
    have hle := g3 ∅ hmem B hB' hBn
    have hBne : B ≠ ∅ := by
      rintro rfl
      exact hBn hmem
    have hlt : bernMass (fun _ => p4) (Finset.range 2) ∅ < bernMass (fun _ => p4) (Finset.range 2) B := by
      unfold bernMass
      obtain ⟨t, ht⟩ := Finset.nonempty_iff_ne_empty.2 hBne
      refine Finset.prod_lt_prod ?_ ?_ ⟨t, hB' ht, ?_⟩
      · intro i _
        have := p4_lt
        simp only [Finset.notMem_empty, if_false]
        linarith
      · intro i _
        have := p4_half
        split
        · simp at *
        · split <;> linarith
      · have := p4_half
        simp only [Finset.notMem_empty, if_false, ht, if_true]
        exact this
    linarith

end Gasur.Props
