import Verif.Proofs.GlmbTotal
import Mathlib.Data.Fintype.Card
import Mathlib.Algebra.Order.Floor.Ring

/-! Concrete runs of the GLMB filter, used as witnesses. -/

set_option linter.unusedSectionVars false
set_option linter.unusedSimpArgs false

namespace Gasur.Glmb

open Gasur.KShortest Gasur.Murty Gasur.Spec

variable {K τ F S C Z : Type*} [Field K] [LinearOrder K] [IsStrictOrderedRing K] [DecidableEq τ]

/-- `k_shortest` with one favourable element and `k = 1`. -/
theorem kList_one {env : Env K τ F S C Z} {pr : Params K} (heps : 0 < pr.eps) {c : K} (hc : c ≤ -pr.eps) :
    kList env pr [(c : WithTop K)] 1 = .ok [([0], ((c + pr.eps : K) : WithTop K))] := by
  have hl : (fun i : Fin [(c : WithTop K)].length => [(c : WithTop K)][i]) =
      fun i => ((fun _ => c : Fin [(c : WithTop K)].length → K) i : WithTop K) := by
    funext i
    have : i = ⟨0, by simp⟩ := Fin.ext (Nat.lt_one_iff.1 i.isLt)
    subst this
    rfl
  have hk := kShortest_spec (fun _ => c : Fin [(c : WithTop K)].length → K)
    (env.sortInds [(c : WithTop K)].length fun i => [(c : WithTop K)][i]) heps (by
      intro i
      right
      rw [abs_of_neg (by linarith)]
      linarith) 1 one_pos
  obtain ⟨p, d, rest, h1, h2, h3, h4, h5⟩ := hk
  have hr : rest = [] := List.length_eq_zero_iff.1 (by omega)
  subst hr
  have hall : ∀ i : Fin [(c : WithTop K)].length, i = ⟨0, by simp⟩ := fun i =>
    Fin.ext (Nat.lt_one_iff.1 i.isLt)
  have hp : p = [⟨0, by simp⟩] := by
    have hnd := (h3 (p, d) List.mem_cons_self).1
    cases p with
    | nil =>
      exfalso
      have := h5 {⟨0, by simp⟩}
      rw [h4] at this
      simp only [List.map_nil, List.sum_nil, Finset.sum_singleton, WithTop.coe_le_coe] at this
      linarith
    | cons a l =>
      cases l with
      | nil => rw [hall a]
      | cons b l =>
        exfalso
        simp only [List.nodup_cons, List.mem_cons, not_or] at hnd
        exact hnd.1.1 ((hall a).trans (hall b).symm)
  subst hp
  unfold kList
  rw [hl] at h1 ⊢
  rw [KSub.kShortestInf_coe, h1]
  simp only [List.map_cons, List.map_nil, h4]
  simp

theorem normHyps_one {x : K} (hx : x ≠ 0) (t : List ℕ) :
    normHyps [(⟨x, t⟩ : Hyp K)] = .ok [⟨1, t⟩] := by
  unfold normHyps
  rw [if_neg (by simp [hx])]
  simp [hx]

variable [FloorRing K]

theorem pyRound_natCast (n : ℕ) : Phd.pyRound (n : K) = n := by
  unfold Phd.pyRound
  rw [Int.floor_natCast]
  simp

/-- The state after one prediction with a single likely birth term, if one hypothesis is requested. -/
def st1 (lab : τ) (b : Birth K F S C) : St K τ F S C :=
  { tab := birthTab lab 0 [b], hyps := [⟨1, [0]⟩], card := [1], cntr := 0, ext := [], states := [],
    labels := [], covs := [] }

theorem calcCard_one_nil : calcCard [(⟨1, []⟩ : Hyp K)] = [1] := by
  simp [calcCard]

theorem predict_st1 {env : Env K τ F S C Z} {pr : Params K} (heps : 0 < pr.eps)
    (hreq : pr.reqBirths = 1) (lab : τ) {b : Birth K F S C} (hb0 : 0 < b.prob) (hb1 : b.prob < 1)
    (hexp : ∀ x, 0 < env.num.expNeg x) (hodds : env.num.negLog (b.prob / (1 - b.prob)) ≤ -pr.eps) :
    predict env pr lab [b] init = .ok (st1 lab b) := by
  unfold predict
  have h1 : traverseE (logOdds env) ([b].map fun b => b.prob) =
      .ok [((env.num.negLog (b.prob / (1 - b.prob)) : K) : WithTop K)] := by
    simp [traverseE, logOdds_pos hb0 hb1]
  rw [h1]
  simp only
  rw [hreq, kList_one heps hodds]
  simp only
  have h2 : birthHyps env [b] [([0], ((env.num.negLog (b.prob / (1 - b.prob)) + pr.eps : K) :
      WithTop K))] = .ok [⟨1, [0]⟩] := by
    unfold birthHyps
    simp only [List.map_cons, List.map_nil]
    apply normHyps_one
    have : 0 < 1 - b.prob := by linarith
    have := hexp (env.num.negLog (b.prob / (1 - b.prob)) + pr.eps)
    simp only [List.prod_cons, List.prod_nil, mul_one, expNegTop]
    positivity
  rw [h2]
  simp only [init, traverseE]
  have h3 : survHyps env pr ([] : List (Entry K τ F S C)) [⟨1, []⟩] = .ok [⟨1, []⟩] := by
    unfold survHyps
    simp only [traverseE, survOne, if_true, List.flatten_cons, List.flatten_nil, List.append_nil]
    exact normHyps_one one_ne_zero []
  rw [h3]
  simp only
  have h4 : setPredHyps [b].length [(⟨1, [0]⟩ : Hyp K)] [⟨1, []⟩] = .ok [⟨1, [0]⟩] := by
    unfold setPredHyps
    simp only [List.flatMap_cons, List.flatMap_nil, List.map_cons, List.map_nil, List.append_nil, mul_one]
    exact normHyps_one one_ne_zero _
  rw [h4]
  simp [st1, cleanPred, addHyp, calcCard_one_nil]

/-- One step of the regular schedule without measurements leaves the state as it is. -/
def st1c (lab : τ) (b : Birth K F S C) : St K τ F S C :=
  { st1 lab b with tab := (birthTab lab 0 [b]).map (addMeas none), card := [0, 1], cntr := 1 }

theorem correct_st1 {env : Env K τ F S C Z} {pr : Params K} (lab : τ) {b : Birth K F S C}
    (hexp : ∀ x, 0 < env.num.expNeg x) (hdet : ∀ e, env.pdet e < 1) :
    correct env pr [] (st1 lab b) = .ok { st1c lab b with cntr := 0 } := by
  have hcb : corBlocks env pr (st1 lab b).tab ([] : List Z) = .ok [] := rfl
  unfold correct
  rw [hcb]
  simp only
  have hch : corHyps env pr (st1 lab b).tab [] (st1 lab b).hyps = .ok [⟨1, [0]⟩] := by
    unfold corHyps
    have : corOne env pr (st1 lab b).tab [] (sumSqrt env (st1 lab b).hyps) ⟨1, [0]⟩ =
        .ok [⟨env.num.expNeg pr.clutterRate * (1 - env.pdet ((birthTab lab 0 [b]).head (by
          simp [birthTab]))), [0]⟩] := by
      unfold corOne
      simp [st1, birthTab, traverseE, getE]
    simp only [st1] at this ⊢
    simp only [traverseE, this, List.flatten_cons, List.flatten_nil, List.append_nil]
    apply normHyps_one
    refine (mul_pos (hexp _) ?_).ne'
    have := hdet ((birthTab lab 0 [b]).head (by simp [birthTab]))
    linarith
  rw [hch]
  simp [cleanUpd, upTab, usedInds, isUsed, st1, st1c, birthTab, calcCard, List.range_succ]

theorem cleanup_st1 {env : Env K τ F S C Z} {pr : Params K} (lab : τ) {b : Birth K F S C} :
    cleanup env pr false false false false false { st1c lab b with cntr := 0 } = .ok (st1c lab b) := by
  simp [cleanup, st1c]

/-- Second prediction with the same label. -/
theorem predict_st2 {env : Env K τ F S C Z} {pr : Params K} (heps : 0 < pr.eps)
    (hreq : pr.reqBirths = 1) (hreqS : pr.reqSurv = 1) (lab lab' : τ) {b : Birth K F S C} (hb : BirthWF b) (hb0 : 0 < b.prob)
    (hexp : ∀ x, 0 < env.num.expNeg x) (hodds : env.num.negLog (b.prob / (1 - b.prob)) ≤ -pr.eps)
    (hsq : env.num.sqrt 1 = 1) {p : K} (hp0 : 0 < p) (hp1 : p < 1) (hps : ∀ e, env.psurv e = p)
    (hodds' : env.num.negLog (p / (1 - p)) ≤ -pr.eps) :
    ∃ st, predict env pr lab' [b] (st1c lab b) = .ok st ∧ st.hyps = [⟨1, [0, 1]⟩] ∧
      ∃ e0 e1, st.tab = [e0, e1] ∧ e0.label = (lab', 0) ∧ e1.label = (lab, 0) := by
  unfold predict
  have h1 : traverseE (logOdds env) ([b].map fun b => b.prob) =
      .ok [((env.num.negLog (b.prob / (1 - b.prob)) : K) : WithTop K)] := by
    simp [traverseE, logOdds_pos hb0 hb.p1]
  rw [h1]
  simp only
  rw [hreq, kList_one heps hodds]
  simp only
  have h2 : birthHyps env [b] [([0], ((env.num.negLog (b.prob / (1 - b.prob)) + pr.eps : K) :
      WithTop K))] = .ok [⟨1, [0]⟩] := by
    unfold birthHyps
    simp only [List.map_cons, List.map_nil]
    apply normHyps_one
    have : 0 < 1 - b.prob := by linarith [hb.p1]
    have := hexp (env.num.negLog (b.prob / (1 - b.prob)) + pr.eps)
    simp only [List.prod_cons, List.prod_nil, mul_one, expNegTop]
    positivity
  rw [h2]
  simp only
  have hbt : ∃ e, (st1c lab b).tab = [e] ∧ EntWF e ∧ e.label = (lab, 0) := by
    refine ⟨addMeas none ((birthTab lab 0 [b]).head (by simp [birthTab])), by
      simp [st1c, birthTab], ?_, by simp [birthTab, addMeas]⟩
    have hw : EntWF ((birthTab (K := K) lab 0 [b]).head (by simp [birthTab])) :=
      birthTab_wf (births := [b]) (by simpa using hb) (List.head_mem _)
    exact ⟨hw.lw, hw.lc, hw.ne, hw.par, hw.last⟩
  obtain ⟨e, he, hwf, hlab⟩ := hbt
  obtain ⟨e', hpe, _, _⟩ := predictEntry_total env hwf
  have h3 : traverseE (predictEntry env) (st1c lab b).tab = .ok [e'] := by
    rw [he]; simp [traverseE, hpe]
  rw [h3]
  simp only
  have h4 : survHyps env pr (st1c lab b).tab (st1c lab b).hyps = .ok [⟨1, [0]⟩] := by
    have hh : (st1c lab b).hyps = [(⟨1, [0]⟩ : Hyp K)] := rfl
    have hss : sumSqrt env [(⟨1, [0]⟩ : Hyp K)] = 1 := by simp [sumSqrt, hsq]
    have hsh : share env pr.reqSurv (1 : K) 1 = .ok 1 := by
      unfold share
      rw [if_neg one_ne_zero, hreqS, hsq]
      rw [mul_one, div_one, pyRound_natCast]
      rfl
    have hpos : 0 < 1 - p := by linarith
    have hx := hexp (env.num.negLog (p / (1 - p)) + pr.eps)
    rw [hh, he]
    unfold survHyps
    rw [hss]
    have : survOne env pr [e] 1 ⟨1, [0]⟩ =
        .ok [⟨(1 - p) * env.num.expNeg (env.num.negLog (p / (1 - p)) + pr.eps), [0]⟩] := by
      unfold survOne
      rw [if_neg (by simp)]
      have t1 : traverseE (getE [e]) [0] = .ok [e] := by simp [traverseE, getE]
      simp only [t1]
      have t2 : traverseE (logOdds env) ([e].map env.psurv) = .ok [((env.num.negLog (p / (1 - p)) : K) : WithTop K)] := by
        simp [traverseE, hps, logOdds_pos hp0 hp1]
      rw [t2]
      simp only
      rw [hsh]
      simp only
      rw [kList_one heps hodds']
      simp [traverseE, getE, hps, expNegTop]
    simp only [traverseE, this, List.flatten_cons, List.flatten_nil, List.append_nil]
    exact normHyps_one (mul_pos hpos hx).ne' _
  rw [h4]
  simp only
  have h5 : setPredHyps [b].length [(⟨1, [0]⟩ : Hyp K)] [⟨1, [0]⟩] = .ok [⟨1, [0, 1]⟩] := by
    unfold setPredHyps
    simp only [List.flatMap_cons, List.flatMap_nil, List.map_cons, List.map_nil, List.append_nil, mul_one]
    exact normHyps_one one_ne_zero _
  rw [h5]
  simp only
  refine ⟨_, rfl, by simp [cleanPred, addHyp], (birthTab lab' (st1c lab b).cntr [b]).head (by
    simp [birthTab]), e', by simp [birthTab], by simp [birthTab], ?_⟩
  rw [(predictEntry_label hpe).1, hlab]

/-- Depletion: the state after one prediction, corrected with one measurement that depletes the track. -/
theorem correct_depl {env : Env K τ F S C Z} {pr : Params K} (heps : 0 < pr.eps)
    (hcl : 0 < pr.clutterRate * pr.clutterDen) (hreq : pr.reqUpd = 2) (lab : τ) {b : Birth K F S C}
    (hb : BirthWF b) (z : Z) (hz : ∀ f s w, env.corF z f s w = none)
    (hexp : ∀ x, 0 < env.num.expNeg x) (hdet : ∀ e, env.pdet e < 1) (hsq : env.num.sqrt 1 = 1) :
    ∃ st, correct env pr [z] (st1 lab b) = .ok st ∧ (∃ w, 0 < w ∧ w < 1 ∧ st.hyps = [⟨w, [0]⟩]) ∧
      st.card = [0, 1] := by
  obtain ⟨e, he, hwf⟩ : ∃ e, (st1 lab b).tab = [e] ∧ EntWF e :=
    ⟨(birthTab lab 0 [b]).head (by simp [birthTab]), by simp [st1, birthTab],
      birthTab_wf (births := [b]) (by simpa using hb) (List.head_mem _)⟩
  have hce : correctEntry env pr z e = .ok (none, 0) := by
    obtain ⟨s, w, c, h1, h2, h3, h4, h5, h6, h7⟩ := hwf.lasts
    unfold correctEntry
    rw [h1, h2]
    simp only
    have hc : e.cHist ≠ [] := by rintro h0; rw [h0] at h3; simp at h3
    rw [if_pos ⟨h4, h5, hc⟩]
    cases hf : e.fStates with
    | nil =>
      rw [hf] at h4
      simp only [List.length_nil] at h4
      exact absurd (List.length_eq_zero_iff.1 (h5.symm.trans h4.symm)) h7
    | cons f fs =>
      cases hs : s with
      | nil =>
        rw [hs] at h5
        exact absurd (List.length_eq_zero_iff.1 h5.symm) h7
      | cons s0 ss =>
        cases hw : w with
        | nil => exact absurd hw h7
        | cons w0 ws => simp [traverseE, hz, optE]
  have hcb : corBlocks env pr [e] [z] = .ok [[(none, 0)]] := by
    simp [corBlocks, corBlock, traverseE, hce]
  have hpd : 0 < 1 - env.pdet e := by have := hdet e; linarith
  have hrows : costRows env pr [[((none : Option (Entry K τ F S C)), (0 : K))]] [0] [e] =
      .ok [[pr.eps]] := by
    simp [costRows, traverseE, blockCost, getE, costEntry, hpd.ne']
  have hsh : share env pr.reqUpd (1 : K) 1 = .ok 2 := by
    unfold share
    rw [if_neg one_ne_zero, hreq, hsq]
    rw [mul_one, div_one, pyRound_natCast]
    rfl
  obtain ⟨out, hm, ho1, ho2, ho3, ho4, ho5⟩ := murty_spec (costMat env [[pr.eps]] 1 1) 2 one_pos
  -- the two assignments
  have hall : ∀ q : Fin 1 → Option (Fin 1), q = (fun _ => none) ∨ q = (fun _ => some 0) := by
    intro q
    cases hq : q 0 with
    | none => left; funext i; rw [Subsingleton.elim i 0, hq]
    | some j => right; funext i; rw [Subsingleton.elim i 0, hq, Subsingleton.elim j 0]
  have hmem : ∀ q : Fin 1 → Option (Fin 1), q ∈ out.map Prod.fst := by
    intro q
    by_contra hn
    have hass : IsAssignment (costMat env [[pr.eps]] 1 1) q := by
      constructor
      · intro i i' j _ _; exact Subsingleton.elim _ _
      · intro i j _; simp [costMat]
    have hlen := (ho5 q hass hn).1
    have hsub : out.map Prod.fst ⊆ [fun _ => none, fun _ => some 0] := by
      intro x _
      rcases hall x with rfl | rfl <;> simp
    have hsubperm : (out.map Prod.fst).Subperm [fun _ => none, fun _ => some 0] :=
      List.subperm_of_subset ho2 hsub
    have hperm := hsubperm.perm_of_length_le (by simp [hlen])
    apply hn
    rw [hperm.mem_iff]
    rcases hall q with rfl | rfl <;> simp
  have hne0 : (fun _ : Fin 1 => (none : Option (Fin 1))) ≠ fun _ => some 0 := fun h => by
    have := congrFun h 0
    simp at this
  have hlen : out.length = 2 := by
    apply le_antisymm ho4
    have : [(fun _ : Fin 1 => (none : Option (Fin 1))), fun _ => some 0].Nodup := by
      simp only [List.nodup_cons, List.mem_singleton, List.not_mem_nil, not_false_iff, List.nodup_nil,
        and_self, and_true]
      exact hne0
    have := this.length_le_of_subset (l₂ := out.map Prod.fst) fun x _ => hmem x
    simpa using this
  -- un-normalised hypotheses
  set base := env.num.expNeg pr.clutterRate * (pr.clutterRate * pr.clutterDen) ^ 1 with hbase
  have hco : corOne env pr [e] [[(none, 0)]] 1 ⟨1, [0]⟩ =
      .ok (out.map fun p => ⟨base * (1 - env.pdet e) * 1 * env.num.expNeg p.2, [0 + 1 * enc p.1 0]⟩) := by
    unfold corOne
    have t1 : traverseE (getE [e]) [0] = .ok [e] := by simp [traverseE, getE]
    simp only [t1]
    rw [if_neg (by simp), if_neg (not_le.2 hcl), if_neg (by simp), hrows]
    simp only
    rw [hsh]
    simp only [List.length_singleton]
    rw [hm]
    simp only [List.map_map]
    congr 1
    apply List.map_congr_left
    intro p _
    simp [hbase, List.finRange_succ]
  have hbp : 0 < base * (1 - env.pdet e) * 1 := by
    have := hexp pr.clutterRate
    rw [hbase]
    simp only [pow_one]
    positivity
  have hencN : enc (fun _ : Fin 1 => (none : Option (Fin 1))) 0 = 0 := by simp [enc]
  have hencS : enc (fun _ : Fin 1 => some (0 : Fin 1)) 0 = 1 := by simp [enc]
  -- general conclusion for a list with two hypotheses
  have hfin : ∀ x y : K, 0 < x → 0 < y → ∀ l : List (Hyp K),
      (l = [⟨x, [0]⟩, ⟨y, [1]⟩] ∨ l = [⟨x, [1]⟩, ⟨y, [0]⟩]) →
      ∃ hs, normHyps l = .ok hs ∧ ∃ w, 0 < w ∧ w < 1 ∧
        cleanUpd (upTab [e] [[(none, 0)]]) hs = .ok ([addMeas none e], [⟨w, [0]⟩]) ∧
        calcCard hs = [0, 1] := by
    intro x y hx hy l hl
    have hsum : 0 < x + y := by linarith
    rcases hl with rfl | rfl
    · refine ⟨[⟨x / (x + y), [0]⟩, ⟨y / (x + y), [1]⟩], ?_, x / (x + y), by positivity, ?_, ?_, ?_⟩
      · unfold normHyps
        simp [hsum.ne']
      · rw [div_lt_one hsum]; linarith
      · simp [cleanUpd, upTab, usedInds, isUsed, List.range_succ]
      · simp [calcCard, List.range_succ]
        rw [← add_div]
        exact div_self hsum.ne'
    · refine ⟨[⟨x / (x + y), [1]⟩, ⟨y / (x + y), [0]⟩], ?_, y / (x + y), by positivity, ?_, ?_, ?_⟩
      · unfold normHyps
        simp [hsum.ne']
      · rw [div_lt_one hsum]; linarith
      · simp [cleanUpd, upTab, usedInds, isUsed, List.range_succ]
      · simp [calcCard, List.range_succ]
        rw [← add_div]
        exact div_self hsum.ne'
  obtain ⟨a, b', hab⟩ : ∃ a b', out = [a, b'] := by
    match out, hlen with
    | [a, b'], _ => exact ⟨a, b', rfl⟩
  have hl2 : ∃ x y : K, 0 < x ∧ 0 < y ∧
      ((out.map fun p => (⟨base * (1 - env.pdet e) * 1 * env.num.expNeg p.2, [0 + 1 * enc p.1 0]⟩ : Hyp K)) =
        [⟨x, [0]⟩, ⟨y, [1]⟩] ∨
       (out.map fun p => (⟨base * (1 - env.pdet e) * 1 * env.num.expNeg p.2, [0 + 1 * enc p.1 0]⟩ : Hyp K)) =
        [⟨x, [1]⟩, ⟨y, [0]⟩]) := by
    refine ⟨base * (1 - env.pdet e) * 1 * env.num.expNeg a.2,
      base * (1 - env.pdet e) * 1 * env.num.expNeg b'.2, mul_pos hbp (hexp _), mul_pos hbp (hexp _), ?_⟩
    subst hab
    have hne : a.1 ≠ b'.1 := by simpa using ho2
    rcases hall a.1 with h1 | h1 <;> rcases hall b'.1 with h2 | h2
    · exact absurd (h1.trans h2.symm) hne
    · left; simp [h1, h2, hencN, hencS]
    · right; simp [h1, h2, hencN, hencS]
    · exact absurd (h1.trans h2.symm) hne
  obtain ⟨x, y, hx, hy, hl⟩ := hl2
  obtain ⟨hs, hn, w, hw0, hw1, hcu, hcc⟩ := hfin x y hx hy _ hl
  have hch : corHyps env pr [e] [[(none, 0)]] [⟨1, [0]⟩] = .ok hs := by
    unfold corHyps
    have hss : sumSqrt env [(⟨1, [0]⟩ : Hyp K)] = 1 := by simp [sumSqrt, hsq]
    rw [hss]
    simp only [traverseE, hco, List.flatten_cons, List.flatten_nil, List.append_nil]
    exact hn
  refine ⟨{ st1 lab b with tab := [addMeas none e], hyps := [⟨w, [0]⟩], card := calcCard hs }, ?_,
    ⟨w, hw0, hw1, rfl⟩, hcc⟩
  unfold correct
  have hhy : (st1 lab b).hyps = [(⟨1, [0]⟩ : Hyp K)] := rfl
  rw [he, hcb]
  simp only
  rw [hhy, hch]
  simp only
  rw [hcu]

end Gasur.Glmb
