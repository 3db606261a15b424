import Verif.Spec.Predict
import Verif.Props.KTwo
import Verif.Proofs.GlmbBest

/-! The weights of the predicted hypotheses. -/

set_option linter.unusedSectionVars false
set_option linter.unusedSimpArgs false

namespace Gasur.Glmb

open Gasur.KShortest Gasur.Murty Gasur.Spec

variable {K τ F S C Z : Type*} [Field K] [LinearOrder K] [IsStrictOrderedRing K]
  [FloorRing K]

/-- The sorting permutation lists the costs in descending order (graphs.py:57). -/
def Sorts (env : Env K τ F S C Z) : Prop :=
  ∀ (n : ℕ) (lc : Fin n → WithTop K) (i j : Fin n), i ≤ j → lc (env.sortInds n lc j) ≤ lc (env.sortInds n lc i)

/-- The elements of `pool` at the given positions. -/
def setAt (pool : List ℕ) (l : List ℕ) : Finset ℕ := (l.map fun i => pool.getD i 0).toFinset

theorem kInf_cast {n m : ℕ} (h : n = m) {lc : Fin n → WithTop K} {fin : Fin m → K}
    (hf : ∀ i : Fin n, lc i = fin (i.cast h)) (σ : Equiv.Perm (Fin n)) (eps : K) (k : ℕ)
    (hs : ∀ i j, i ≤ j → lc (σ j) ≤ lc (σ i)) :
    ∃ σ' : Equiv.Perm (Fin m), (∀ i j, i ≤ j → fin (σ' j) ≤ fin (σ' i)) ∧
      ∀ out, kShortest fin σ' eps k = .ok out →
        ∃ out', kShortestInf lc σ eps k = .ok out' ∧
          (out'.map fun pc => (pc.1.map fun i => i.val, pc.2)) = out.map fun pc => (pc.1.map fun i => i.val, pc.2) := by
  subst h
  obtain rfl : lc = fun i => (fin i : WithTop K) := funext hf
  exact ⟨σ, fun i j hij => WithTop.coe_le_coe.1 (hs i j hij), fun out ho => ⟨out, ho, rfl⟩⟩

/-- `k_shortest` on finite costs. -/
theorem kList_coe {env : Env K τ F S C Z} (pr : Params K) (hsort : Sorts env) (costs : List K) (k : ℕ) :
    ∃ σ : Equiv.Perm (Fin costs.length), (∀ i j, i ≤ j → costs[σ j] ≤ costs[σ i]) ∧
      ∀ out, kShortest (fun i : Fin costs.length => costs[i]) σ pr.eps k = .ok out →
        kList env pr (costs.map ((↑) : K → WithTop K)) k = .ok (out.map fun pc => (pc.1.map fun i => i.val, pc.2)) := by
  obtain ⟨σ, h1, h2⟩ := kInf_cast (n := (costs.map ((↑) : K → WithTop K)).length) (m := costs.length)
    (List.length_map _) (lc := fun i => (costs.map ((↑) : K → WithTop K))[i]) (fin := fun i => costs[i])
    (by intro i; simp) (env.sortInds _ fun i => (costs.map ((↑) : K → WithTop K))[i]) pr.eps k (hsort _ _)
  refine ⟨σ, h1, fun out ho => ?_⟩
  obtain ⟨out', g1, g2⟩ := h2 out ho
  unfold kList
  rw [g1]
  exact congrArg _ g2

theorem odds_coe {env : Env K τ F S C Z} {f : ℕ → K} {pool : List ℕ} {costs : List (WithTop K)}
    (h : List.Forall₂ (fun t c => Odds env (f t) c) pool costs) (hpos : ∀ t ∈ pool, 0 < f t) :
    ∃ cs : List K, costs = cs.map ((↑) : K → WithTop K) ∧
      List.Forall₂ (fun t c => 0 < f t ∧ f t < 1 ∧ c = env.num.negLog (f t / (1 - f t))) pool cs := by
  induction h with
  | nil => exact ⟨[], rfl, .nil⟩
  | @cons t c pool costs h1 _ ih =>
    obtain ⟨cs, rfl, h3⟩ := ih fun t ht => hpos t (List.mem_cons_of_mem _ ht)
    rcases h1 with ⟨h0, _⟩ | ⟨h0, h1, rfl⟩
    · exact absurd h0 (hpos t List.mem_cons_self).ne'
    · exact ⟨_ :: cs, rfl, .cons ⟨h0, h1, rfl⟩ h3⟩

/-- The subsets returned by `k_shortest` for a pool of independent events are the most probable ones. -/
theorem kList_heaviest {env : Env K τ F S C Z} {pr : Params K} (hx : ExpLog env.num) (heps : 0 < pr.eps)
    (hexp : ∀ x, 0 < env.num.expNeg x) (hanti : ∀ x y, x ≤ y → env.num.expNeg y ≤ env.num.expNeg x)
    (hsort : Sorts env) {pool : List ℕ} (hnd : pool.Nodup) {f : ℕ → K} {costs' : List (WithTop K)}
    (hcosts' : List.Forall₂ (fun t c => Odds env (f t) c) pool costs') (hpos : ∀ t ∈ pool, 0 < f t)
    (hodds : ∀ t ∈ pool, pr.eps ≤ |env.num.negLog (f t / (1 - f t))|) {k : ℕ} (hsmall : k ≤ 2 ∨ pool.length ≤ 1)
    {paths} (hk : kList env pr costs' k = .ok paths) :
    (paths.map fun pc => setAt pool pc.1).Nodup ∧
    Heaviest pool.toFinset (bernMass f pool.toFinset) k (paths.map fun pc => setAt pool pc.1).toFinset ∧
    ∀ pc ∈ paths, (pool.map fun t => 1 - f t).prod * expNegTop env pc.2 =
      env.num.expNeg pr.eps * bernMass f pool.toFinset (setAt pool pc.1) := by
  obtain ⟨costs, rfl, hcosts⟩ := odds_coe hcosts' hpos
  have hlen := hcosts.length_eq
  have hget : ∀ i : Fin costs.length, 0 < f (pool.getD i.val 0) ∧ f (pool.getD i.val 0) < 1 ∧
      costs[i] = env.num.negLog (f (pool.getD i.val 0) / (1 - f (pool.getD i.val 0))) ∧ pool.getD i.val 0 ∈ pool := by
    intro i
    have hi : i.val < pool.length := by rw [hlen]; exact i.isLt
    have h1 := (List.forall₂_iff_get.1 hcosts).2 i.val hi i.isLt
    rw [List.getD_eq_getElem?_getD, List.getElem?_eq_getElem hi, Option.getD_some]
    simp only [List.get_eq_getElem] at h1
    exact ⟨h1.1, h1.2.1, h1.2.2, List.getElem_mem hi⟩
  have hinj : Function.Injective fun i : Fin costs.length => pool.getD i.val 0 := by
    intro i j hij
    have hi : i.val < pool.length := by rw [hlen]; exact i.isLt
    have hj : j.val < pool.length := by rw [hlen]; exact j.isLt
    simp only at hij
    rw [List.getD_eq_getElem?_getD, List.getElem?_eq_getElem hi, Option.getD_some,
      List.getD_eq_getElem?_getD, List.getElem?_eq_getElem hj, Option.getD_some] at hij
    exact Fin.ext ((List.Nodup.getElem_inj_iff hnd).1 hij)
  obtain ⟨σ, hσ, hkl⟩ := kList_coe pr hsort costs k
  obtain ⟨out, ho, g1, g2, g3, g4, g5⟩ := Props.C08_small_partial (fun i : Fin costs.length => costs[i])
    σ pr.eps heps hσ (by
      intro i
      rw [(hget i).2.2.1]
      exact hodds _ (hget i).2.2.2) k (by rw [← hlen]; exact hsmall)
  rw [hkl out ho] at hk
  simp only [Except.ok.injEq] at hk
  subst hk
  -- positions to elements
  let q : Fin costs.length ↪ ℕ := ⟨fun i => pool.getD i.val 0, hinj⟩
  have hset : ∀ l : List (Fin costs.length), setAt pool (l.map fun i => i.val) = l.toFinset.map q := by
    intro l
    unfold setAt
    ext t
    simp [q]
  have huniv : pool.toFinset = Finset.univ.map q := by
    ext t
    simp only [List.mem_toFinset, Finset.mem_map, Finset.mem_univ, true_and]
    constructor
    · intro ht
      obtain ⟨i, hi, rfl⟩ := List.mem_iff_getElem.1 ht
      refine ⟨⟨i, by rw [← hlen]; exact hi⟩, ?_⟩
      simp [q, hi]
    · rintro ⟨i, rfl⟩
      exact (hget i).2.2.2
  have hprod : (pool.map fun t => 1 - f t).prod = ∏ i : Fin costs.length, (1 - f (q i)) := by
    have : (pool.map fun t => 1 - f t).prod = ∏ t ∈ pool.toFinset, (1 - f t) := (List.prod_toFinset _ hnd).symm
    rw [this, huniv, Finset.prod_map]
  have hbern : ∀ T : Finset (Fin costs.length), bernMass f pool.toFinset (T.map q) =
      ∏ i : Fin costs.length, if i ∈ T then f (q i) else 1 - f (q i) := by
    intro T
    unfold bernMass
    rw [huniv, Finset.prod_map]
    apply Finset.prod_congr rfl
    intro i _
    simp
  have hwt : ∀ T : Finset (Fin costs.length),
      (pool.map fun t => 1 - f t).prod * env.num.expNeg (Props.subsetCost (fun i : Fin costs.length => costs[i]) T + pr.eps) =
        env.num.expNeg pr.eps * bernMass f pool.toFinset (T.map q) := by
    intro T
    unfold Props.subsetCost
    rw [hx.add, hx.sum, hprod, hbern, mul_comm (env.num.expNeg pr.eps), ← mul_assoc]
    congr 1
    rw [← Finset.prod_mul_prod_compl T, mul_right_comm, ← Finset.prod_mul_distrib,
      ← Finset.prod_mul_prod_compl T (fun i => if i ∈ T then f (q i) else 1 - f (q i))]
    congr 1
    · apply Finset.prod_congr rfl
      intro i hi
      obtain ⟨p0, p1, p2, _⟩ := hget i
      have h1 : 0 < 1 - f (pool.getD i.val 0) := by linarith
      rw [if_pos hi, p2, hx.inv _ (div_pos p0 h1)]
      show (1 - f (pool.getD i.val 0)) * (f (pool.getD i.val 0) / (1 - f (pool.getD i.val 0))) = f (pool.getD i.val 0)
      rw [mul_comm, div_mul_cancel₀ _ h1.ne']
    · apply Finset.prod_congr rfl
      intro i hi
      rw [if_neg (Finset.mem_compl.1 hi)]
  have hP0 : 0 < (pool.map fun t => 1 - f t).prod := by
    rw [hprod]
    refine Finset.prod_pos fun i _ => ?_
    have := (hget i).2.1
    show 0 < 1 - f (pool.getD i.val 0)
    linarith
  have hmapset : (out.map (fun pc => (pc.1.map (fun i => i.val), pc.2))).map
      (fun pc : List ℕ × WithTop K => setAt pool pc.1) =
      (out.map fun p => p.1.toFinset).map fun T => T.map q := by
    rw [List.map_map, List.map_map]
    apply List.map_congr_left
    intro pc _
    exact hset pc.1
  have hcard : pool.toFinset.card = costs.length := by
    rw [huniv, Finset.card_map, Finset.card_univ, Fintype.card_fin]
  have hnodup : ((out.map (fun pc => (pc.1.map (fun i => i.val), pc.2))).map
      (fun pc : List ℕ × WithTop K => setAt pool pc.1)).Nodup := by
    rw [hmapset]
    exact g3.map (Finset.map_injective q)
  refine ⟨hnodup, ⟨?_, ?_, ?_⟩, ?_⟩
  · intro B hB
    rw [List.mem_toFinset, hmapset] at hB
    obtain ⟨T, _, rfl⟩ := List.mem_map.1 hB
    rw [huniv]
    exact Finset.map_subset_map.2 (Finset.subset_univ _)
  · rw [List.toFinset_card_of_nodup hnodup, List.length_map, List.length_map, g1, hcard]
  · intro B hB B' hB' hn
    rw [List.mem_toFinset, hmapset] at hB hn
    obtain ⟨T, hT, rfl⟩ := List.mem_map.1 hB
    obtain ⟨pc, hpc, rfl⟩ := List.mem_map.1 hT
    have hB'' : B' = (Finset.univ.filter fun i => q i ∈ B').map q := by
      ext t
      simp only [Finset.mem_map, Finset.mem_filter, Finset.mem_univ, true_and]
      constructor
      · intro ht
        have := hB' ht
        rw [huniv, Finset.mem_map] at this
        obtain ⟨i, _, rfl⟩ := this
        exact ⟨i, ht, rfl⟩
      · rintro ⟨i, hi, rfl⟩
        exact hi
    rw [hB''] at hn ⊢
    have hT' : (Finset.univ.filter fun i => q i ∈ B') ∉ out.map fun p => p.1.toFinset := by
      intro hc
      exact hn (List.mem_map_of_mem hc)
    have hle := g5 _ hT' pc hpc
    rw [g2 pc hpc, WithTop.coe_le_coe] at hle
    have h1 := mul_le_mul_of_nonneg_left (hanti _ _ hle) hP0.le
    rw [hwt, hwt] at h1
    exact le_of_mul_le_mul_left h1 (hexp _)
  · intro pc hpc
    obtain ⟨x, hx', rfl⟩ := List.mem_map.1 hpc
    simp only
    rw [hset, ← hwt, g2 x hx']
    rfl

/-! ### Expectations over hypothesis lists -/

/-- Sum of the probabilities weighted with a function of the tracks. -/
def expc (g : List ℕ → K) (l : List (Hyp K)) : K := (l.map fun h => h.prob * g h.tracks).sum

theorem expc_append (g : List ℕ → K) (a b : List (Hyp K)) : expc g (a ++ b) = expc g a + expc g b := by simp [expc]

theorem expc_flatten (g : List ℕ → K) (ls : List (List (Hyp K))) : expc g ls.flatten = (ls.map (expc g)).sum := by
  induction ls with
  | nil => rfl
  | cons a ls ih => rw [List.flatten_cons, expc_append, ih, List.map_cons, List.sum_cons]

theorem expc_smul (g : List ℕ → K) (c : K) (l : List (Hyp K)) : expc (fun t => c * g t) l = c * expc g l := by
  unfold expc
  rw [← List.sum_map_mul_left]
  congr 1
  apply List.map_congr_left
  intro h _
  ring

theorem probOf_expc (hyps : List (Hyp K)) (X : Finset ℕ) :
    probOf hyps X = expc (fun t => if t.toFinset = X then 1 else 0) hyps := by
  unfold probOf expc
  induction hyps with
  | nil => rfl
  | cons h l ih =>
    rw [List.filter_cons]
    by_cases hc : h.tracks.toFinset = X
    · simp only [hc, decide_true, if_true, List.map_cons, List.sum_cons, mul_one, ih]
    · simp only [hc, decide_false, List.map_cons, List.sum_cons, mul_zero, zero_add, if_false, ih, Bool.false_eq_true]

theorem expc_norm {hyps hs : List (Hyp K)} (h : normHyps hyps = .ok hs) (hpos : ∀ x ∈ hyps, 0 ≤ x.prob) :
    ∃ z : K, 0 < z ∧ (∀ x ∈ hs, 0 ≤ x.prob) ∧ ∀ g, expc g hs * z = expc g hyps := by
  obtain ⟨h1, rfl⟩ := normHyps_ok h
  rcases h1 with rfl | h1
  · exact ⟨1, one_pos, by simp, by intro g; simp [expc]⟩
  · have hz : 0 < (hyps.map fun h => h.prob).sum :=
      lt_of_le_of_ne (List.sum_nonneg (by
        intro x hx
        obtain ⟨y, hy, rfl⟩ := List.mem_map.1 hx
        exact hpos y hy)) h1.symm
    refine ⟨_, hz, ?_, ?_⟩
    · intro x hx
      obtain ⟨y, hy, rfl⟩ := List.mem_map.1 hx
      exact div_nonneg (hpos y hy) hz.le
    · intro g
      unfold expc
      rw [List.map_map, ← List.sum_map_mul_right]
      congr 1
      apply List.map_congr_left
      intro x _
      simp only [Function.comp]
      rw [mul_right_comm, div_mul_cancel₀ _ h1]

theorem expc_prod (g : List ℕ → K) (nb : ℕ) (bh sh : List (Hyp K)) :
    expc g (bh.flatMap fun b => sh.map fun s =>
      { prob := b.prob * s.prob, tracks := b.tracks ++ s.tracks.map fun x => x + nb }) =
    expc (fun tb => expc (fun ts => g (tb ++ ts.map fun x => x + nb)) sh) bh := by
  induction bh with
  | nil => rfl
  | cons b bh ih =>
    rw [List.flatMap_cons, expc_append, ih]
    unfold expc
    rw [List.map_cons, List.sum_cons, List.map_map, ← List.sum_map_mul_left]
    congr 2
    apply List.map_congr_left
    intro s _
    simp only [Function.comp]
    ring

/-- The hypotheses made from one hypothesis. -/
theorem survOne_heaviest {env : Env K τ F S C Z} {pr : Params K} (hx : ExpLog env.num) (heps : 0 < pr.eps)
    (hexp : ∀ x, 0 < env.num.expNeg x) (hanti : ∀ x y, x ≤ y → env.num.expNeg y ≤ env.num.expNeg x)
    (hsort : Sorts env) {tab : List (Entry K τ F S C)} {ps : ℕ → K}
    (hps : ∀ (t : ℕ) (e : Entry K τ F S C), tab[t]? = some e → ps t = env.psurv e)
    {ss : K} {h : Hyp K} (hnd : h.tracks.Nodup) (hp : 0 ≤ h.prob)
    (hpos : ∀ t ∈ h.tracks, 0 < ps t) (hodds : ∀ t ∈ h.tracks, pr.eps ≤ |env.num.negLog (ps t / (1 - ps t))|)
    (hsmall : (Phd.pyRound ((pr.reqSurv : K) * env.num.sqrt h.prob / ss)).toNat ≤ 2 ∨ h.tracks.length ≤ 1)
    {out} (hs : survOne env pr tab ss h = .ok out) :
    (∀ x ∈ out, 0 ≤ x.prob) ∧
    ∃ fam : Finset (Finset ℕ),
      (if h.tracks = [] then fam = {∅} else Heaviest h.tracks.toFinset (bernMass ps h.tracks.toFinset)
        (Phd.pyRound ((pr.reqSurv : K) * env.num.sqrt h.prob / ss)).toNat fam) ∧
      ∀ g : Finset ℕ → K, expc (fun t => g t.toFinset) out =
        ∑ T ∈ fam, h.prob * (if h.tracks = [] then 1 else env.num.expNeg pr.eps) *
          bernMass ps h.tracks.toFinset T * g T := by
  rcases survOne_ok heps hs with ⟨h0, rfl⟩ | ⟨hne, ents, costs, paths, h1, h2, h3, h4, h5⟩
  · refine ⟨by simpa using hp, {∅}, by rw [if_pos h0], ?_⟩
    intro g
    rw [Finset.sum_singleton, if_pos h0, h0]
    simp [expc, h0, bernMass]
  · have hc : List.Forall₂ (fun t c => Odds env (ps t) c) h.tracks costs := by
      rw [List.forall₂_iff_get] at h1 h2 ⊢
      refine ⟨h1.1.trans h2.1, ?_⟩
      intro i hi hi'
      have e1 := h1.2 i hi (h1.1 ▸ hi)
      have e2 := h2.2 i (h1.1 ▸ hi) hi'
      rw [hps _ _ e1]
      exact e2
    have hprod : (ents.map fun e => 1 - env.psurv e).prod = (h.tracks.map fun t => 1 - ps t).prod := by
      congr 1
      apply List.ext_getElem
      · simp [h1.length_eq]
      · intro i hi hi'
        have e1 := (List.forall₂_iff_get.1 h1).2 i (by simpa using hi') (by simpa using hi)
        simp only [List.get_eq_getElem] at e1
        simp only [List.getElem_map]
        rw [hps _ _ e1]
    obtain ⟨k1, k2, k3⟩ := kList_heaviest hx heps hexp hanti hsort hnd hc hpos hodds hsmall h4
    rw [hprod] at h5
    have hset : ∀ (pc : List ℕ × WithTop K) (h' : Hyp K),
        List.Forall₂ (fun i t => h.tracks[i]? = some t) pc.1 h'.tracks → h'.tracks.toFinset = setAt h.tracks pc.1 := by
      intro pc h' hf
      unfold setAt
      congr 1
      generalize pc.1 = l at hf
      generalize h'.tracks = r at hf
      induction hf with
      | nil => rfl
      | cons ha _ ih =>
        rw [List.map_cons, ← ih, List.getD_eq_getElem?_getD, ha]
        rfl
    have hw : List.Forall₂ (fun (pc : List ℕ × WithTop K) (h' : Hyp K) => h'.tracks.toFinset = setAt h.tracks pc.1 ∧
        h'.prob = h.prob * env.num.expNeg pr.eps * bernMass ps h.tracks.toFinset (setAt h.tracks pc.1)) paths out := by
      rw [List.forall₂_iff_get] at h5 ⊢
      refine ⟨h5.1, ?_⟩
      intro i hi hi'
      obtain ⟨_, e2, e3⟩ := h5.2 i hi hi'
      refine ⟨hset _ _ e2, ?_⟩
      rw [e3, mul_right_comm, k3 _ (List.get_mem _ _)]
      ring
    have hb : ∀ T, 0 ≤ bernMass ps h.tracks.toFinset T := by
      intro T
      refine Finset.prod_nonneg ?_
      intro t ht
      obtain ⟨c, hc', p1⟩ := forall₂_mem_left hc (List.mem_toFinset.1 ht)
      split
      · exact p1.range.1
      · linarith [p1.range.2]
    refine ⟨?_, (paths.map fun pc => setAt h.tracks pc.1).toFinset, by rw [if_neg hne]; exact k2, ?_⟩
    · intro x hxm
      obtain ⟨pc, _, _, e2⟩ := forall₂_mem_right hw hxm
      rw [e2]
      exact mul_nonneg (mul_nonneg hp (hexp _).le) (hb _)
    · intro g
      rw [List.sum_toFinset _ k1, List.map_map, if_neg hne]
      unfold expc
      clear k1 k2 k3 h4 h5 hs
      induction hw with
      | nil => rfl
      | cons ha _ ih =>
        rw [List.map_cons, List.map_cons, List.sum_cons, List.sum_cons, ih]
        simp only [Function.comp]
        rw [ha.1, ha.2]

theorem bernMass_congr {f f' : ℕ → K} {pool : Finset ℕ} (h : ∀ t ∈ pool, f t = f' t) (B : Finset ℕ) :
    bernMass f pool B = bernMass f' pool B := by
  unfold bernMass
  apply Finset.prod_congr rfl
  intro t ht
  rw [h t ht]

/-- The weights of the predicted hypotheses follow Bayes' rule. -/
theorem predict_bayes {env : Env K τ F S C Z} {pr : Params K} (hx : ExpLog env.num) (heps : 0 < pr.eps)
    (hexp : ∀ x, 0 < env.num.expNeg x) (hanti : ∀ x y, x ≤ y → env.num.expNeg y ≤ env.num.expNeg x)
    (hsort : Sorts env) {lab : τ} {births : List (Birth K F S C)} {st st' : St K τ F S C} {pb ps : ℕ → K}
    (hpb : ∀ (i : ℕ) (b : Birth K F S C), births[i]? = some b → pb i = b.prob)
    (hps : ∀ (t : ℕ) (e : Entry K τ F S C), st.tab[t]? = some e → ps t = env.psurv e)
    (hI : IdxInv st) (hp : ∀ h ∈ st.hyps, 0 ≤ h.prob)
    (hposB : ∀ i < births.length, 0 < pb i) (hposS : ∀ t < st.tab.length, 0 < ps t)
    (hoddsB : ∀ i < births.length, pr.eps ≤ |env.num.negLog (pb i / (1 - pb i))|)
    (hoddsS : ∀ t < st.tab.length, pr.eps ≤ |env.num.negLog (ps t / (1 - ps t))|)
    (hsmallB : pr.reqBirths ≤ 2 ∨ births.length ≤ 1)
    (hsmallS : ∀ h ∈ st.hyps, (Phd.pyRound ((pr.reqSurv : K) * env.num.sqrt h.prob /
      (st.hyps.map fun h => env.num.sqrt h.prob).sum)).toNat ≤ 2 ∨ h.tracks.length ≤ 1)
    (h : predict env pr lab births st = .ok st') :
    BayesPredict (env.num.expNeg pr.eps) births.length pb ps pr.reqBirths
      (fun h => (Phd.pyRound ((pr.reqSurv : K) * env.num.sqrt h.prob /
        (st.hyps.map fun h => env.num.sqrt h.prob).sum)).toNat) st.hyps st'.hyps := by
  obtain ⟨costs, paths, bh, survTab, sh, hs, h1, h2, h3, _, h5, h6, rfl⟩ := predict_ok h
  -- births
  have hc : List.Forall₂ (fun t c => Odds env (pb t) c)
      (List.range births.length) costs := by
    rw [List.forall₂_iff_get] at h1 ⊢
    refine ⟨by simpa using h1.1, ?_⟩
    intro i hi hi'
    have hib : i < births.length := by simpa using hi
    have e2 := h1.2 i hib hi'
    have e1 := hpb i _ (List.getElem?_eq_getElem hib)
    simp only [List.get_eq_getElem, List.getElem_range] at e2 ⊢
    rw [e1]
    exact e2
  obtain ⟨b1, b2, b3⟩ := kList_heaviest hx heps hexp hanti hsort List.nodup_range hc
    (fun t ht => hposB t (List.mem_range.1 ht)) (fun t ht => hoddsB t (List.mem_range.1 ht)) (by rw [List.length_range]; exact hsmallB) h2
  have hrange : (List.range births.length).toFinset = Finset.range births.length := by
    ext i; simp
  rw [hrange] at b2 b3
  have hset : ∀ pc ∈ paths, setAt (List.range births.length) pc.1 = pc.1.toFinset := by
    intro pc hpc
    have hr := ((kList_ok heps h2).2.2 pc hpc).2.1
    unfold setAt
    have hmap : pc.1.map (fun i => (List.range births.length).getD i 0) = pc.1.map id := by
      apply List.map_congr_left
      intro i hi
      have : i < births.length := by
        have := hr i hi
        rw [← h1.length_eq] at this
        exact this
      rw [List.getD_eq_getElem?_getD, List.getElem?_range this]
      rfl
    rw [hmap, List.map_id]
  have hprodB : (births.map fun b => 1 - b.prob).prod = ((List.range births.length).map fun t => 1 - pb t).prod := by
    congr 1
    apply List.ext_getElem
    · simp
    · intro i hi hi'
      have e1 := hpb i _ (List.getElem?_eq_getElem (by simpa using hi))
      simp only [List.getElem_map, List.getElem_range]
      rw [e1]
  have hbB : ∀ B, 0 ≤ bernMass pb (Finset.range births.length) B := by
    intro B
    refine Finset.prod_nonneg ?_
    intro t ht
    obtain ⟨c, hc', p1⟩ := forall₂_mem_left hc (List.mem_range.2 (Finset.mem_range.1 ht))
    split
    · exact p1.range.1
    · linarith [p1.range.2]
  have hrawB : ∀ pc ∈ paths, (births.map fun b => 1 - b.prob).prod * expNegTop env pc.2 =
      env.num.expNeg pr.eps * bernMass pb (Finset.range births.length) pc.1.toFinset := by
    intro pc hpc
    rw [hprodB, b3 pc hpc, hset pc hpc]
  unfold birthHyps at h3
  obtain ⟨zb, hzb, hbn, hEb⟩ := expc_norm h3 (by
    intro x hxm
    obtain ⟨pc, hpc, rfl⟩ := List.mem_map.1 hxm
    simp only
    rw [hrawB pc hpc]
    exact mul_nonneg (hexp _).le (hbB _))
  have hsetL : (paths.map fun pc => setAt (List.range births.length) pc.1) = paths.map fun pc => pc.1.toFinset :=
    List.map_congr_left hset
  rw [hsetL] at b1 b2
  have hEb' : ∀ g : Finset ℕ → K, expc (fun t => g t.toFinset) bh * zb =
      env.num.expNeg pr.eps * ∑ B ∈ (paths.map fun pc => pc.1.toFinset).toFinset,
        bernMass pb (Finset.range births.length) B * g B := by
    intro g
    rw [hEb, List.sum_toFinset _ b1, List.map_map]
    unfold expc
    rw [List.map_map, ← List.sum_map_mul_left]
    congr 1
    apply List.map_congr_left
    intro pc hpc
    simp only [Function.comp]
    rw [hrawB pc hpc, mul_assoc]
  -- survivors
  unfold survHyps at h5
  split at h5
  · simp at h5
  rename_i ls hls0
  have hls := (traverseE_ok _ _ _).1 hls0
  clear hls0
  have hfam : ∃ survs : List (Finset (Finset ℕ)),
      List.Forall₂ (fun (h : Hyp K) fam => if h.tracks = [] then fam = {∅}
        else Heaviest h.tracks.toFinset (bernMass ps h.tracks.toFinset) (Phd.pyRound ((pr.reqSurv : K) *
          env.num.sqrt h.prob / (st.hyps.map fun h => env.num.sqrt h.prob).sum)).toNat fam) st.hyps survs ∧
      (∀ x ∈ ls.flatten, 0 ≤ x.prob) ∧
      ∀ g : Finset ℕ → K, expc (fun t => g t.toFinset) ls.flatten =
        ((st.hyps.zip survs).map fun (x : Hyp K × Finset (Finset ℕ)) => ∑ T ∈ x.2,
          x.1.prob * (if x.1.tracks = [] then 1 else env.num.expNeg pr.eps) *
            bernMass ps x.1.tracks.toFinset T * g T).sum := by
    have hall : ∀ h ∈ st.hyps, h.tracks.Nodup ∧ 0 ≤ h.prob ∧ (∀ t ∈ h.tracks, 0 < ps t) ∧
        (∀ t ∈ h.tracks, pr.eps ≤ |env.num.negLog (ps t / (1 - ps t))|) ∧
        ((Phd.pyRound ((pr.reqSurv : K) * env.num.sqrt h.prob / sumSqrt env st.hyps)).toNat ≤ 2 ∨
          h.tracks.length ≤ 1) := by
      intro h hh
      exact ⟨hI.nodup h hh, hp h hh, fun t ht => hposS t (hI.range h hh t ht), fun t ht => hoddsS t (hI.range h hh t ht), hsmallS h hh⟩
    have hss : (st.hyps.map fun h => env.num.sqrt h.prob).sum = sumSqrt env st.hyps := rfl
    rw [hss]
    generalize sumSqrt env st.hyps = ss at hls hall
    generalize st.hyps = hyps at hls hall
    clear h h1 h2 h3 h5 h6
    induction hls with
    | nil => exact ⟨[], .nil, by simp, by intro g; simp [expc]⟩
    | @cons a l hyps ls ha _ ih =>
      obtain ⟨survs, i1, i2, i3⟩ := ih (fun h hh => hall h (List.mem_cons_of_mem _ hh))
      obtain ⟨a1, a2, a0, a3, a4⟩ := hall a List.mem_cons_self
      obtain ⟨j1, fam, j2, j3⟩ := survOne_heaviest hx heps hexp hanti hsort hps a1 a2 a0 a3 a4 ha
      refine ⟨fam :: survs, .cons j2 i1, ?_, ?_⟩
      · intro x hxm
        rw [List.flatten_cons] at hxm
        rcases List.mem_append.1 hxm with hxm | hxm
        · exact j1 x hxm
        · exact i2 x hxm
      · intro g
        rw [List.flatten_cons, expc_append, j3, i3, List.zip_cons_cons, List.map_cons, List.sum_cons]
  obtain ⟨survs, s1, s2, s3⟩ := hfam
  obtain ⟨zs, hzs, hsn, hEs⟩ := expc_norm h5 s2
  unfold setPredHyps at h6
  obtain ⟨zp, hzp, _, hEp⟩ := expc_norm h6 (by
    intro x hxm
    obtain ⟨b, hb, hxm⟩ := List.mem_flatMap.1 hxm
    obtain ⟨s, hs', rfl⟩ := List.mem_map.1 hxm
    exact mul_nonneg (hbn b hb) (hsn s hs'))
  refine ⟨zp * zb * zs / env.num.expNeg pr.eps, (paths.map fun pc => pc.1.toFinset).toFinset, survs,
    div_pos (mul_pos (mul_pos hzp hzb) hzs) (hexp _), b2, s1, ?_⟩
  intro X
  have hclean : probOf (cleanPred hs) X = probOf hs X :=
    cleanPred_massOf (fun l => l.toFinset = X) (fun a b hab => by
      have : a.toFinset = b.toFinset := by ext t; simp [hab.mem_iff]
      rw [this]) hs
  rw [hclean, probOf_expc, mul_div_assoc', eq_comm]
  rw [eq_div_iff (hexp _).ne']
  have e1 := hEp (fun t => if t.toFinset = X then 1 else 0)
  rw [expc_prod] at e1
  have e2 : (fun tb : List ℕ => expc (fun ts => if (tb ++ ts.map fun x => x + births.length).toFinset = X
      then (1 : K) else 0) sh) = fun tb => (fun B : Finset ℕ => expc (fun ts => (fun T : Finset ℕ =>
        if B ∪ T.image (fun t => t + births.length) = X then (1 : K) else 0) ts.toFinset) sh) tb.toFinset := by
    funext tb
    simp only
    congr 1
    funext ts
    have : (tb ++ ts.map fun x => x + births.length).toFinset =
        tb.toFinset ∪ ts.toFinset.image (fun t => t + births.length) := by
      ext t
      simp
    rw [this]
  rw [e2] at e1
  have e3 := hEb' (fun B : Finset ℕ => expc (fun ts => (fun T : Finset ℕ =>
        if B ∪ T.image (fun t => t + births.length) = X then (1 : K) else 0) ts.toFinset) sh)
  calc _ = (env.num.expNeg pr.eps * ∑ B ∈ (paths.map fun pc => pc.1.toFinset).toFinset,
        bernMass pb (Finset.range births.length) B * expc (fun ts => (fun T : Finset ℕ =>
          if B ∪ T.image (fun t => t + births.length) = X then (1 : K) else 0) ts.toFinset) sh) * zs := by
        rw [mul_comm, mul_assoc, Finset.sum_mul]
        congr 1
        apply Finset.sum_congr rfl
        intro B _
        rw [mul_assoc, hEs, s3 (fun T : Finset ℕ =>
          if B ∪ T.image (fun t => t + births.length) = X then (1 : K) else 0), ← List.sum_map_mul_left]
        congr 1
        apply List.map_congr_left
        intro x _
        rw [Finset.mul_sum]
        apply Finset.sum_congr rfl
        intro T _
        split
        · rw [mul_one]
        · rw [mul_zero, mul_zero]
    _ = _ := by
        rw [← e3, ← e1]
        ring

end Gasur.Glmb
