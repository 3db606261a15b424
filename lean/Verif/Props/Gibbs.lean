import Verif.Proofs.Gibbs
import Mathlib.Logic.Equiv.Fintype
import Mathlib.Analysis.SpecialFunctions.Exp

/-!
# C12, C52, C53: the Gibbs sampler
-/

set_option linter.unusedSectionVars false

namespace Gasur.Props

open Gasur.Gibbs

variable {K : Type*} [Field K] [LinearOrder K] [IsStrictOrderedRing K] {N M : ℕ}

/-- **C12.** For finite costs, at least twice as many columns as rows, at least one iteration and any random
numbers in `[0, 1)`, `gibbs` succeeds with at most `numIters` rows; the rows are pairwise different; every
row uses pairwise different columns and is returned with the sum of its entries; the all-missed assignment
is among them. -/
theorem C12_gibbs (expNeg : K → K) (hexp : ∀ x, 0 < expNeg x) (costs : Fin N → Fin M → K)
    (hM : 2 * N ≤ M) (numIters : ℕ) (hn : 0 < numIters) (u : ℕ → Fin N → K)
    (hu : ∀ s v, 0 ≤ u s v ∧ u s v < 1) :
    ∃ out, gibbs expNeg costs numIters u = .ok out ∧ out.length ≤ numIters ∧
      (out.map Prod.fst).Nodup ∧
      (∀ a c, (a, c) ∈ out → Function.Injective a ∧ c = ∑ i, costs i (a i)) ∧
      ∃ a c, (a, c) ∈ out ∧ ∀ i, (a i).val = N + i.val := by
  have hinj : Function.Injective (fun i : Fin N => (⟨N + i.val, by omega⟩ : Fin M)) := by
    intro i j h
    simp only [Fin.mk.injEq] at h
    exact Fin.ext (by omega)
  obtain ⟨l, h1, h2, h3⟩ := iter_ok hexp costs hu (numIters - 1) 1 _ hinj
  obtain ⟨g1, g2, g3, g4⟩ := uniqueRows_spec
    (((fun i : Fin N => (⟨N + i.val, by omega⟩ : Fin M)) :: l).map fun a => (a, rowCost costs a))
  refine ⟨_, by rw [gibbs, if_neg hn.ne', dif_pos hM, h1], ?_, g2, ?_, ?_⟩
  · refine g1.trans ?_
    simp only [List.length_map, List.length_cons, h2]
    omega
  · intro a c hac
    have := g3 _ hac
    obtain ⟨b, hb, hbe⟩ := List.mem_map.1 this
    simp only [Prod.mk.injEq] at hbe
    obtain ⟨rfl, rfl⟩ := hbe
    refine ⟨?_, rfl⟩
    rcases List.mem_cons.1 hb with rfl | hb
    · exact hinj
    · exact h3 b hb
  · obtain ⟨⟨a, c⟩, hq, hqe⟩ := g4 _ (List.mem_map.2 ⟨_, List.mem_cons_self, rfl⟩)
    exact ⟨a, c, hq, fun i => by simp only at hqe; rw [hqe]⟩

/-- Requesting no sample raises, and so does a matrix with too few columns. -/
theorem C12_gibbs_errors (expNeg : K → K) (costs : Fin N → Fin M → K) (u : ℕ → Fin N → K) :
    gibbs expNeg costs 0 u = .error .index ∧
    ∀ numIters, 0 < numIters → M < 2 * N → gibbs expNeg costs numIters u = .error .shape := by
  refine ⟨by simp [gibbs], fun n hn h => ?_⟩
  rw [gibbs, if_neg hn.ne', dif_neg (by omega)]

/-- **C52.** The column drawn for a row has the right distribution: column `j` is drawn exactly when the
random number lies in an interval inside `[0, 1)` whose length is the weight of `j` divided by the total
weight. (`w` are the weights: `exp (-cost)`, or 0 for the columns of other rows.) -/
theorem C52_draw (w : Fin M → K) (hw : ∀ j, 0 ≤ w j) (j : Fin M) (hj : 0 < w j) :
    ∃ lo, 0 ≤ lo ∧ lo + w j / ∑ i, w i ≤ 1 ∧
      ∀ u, 0 ≤ u → u < 1 → (newCol w u = .ok j ↔ lo ≤ u ∧ u < lo + w j / ∑ i, w i) := by
  have hmem := mem_candidates.2 hj
  have hc : candidates w ≠ [] := List.ne_nil_of_mem hmem
  set k := (candidates w).idxOf j with hk
  have hklt : k < (candidates w).length := List.idxOf_lt_length_iff.2 hmem
  have hkj : (candidates w)[k] = j := List.getElem_idxOf hklt
  set ws := (candidates w).map w with hws
  have hpos : ∀ x ∈ ws, 0 < x := by
    intro x hx
    obtain ⟨i, hi, rfl⟩ := List.mem_map.1 hx
    exact mem_candidates.1 hi
  have hwne : ws ≠ [] := by simpa [hws] using hc
  have hS := sum_pos_list hpos hwne
  have hlen : ws.length = (candidates w).length := by simp [hws]
  have hsum : ws.sum = ∑ i, w i := sum_candidates hw
  have hedge : edge ws (k + 1) = edge ws k + w j / ∑ i, w i := by
    unfold edge
    rw [take_succ_sum ws k (by omega), add_div, hsum]
    congr 2
    simp [hws, hkj]
  have e0 : edge ws 0 = 0 := by simp [edge]
  have en : edge ws ws.length = 1 := by simp [edge, hS.ne']
  refine ⟨edge ws k, ?_, ?_, ?_⟩
  · rw [← e0]; exact edge_mono hpos (Nat.zero_le _) (by omega)
  · rw [← hedge, ← en]; exact edge_mono hpos (by omega) le_rfl
  · intro u h0 h1
    rw [← hedge]
    have hiff := digitize_iff hpos hwne h0 h1 k
    unfold newCol
    rw [if_neg hc]
    constructor
    · intro h
      split at h
      · rename_i x hx
        simp only [Except.ok.injEq] at h
        subst h
        obtain ⟨hlt, hget⟩ := List.getElem?_eq_some_iff.1 hx
        have : digitize u (hist ws) - 1 = k := by
          have := (candidates_nodup w).idxOf_getElem _ hlt
          rw [hget] at this
          exact this.symm
        exact (hiff.1 this).2
      · simp at h
    · intro h
      rw [hiff.2 ⟨by omega, h⟩, List.getElem?_eq_getElem hklt, hkj]

/-- The weights of one row, as used by `gibbs`: zero exactly for the columns that other rows use. -/
theorem C52_weights (expNeg : K → K) (hexp : ∀ x, 0 < expNeg x) (costs : Fin N → Fin M → K)
    (cur : Fin N → Fin M) (v : Fin N) (j : Fin M) :
    (weights expNeg costs cur v j = 0 ↔ ∃ i, i ≠ v ∧ cur i = j) ∧
    ((¬ ∃ i, i ≠ v ∧ cur i = j) → weights expNeg costs cur v j = expNeg (costs v j)) := by
  unfold weights
  split
  · rename_i h
    exact ⟨⟨fun _ => h, fun _ => rfl⟩, fun hn => absurd h hn⟩
  · rename_i h
    exact ⟨⟨fun h0 => absurd h0 (hexp _).ne', fun hh => absurd hh h⟩, fun _ => rfl⟩

/-! ### C53: every assignment can be drawn -/

/-- A pass can move from `cur` to `t` when no row's target is another row's old column. -/
theorem sweep_reach {expNeg : K → K} (hexp : ∀ x, 0 < expNeg x) (costs : Fin N → Fin M → K)
    {cur t : Fin N → Fin M} (hc : Function.Injective cur) (ht : Function.Injective t)
    (hd : ∀ i j, i ≠ j → cur i ≠ t j) :
    ∃ u : Fin N → K, (∀ v, 0 ≤ u v ∧ u v < 1) ∧
      sweep expNeg costs u (List.finRange N) cur = .ok t := by
  classical
  -- hybrid solutions
  let hyb : Finset (Fin N) → Fin N → Fin M := fun s i => if i ∈ s then t i else cur i
  have hfree : ∀ (s : Finset (Fin N)) (v i : Fin N), i ≠ v → hyb s i ≠ t v := by
    intro s v i hiv
    simp only [hyb]
    split
    · exact fun h => hiv (ht h)
    · exact hd i v hiv
  have hw : ∀ (s : Finset (Fin N)) (v : Fin N), 0 < weights expNeg costs (hyb s) v (t v) := by
    intro s v
    unfold weights
    rw [if_neg (by rintro ⟨i, hi, h⟩; exact hfree s v i hi h)]
    exact hexp _
  have hnn : ∀ (s : Finset (Fin N)) (v : Fin N) j, 0 ≤ weights expNeg costs (hyb s) v j := by
    intro s v j
    unfold weights
    split
    · exact le_rfl
    · exact (hexp _).le
  have hS : ∀ (s : Finset (Fin N)) (v : Fin N), 0 < ∑ j, weights expNeg costs (hyb s) v j := fun s v =>
    (hw s v).trans_le (Finset.single_le_sum (fun j _ => hnn s v j) (Finset.mem_univ _))
  choose lo hlo0 hlo1 hlo using fun (s : Finset (Fin N)) (v : Fin N) =>
    C52_draw (weights expNeg costs (hyb s) v) (hnn s v) (t v) (hw s v)
  -- the set of rows before `v`
  let u : Fin N → K := fun v => lo (Finset.univ.filter fun i => i < v) v
  have hlt : ∀ v, lo (Finset.univ.filter fun i => i < v) v < 1 := fun v => by
    have h1 := hlo1 (Finset.univ.filter fun i => i < v) v
    have h2 := div_pos (hw (Finset.univ.filter fun i => i < v) v)
      (hS (Finset.univ.filter fun i => i < v) v)
    linarith
  refine ⟨u, fun v => ⟨hlo0 _ v, hlt v⟩, ?_⟩
  have main : ∀ (vs : List (Fin N)) (s : Finset (Fin N)), vs.Pairwise (· < ·) →
      (∀ v, v ∈ vs ↔ v ∉ s) → (∀ v ∈ vs, ∀ i ∈ s, i < v) →
      sweep expNeg costs u vs (hyb s) = .ok t := by
    intro vs
    induction vs with
    | nil =>
      intro s _ hs _
      rw [sweep]
      congr 1
      funext i
      have : i ∈ s := by
        by_contra h
        exact absurd ((hs i).2 h) (by simp)
      simp [hyb, this]
    | cons v vs ih =>
      intro s hp hs hlt'
      have hp' := List.pairwise_cons.1 hp
      have hset : s = Finset.univ.filter fun i => i < v := by
        ext i
        simp only [Finset.mem_filter, Finset.mem_univ, true_and]
        constructor
        · intro hi
          exact hlt' v (by simp) i hi
        · intro hi
          by_contra h
          have hmem := (hs i).2 h
          rcases List.mem_cons.1 hmem with rfl | hmem
          · exact lt_irrefl _ hi
          · exact lt_asymm hi (hp'.1 i hmem)
      have hcol : newCol (weights expNeg costs (hyb s) v) (u v) = .ok (t v) := by
        have h2 := div_pos (hw s v) (hS s v)
        have huv : u v = lo s v := by
          show lo (Finset.univ.filter fun i => i < v) v = lo s v
          rw [← hset]
        rw [huv]
        have h3 := hlo1 s v
        exact (hlo s v _ (hlo0 s v) (by linarith)).2 ⟨le_rfl, by linarith⟩
      have hupd : Function.update (hyb s) v (t v) = hyb (insert v s) := by
        funext i
        by_cases hi : i = v
        · subst hi; simp [hyb]
        · rw [Function.update_of_ne hi]
          simp [hyb, hi]
      rw [sweep, hcol]
      simp only
      rw [hupd]
      refine ih (insert v s) hp'.2 ?_ ?_
      · intro i
        rw [Finset.mem_insert, not_or, ← hs i, List.mem_cons]
        constructor
        · intro hi
          exact ⟨(hp'.1 i hi).ne', .inr hi⟩
        · rintro ⟨h1, h2 | h2⟩
          · exact absurd h2 h1
          · exact h2
      · intro i hi j hj
        rcases Finset.mem_insert.1 hj with rfl | hj
        · exact hp'.1 i hi
        · exact hlt' i (List.mem_cons_of_mem _ hi) j hj
  have h0 : hyb ∅ = cur := by funext i; simp [hyb]
  rw [← h0]
  exact main (List.finRange N) ∅ (List.pairwise_lt_finRange N) (by simp) (by simp)

/-- **C53.** Every assignment of the rows to pairwise different columns can be drawn: with at least three
iterations, for some random numbers in `[0, 1)` it is among the returned rows. -/
theorem C53_support (expNeg : K → K) (hexp : ∀ x, 0 < expNeg x) (costs : Fin N → Fin M → K)
    (hM : 2 * N ≤ M) (numIters : ℕ) (hn : 3 ≤ numIters) (a : Fin N → Fin M)
    (ha : Function.Injective a) :
    ∃ u : ℕ → Fin N → K, (∀ s v, 0 ≤ u s v ∧ u s v < 1) ∧
      ∃ out, gibbs expNeg costs numIters u = .ok out ∧ ∃ c, (a, c) ∈ out := by
  classical
  -- an intermediate solution in the first `N` columns that agrees with `a` there
  obtain ⟨m, hm1, hm2, hm3⟩ : ∃ m : Fin N → Fin M, Function.Injective m ∧ (∀ i, (m i).val < N) ∧
      ∀ i, (a i).val < N → m i = a i := by
    let p : Fin N → Prop := fun i => (a i).val < N
    let f : {i // p i} → Fin N := fun i => ⟨(a i.1).val, i.2⟩
    have hf : Function.Injective f := by
      intro i j h
      simp only [f, Fin.mk.injEq] at h
      exact Subtype.ext (ha (Fin.ext h))
    let e : {i // p i} ≃ {x // x ∈ Set.range f} := Equiv.ofInjective f hf
    let σ : Equiv.Perm (Fin N) := e.extendSubtype
    refine ⟨fun i => ⟨(σ i).val, by omega⟩, ?_, ?_, ?_⟩
    · intro i j h
      simp only [Fin.mk.injEq] at h
      exact σ.injective (Fin.ext h)
    · intro i
      exact (σ i).isLt
    · intro i hi
      apply Fin.ext
      have : σ i = f ⟨i, hi⟩ := by
        rw [show σ i = e.extendSubtype i from rfl, Equiv.extendSubtype_apply_of_mem e i hi]
        rfl
      simp only [this, f]
  let c0 : Fin N → Fin M := fun i => ⟨N + i.val, by omega⟩
  have h0 : Function.Injective c0 := by
    intro i j h
    simp only [c0, Fin.mk.injEq] at h
    exact Fin.ext (by omega)
  obtain ⟨u1, hu1, hs1⟩ := sweep_reach hexp costs h0 hm1 (by
    intro i j _ h
    have := congrArg Fin.val h
    simp only [c0] at this
    have := hm2 j
    omega)
  obtain ⟨u2, hu2, hs2⟩ := sweep_reach hexp costs hm1 ha (by
    intro i j hij h
    have hj : (a j).val < N := by rw [← h]; exact hm2 i
    rw [← hm3 j hj] at h
    exact hij (hm1 h))
  let u : ℕ → Fin N → K := fun s => if s = 1 then u1 else if s = 2 then u2 else fun _ => 0
  have hu : ∀ s v, 0 ≤ u s v ∧ u s v < 1 := by
    intro s v
    simp only [u]
    split
    · exact hu1 v
    · split
      · exact hu2 v
      · exact ⟨le_rfl, zero_lt_one⟩
  obtain ⟨n, rfl⟩ : ∃ n, numIters = n + 3 := ⟨numIters - 3, by omega⟩
  obtain ⟨l, hl, _, _⟩ := iter_ok hexp costs hu n 3 a ha
  have hit : iter expNeg costs u (n + 2) 1 c0 = .ok (m :: a :: l) := by
    have e1 : u 1 = u1 := rfl
    have e2 : u 2 = u2 := rfl
    rw [iter, e1, hs1]
    simp only
    rw [iter, e2, hs2]
    simp only
    rw [hl]
  refine ⟨u, hu, _, by rw [gibbs, if_neg (by omega), dif_pos hM]; simp only [Nat.add_sub_cancel, show n + 3 - 1 = n + 2 from rfl]; rw [hit], ?_⟩
  obtain ⟨_, _, _, g4⟩ := uniqueRows_spec ((c0 :: m :: a :: l).map fun a => (a, rowCost costs a))
  obtain ⟨⟨b, c⟩, hq, hqe⟩ := g4 (a, rowCost costs a) (by simp)
  simp only at hqe
  subst hqe
  exact ⟨c, hq⟩

/-! Non-vacuity: real costs and the real exponential; a run on two rows and five columns. -/

example (costs : Fin 2 → Fin 5 → ℝ) (u : ℕ → Fin 2 → ℝ) (hu : ∀ s v, 0 ≤ u s v ∧ u s v < 1) :
    ∃ out, gibbs (fun x => Real.exp (-x)) costs 10 u = .ok out ∧ out.length ≤ 10 := by
  obtain ⟨out, h1, h2, _⟩ := C12_gibbs (fun x => Real.exp (-x)) (fun x => Real.exp_pos _) costs (by norm_num)
    10 (by norm_num) u hu
  exact ⟨out, h1, h2⟩

example : ((gibbs (N := 2) (M := 5) (K := ℚ) (fun x => 1 / (1 + x * x)) (fun i j => i.val + 2 * j.val) 3
    (fun s _ => if s = 1 then 0 else 1 / 2)).toOption.map fun l => l.map fun p => (colsOf p.1, p.2)) =
    some [([0, 1], 3), ([2, 3], 11)] := by
  decide +kernel

end Gasur.Props
