import Verif.Model.Gibbs
import Mathlib.Algebra.Order.BigOperators.Group.List
import Mathlib.Algebra.Order.BigOperators.Group.Finset
import Mathlib.Tactic.Linarith
import Mathlib.Tactic.Ring
import Mathlib.Tactic.FieldSimp
import Mathlib.Tactic.Positivity

/-! Lemmas on the Gibbs sampler. -/

set_option linter.unusedSectionVars false

namespace Gasur.Gibbs

variable {K : Type*} [Field K] [LinearOrder K] [IsStrictOrderedRing K] {N M : ℕ}

theorem cumsum_eq : ∀ (acc : K) (ws : List K),
    cumsum acc ws = (List.range ws.length).map fun k => acc + (ws.take (k + 1)).sum
  | _, [] => rfl
  | acc, x :: l => by
    rw [cumsum, cumsum_eq (acc + x) l, List.length_cons, List.range_succ_eq_map, List.map_cons]
    simp [List.map_map, Function.comp_def, add_assoc]

/-- Upper end of bin `k`. -/
def edge (ws : List K) (k : ℕ) : K := (ws.take k).sum / ws.sum

theorem hist_eq (ws : List K) : hist ws = (List.range (ws.length + 1)).map (edge ws) := by
  rw [hist, cumsum_eq, List.range_succ_eq_map, List.map_cons]
  simp [edge, List.map_map, Function.comp_def]

theorem take_succ_sum (ws : List K) (k : ℕ) (hk : k < ws.length) :
    (ws.take (k + 1)).sum = (ws.take k).sum + ws[k] := by
  rw [List.take_add_one, List.sum_append]
  simp [hk]

theorem sum_pos_list {ws : List K} (h : ∀ w ∈ ws, 0 < w) (hne : ws ≠ []) : 0 < ws.sum :=
  List.sum_pos _ h hne

theorem edge_mono {ws : List K} (h : ∀ w ∈ ws, 0 < w) {i j : ℕ} (hij : i ≤ j) (hj : j ≤ ws.length) :
    edge ws i ≤ edge ws j := by
  induction j, hij using Nat.le_induction with
  | base => exact le_rfl
  | succ j hij ih =>
    refine (ih (by omega)).trans ?_
    have hne : ws ≠ [] := by rintro rfl; simp at hj
    have hS := sum_pos_list h hne
    unfold edge
    rw [take_succ_sum ws j (by omega)]
    have := h ws[j] (List.getElem_mem _)
    exact (div_le_div_iff_of_pos_right hS).2 (by linarith)

theorem filter_le_range (n k : ℕ) (hk : k < n) :
    ((List.range n).filter fun i => decide (i ≤ k)).length = k + 1 := by
  obtain ⟨d, rfl⟩ : ∃ d, n = (k + 1) + d := ⟨n - (k + 1), by omega⟩
  rw [List.range_add, List.filter_append]
  have h1 : (List.range (k + 1)).filter (fun i => decide (i ≤ k)) = List.range (k + 1) := by
    rw [List.filter_eq_self]
    intro i hi
    rw [List.mem_range] at hi
    simp; omega
  have h2 : ((List.range d).map fun i => k + 1 + i).filter (fun i => decide (i ≤ k)) = [] := by
    rw [List.filter_eq_nil_iff]
    intro i hi
    obtain ⟨j, _, rfl⟩ := List.mem_map.1 hi
    simp; omega
  rw [h1, h2]
  simp

/-- `digitize` finds the bin. -/
theorem digitize_iff {ws : List K} (h : ∀ w ∈ ws, 0 < w) (hne : ws ≠ []) {u : K} (h0 : 0 ≤ u)
    (h1 : u < 1) (k : ℕ) :
    digitize u (hist ws) - 1 = k ↔ k < ws.length ∧ edge ws k ≤ u ∧ u < edge ws (k + 1) := by
  have hS := sum_pos_list h hne
  have e0 : edge ws 0 = 0 := by simp [edge]
  have en : edge ws ws.length = 1 := by simp [edge, hS.ne']
  -- the bin exists
  have hex : ∃ k, k < ws.length ∧ edge ws k ≤ u ∧ u < edge ws (k + 1) := by
    have hP : ∃ j, u < edge ws j := ⟨ws.length, by rw [en]; exact h1⟩
    classical
    have hf := Nat.find_spec hP
    have hm := fun {m} => Nat.find_min hP (m := m)
    set j := Nat.find hP
    have hj : j ≤ ws.length := Nat.find_min' hP (by rw [en]; exact h1)
    have hj0 : j ≠ 0 := by
      intro hj0
      rw [hj0, e0] at hf
      exact absurd hf (not_lt.2 h0)
    refine ⟨j - 1, by omega, not_lt.1 (hm (by omega)), ?_⟩
    rwa [Nat.sub_add_cancel (by omega)]
  have hdig : ∀ k, k < ws.length → edge ws k ≤ u → u < edge ws (k + 1) →
      digitize u (hist ws) = k + 1 := by
    intro k hk hl hu
    unfold digitize
    rw [hist_eq, List.filter_map, List.length_map, ← filter_le_range (ws.length + 1) k (by omega)]
    congr 1
    apply List.filter_congr
    intro i hi
    rw [List.mem_range] at hi
    simp only [Function.comp_apply]
    congr 1
    rw [eq_iff_iff]
    constructor
    · intro hiu
      by_contra hc
      have : edge ws (k + 1) ≤ edge ws i := edge_mono h (by omega) (by omega)
      exact absurd (hu.trans_le this) (not_lt.2 hiu)
    · intro hik
      exact (edge_mono h hik (by omega)).trans hl
  obtain ⟨k0, hk0, hl0, hu0⟩ := hex
  constructor
  · intro hk
    rw [hdig k0 hk0 hl0 hu0] at hk
    have : k0 = k := by omega
    subst this
    exact ⟨hk0, hl0, hu0⟩
  · rintro ⟨hk, hl, hu⟩
    rw [hdig k hk hl hu]
    rfl

theorem mem_candidates {w : Fin M → K} {j : Fin M} : j ∈ candidates w ↔ 0 < w j := by
  simp [candidates]

theorem candidates_nodup (w : Fin M → K) : (candidates w).Nodup := (List.nodup_finRange M).filter _

theorem sum_candidates {w : Fin M → K} (hw : ∀ j, 0 ≤ w j) : ((candidates w).map w).sum = ∑ j, w j := by
  rw [← List.sum_toFinset _ (candidates_nodup w)]
  apply Finset.sum_subset (Finset.subset_univ _)
  intro j _ hj
  rw [List.mem_toFinset, mem_candidates, not_lt] at hj
  exact le_antisymm hj (hw j)

/-- A sampled column has positive weight. -/
theorem newCol_ok {w : Fin M → K} {u : K} (h0 : 0 ≤ u) (h1 : u < 1) (hne : ∃ j, 0 < w j) :
    ∃ j, newCol w u = .ok j ∧ 0 < w j := by
  obtain ⟨j0, hj0⟩ := hne
  have hc : candidates w ≠ [] := List.ne_nil_of_mem (mem_candidates.2 hj0)
  have hpos : ∀ x ∈ (candidates w).map w, 0 < x := by
    intro x hx
    obtain ⟨j, hj, rfl⟩ := List.mem_map.1 hx
    exact mem_candidates.1 hj
  have hk := ((digitize_iff hpos (by simpa using hc) h0 h1
    (digitize u (hist ((candidates w).map w)) - 1)).1 rfl).1
  rw [List.length_map] at hk
  refine ⟨(candidates w)[digitize u (hist ((candidates w).map w)) - 1], ?_, ?_⟩
  · unfold newCol
    rw [if_neg hc, List.getElem?_eq_getElem hk]
  · exact mem_candidates.1 (List.getElem_mem _)

/-- One pass keeps the columns pairwise different, if all weights are positive. -/
theorem sweep_ok {expNeg : K → K} (hexp : ∀ x, 0 < expNeg x) (costs : Fin N → Fin M → K)
    {u : Fin N → K} (hu : ∀ v, 0 ≤ u v ∧ u v < 1) : ∀ (vs : List (Fin N)) (cur : Fin N → Fin M),
    Function.Injective cur →
    ∃ cur', sweep expNeg costs u vs cur = .ok cur' ∧ Function.Injective cur'
  | [], cur, hc => ⟨cur, rfl, hc⟩
  | v :: vs, cur, hc => by
    have hne : ∃ j, 0 < weights expNeg costs cur v j := by
      refine ⟨cur v, ?_⟩
      unfold weights
      rw [if_neg (by rintro ⟨i, hi, h⟩; exact hi (hc h))]
      exact hexp _
    obtain ⟨j, hj, hpos⟩ := newCol_ok (hu v).1 (hu v).2 hne
    have hfree : ∀ i, i ≠ v → cur i ≠ j := by
      intro i hi h
      unfold weights at hpos
      rw [if_pos ⟨i, hi, h⟩] at hpos
      exact lt_irrefl _ hpos
    have hinj : Function.Injective (Function.update cur v j) := by
      intro a b hab
      by_cases ha : a = v
      · by_cases hb : b = v
        · rw [ha, hb]
        · subst ha
          rw [Function.update_self, Function.update_of_ne hb] at hab
          exact absurd hab.symm (hfree b hb)
      · by_cases hb : b = v
        · subst hb
          rw [Function.update_self, Function.update_of_ne ha] at hab
          exact absurd hab (hfree a ha)
        · rw [Function.update_of_ne ha, Function.update_of_ne hb] at hab
          exact hc hab
    obtain ⟨c', h1, h2⟩ := sweep_ok hexp costs hu vs _ hinj
    exact ⟨c', by rw [sweep, hj]; exact h1, h2⟩

theorem iter_ok {expNeg : K → K} (hexp : ∀ x, 0 < expNeg x) (costs : Fin N → Fin M → K)
    {u : ℕ → Fin N → K} (hu : ∀ s v, 0 ≤ u s v ∧ u s v < 1) : ∀ (n sol : ℕ) (cur : Fin N → Fin M),
    Function.Injective cur →
    ∃ l, iter expNeg costs u n sol cur = .ok l ∧ l.length = n ∧ ∀ a ∈ l, Function.Injective a
  | 0, _, _, _ => ⟨[], rfl, rfl, by simp⟩
  | n + 1, sol, cur, hc => by
    obtain ⟨c', h1, h2⟩ := sweep_ok hexp costs (hu sol) (List.finRange N) cur hc
    obtain ⟨l, h3, h4, h5⟩ := iter_ok hexp costs hu n (sol + 1) c' h2
    refine ⟨c' :: l, by rw [iter, h1]; simp only; rw [h3], by simp [h4], ?_⟩
    intro a ha
    rcases List.mem_cons.1 ha with rfl | ha
    · exact h2
    · exact h5 a ha

theorem firsts_spec : ∀ l : List ((Fin N → Fin M) × K),
    (firsts l).length ≤ l.length ∧ ((firsts l).map Prod.fst).Nodup ∧ (∀ p ∈ firsts l, p ∈ l) ∧
      ∀ p ∈ l, ∃ q ∈ firsts l, q.1 = p.1
  | [] => by simp [firsts]
  | p :: l => by
    obtain ⟨h1, h2, h3, h4⟩ := firsts_spec l
    refine ⟨?_, ?_, ?_, ?_⟩
    · rw [firsts, List.length_cons, List.length_cons]
      have := List.length_filter_le (fun q => decide (q.1 ≠ p.1)) (firsts l)
      omega
    · rw [firsts, List.map_cons, List.nodup_cons]
      constructor
      · intro h
        obtain ⟨q, hq, hqp⟩ := List.mem_map.1 h
        have := (List.mem_filter.1 hq).2
        simp at this
        exact this hqp
      · exact h2.sublist ((List.filter_sublist).map _)
    · intro q hq
      rw [firsts] at hq
      rcases List.mem_cons.1 hq with rfl | hq
      · exact List.mem_cons_self
      · exact List.mem_cons_of_mem _ (h3 q (List.mem_filter.1 hq).1)
    · intro q hq
      rw [firsts]
      by_cases hqp : q.1 = p.1
      · exact ⟨p, List.mem_cons_self, hqp.symm⟩
      · rcases List.mem_cons.1 hq with rfl | hq
        · exact absurd rfl hqp
        · obtain ⟨r, hr, hrq⟩ := h4 q hq
          exact ⟨r, List.mem_cons_of_mem _ (List.mem_filter.2 ⟨hr, by simp [hrq, hqp]⟩), hrq⟩

theorem uniqueRows_spec (l : List ((Fin N → Fin M) × K)) :
    (uniqueRows l).length ≤ l.length ∧ ((uniqueRows l).map Prod.fst).Nodup ∧
      (∀ p ∈ uniqueRows l, p ∈ l) ∧ ∀ p ∈ l, ∃ q ∈ uniqueRows l, q.1 = p.1 := by
  obtain ⟨h1, h2, h3, h4⟩ := firsts_spec l
  have hp := List.perm_insertionSort (fun p q : (Fin N → Fin M) × K => colsOf p.1 ≤ colsOf q.1) (firsts l)
  refine ⟨?_, ?_, ?_, ?_⟩
  · rw [uniqueRows, hp.length_eq]; exact h1
  · rw [uniqueRows, (hp.map _).nodup_iff]; exact h2
  · intro p hpm
    rw [uniqueRows, hp.mem_iff] at hpm
    exact h3 p hpm
  · intro p hpm
    obtain ⟨q, hq, h⟩ := h4 p hpm
    exact ⟨q, by rw [uniqueRows, hp.mem_iff]; exact hq, h⟩

end Gasur.Gibbs
