import Verif.Props.Gibbs

/-!
# C154: what the result of `gibbs` depends on

With the same random numbers, more iterations only add rows, and adding a number to a row of the cost matrix only shifts the
reported costs.
-/

namespace Gasur.Props.GibbsMore

open Gasur.Gibbs

variable {K : Type*} [Field K] [LinearOrder K] [IsStrictOrderedRing K] {N M : ℕ}

/-! ### More iterations -/

theorem iter_prefix (expNeg : K → K) (costs : Fin N → Fin M → K) (u : ℕ → Fin N → K) : ∀ (n k sol : ℕ)
    (cur : Fin N → Fin M) (l : List (Fin N → Fin M)), iter expNeg costs u (n + k) sol cur = .ok l →
    iter expNeg costs u n sol cur = .ok (l.take n)
  | 0, _, _, _, _, _ => by simp [iter]
  | n + 1, k, sol, cur, l, h => by
    rw [show n + 1 + k = (n + k) + 1 by omega] at h
    unfold iter at h ⊢
    cases h1 : sweep expNeg costs (u sol) (List.finRange N) cur with
    | error e => rw [h1] at h; exact absurd h (by simp)
    | ok cur' =>
      rw [h1] at h
      simp only at h ⊢
      cases h2 : iter expNeg costs u (n + k) (sol + 1) cur' with
      | error e => rw [h2] at h; exact absurd h (by simp)
      | ok l' =>
        rw [h2] at h
        obtain rfl := Except.ok.inj h
        rw [iter_prefix expNeg costs u n k (sol + 1) cur' l' h2]
        rfl

theorem mem_unique (costs : Fin N → Fin M → K) (l : List (Fin N → Fin M)) (p : (Fin N → Fin M) × K) :
    p ∈ uniqueRows (l.map fun a => (a, rowCost costs a)) ↔ p.1 ∈ l ∧ p.2 = rowCost costs p.1 := by
  obtain ⟨_, _, h3, h4⟩ := uniqueRows_spec (l.map fun a => (a, rowCost costs a))
  constructor
  · intro h
    obtain ⟨a, ha, rfl⟩ := List.mem_map.1 (h3 p h)
    exact ⟨ha, rfl⟩
  · rintro ⟨h1, h2⟩
    obtain ⟨q, hq, h⟩ := h4 (p.1, rowCost costs p.1) (List.mem_map.2 ⟨p.1, h1, rfl⟩)
    obtain ⟨a, ha, rfl⟩ := List.mem_map.1 (h3 q hq)
    simp only at h
    subst h
    rw [← h2] at hq
    exact hq

/-- **C154**: with the same random numbers, everything `gibbs` returns for `n` iterations it also returns, with the same cost, for
any larger number of iterations. -/
theorem C154_more_iterations (expNeg : K → K) (costs : Fin N → Fin M → K) (u : ℕ → Fin N → K) (n n' : ℕ) (hn : n ≤ n')
    (out out' : List ((Fin N → Fin M) × K)) (h : gibbs expNeg costs n u = .ok out)
    (h' : gibbs expNeg costs n' u = .ok out') : ∀ ac ∈ out, ac ∈ out' := by
  unfold gibbs at h h'
  split at h
  · exact nomatch h
  rename_i hn0
  rw [if_neg (by omega)] at h'
  split at h
  swap
  · exact nomatch h
  rename_i hM
  rw [dif_pos hM] at h'
  split at h'
  · exact nomatch h'
  rename_i l' hl'
  have h1 := iter_prefix expNeg costs u (n - 1) (n' - n) 1 _ l' (by rw [show n - 1 + (n' - n) = n' - 1 by omega]; exact hl')
  rw [h1] at h
  obtain rfl := Except.ok.inj h
  obtain rfl := Except.ok.inj h'
  intro ac hac
  rw [mem_unique] at hac ⊢
  refine ⟨?_, hac.2⟩
  rcases List.mem_cons.1 hac.1 with h | h
  · exact List.mem_cons.2 (.inl h)
  · exact List.mem_cons_of_mem _ (List.mem_of_mem_take h)

/-! ### Order of the rows -/

omit [IsStrictOrderedRing K] in
theorem colsOf_inj : Function.Injective (colsOf (N := N) (M := M)) := by
  intro a b h
  unfold colsOf at h
  funext i
  have := List.map_inj_left.1 h i (List.mem_finRange i)
  exact Fin.ext this

/-- **C154**: the rows of the result come in strictly increasing lexicographic order, so they are determined by their set. -/
theorem C154_sorted (expNeg : K → K) (costs : Fin N → Fin M → K) (u : ℕ → Fin N → K) (n : ℕ)
    (out : List ((Fin N → Fin M) × K)) (h : gibbs expNeg costs n u = .ok out) :
    out.Pairwise fun p q => (List.finRange N).map (fun i => (p.1 i).val) < (List.finRange N).map fun i => (q.1 i).val := by
  unfold gibbs at h
  split at h
  · exact nomatch h
  split at h
  swap
  · exact nomatch h
  split at h
  · exact nomatch h
  obtain rfl := Except.ok.inj h
  rename_i l _
  generalize ((fun i => _) :: l).map _ = L
  have h1 : (uniqueRows L).Pairwise fun p q => colsOf p.1 ≤ colsOf q.1 := by
    unfold uniqueRows
    have : Std.Total fun (p q : (Fin N → Fin M) × K) => colsOf p.1 ≤ colsOf q.1 := ⟨fun a b => le_total _ _⟩
    have : IsTrans ((Fin N → Fin M) × K) fun p q => colsOf p.1 ≤ colsOf q.1 := ⟨fun a b c => le_trans⟩
    exact List.pairwise_insertionSort _ _
  have h2 : (uniqueRows L).Pairwise fun p q => p.1 ≠ q.1 := List.pairwise_map.1 (uniqueRows_spec L).2.1
  exact (h1.and h2).imp fun ⟨h3, h4⟩ => lt_of_le_of_ne h3 fun h => h4 (colsOf_inj h)

/-! ### Shifting a row of the costs -/

theorem cumsum_mul (k : K) : ∀ (acc : K) (l : List K), cumsum (k * acc) (l.map (k * ·)) = (cumsum acc l).map (k * ·)
  | _, [] => rfl
  | acc, x :: l => by
    rw [List.map_cons, cumsum, cumsum, List.map_cons, ← mul_add, cumsum_mul k (acc + x) l]

theorem hist_mul {k : K} (hk : 0 < k) (ws : List K) : hist (ws.map (k * ·)) = hist ws := by
  unfold hist
  have h0 := cumsum_mul k 0 ws
  rw [mul_zero] at h0
  rw [h0, List.sum_map_mul_left, List.map_map, List.map_id']
  congr 1
  apply List.map_congr_left
  intro x _
  exact mul_div_mul_left _ _ hk.ne'

theorem newCol_mul {k : K} (hk : 0 < k) (w : Fin M → K) (u : K) : newCol (fun j => k * w j) u = newCol w u := by
  have hc : candidates (fun j => k * w j) = candidates w := by
    unfold candidates
    apply List.filter_congr
    intro j _
    simp [hk]
  have hm : (candidates w).map (fun j => k * w j) = ((candidates w).map w).map (k * ·) := by
    rw [List.map_map]; rfl
  unfold newCol
  rw [hc, hm, hist_mul hk]

theorem weights_shift {expNeg : K → K} (hadd : ∀ x y, expNeg (x + y) = expNeg x * expNeg y) (costs : Fin N → Fin M → K)
    (s : Fin N → K) (cur : Fin N → Fin M) (v : Fin N) :
    weights expNeg (fun i j => costs i j + s i) cur v = fun j => expNeg (s v) * weights expNeg costs cur v j := by
  funext j
  unfold weights
  split
  · rw [mul_zero]
  · rw [hadd, mul_comm]

theorem sweep_shift {expNeg : K → K} (hexp : ∀ x, 0 < expNeg x) (hadd : ∀ x y, expNeg (x + y) = expNeg x * expNeg y)
    (costs : Fin N → Fin M → K) (s : Fin N → K) (u : Fin N → K) : ∀ (vs : List (Fin N)) (cur : Fin N → Fin M),
    sweep expNeg (fun i j => costs i j + s i) u vs cur = sweep expNeg costs u vs cur
  | [], _ => rfl
  | v :: vs, cur => by
    unfold sweep
    rw [weights_shift hadd, newCol_mul (hexp _)]
    cases newCol (weights expNeg costs cur v) (u v) with
    | error e => rfl
    | ok j => exact sweep_shift hexp hadd costs s u vs _

theorem iter_shift {expNeg : K → K} (hexp : ∀ x, 0 < expNeg x) (hadd : ∀ x y, expNeg (x + y) = expNeg x * expNeg y)
    (costs : Fin N → Fin M → K) (s : Fin N → K) (u : ℕ → Fin N → K) : ∀ (n sol : ℕ) (cur : Fin N → Fin M),
    iter expNeg (fun i j => costs i j + s i) u n sol cur = iter expNeg costs u n sol cur
  | 0, _, _ => rfl
  | n + 1, sol, cur => by
    unfold iter
    rw [sweep_shift hexp hadd]
    cases sweep expNeg costs (u sol) (List.finRange N) cur with
    | error e => rfl
    | ok cur' =>
      simp only
      rw [iter_shift hexp hadd costs s u n (sol + 1) cur']

theorem firsts_map (S : K) : ∀ l : List ((Fin N → Fin M) × K),
    firsts (l.map fun p => (p.1, p.2 + S)) = (firsts l).map fun p => (p.1, p.2 + S)
  | [] => rfl
  | p :: l => by
    rw [List.map_cons, firsts, firsts, firsts_map S l, List.map_cons, List.filter_map]
    rfl

theorem uniqueRows_map (S : K) (l : List ((Fin N → Fin M) × K)) :
    uniqueRows (l.map fun p => (p.1, p.2 + S)) = (uniqueRows l).map fun p => (p.1, p.2 + S) := by
  unfold uniqueRows
  rw [firsts_map]
  exact (List.map_insertionSort (r := fun p q : (Fin N → Fin M) × K => colsOf p.1 ≤ colsOf q.1)
    (s := fun p q : (Fin N → Fin M) × K => colsOf p.1 ≤ colsOf q.1)
    (fun p => (p.1, p.2 + S)) (firsts l) fun a _ b _ => Iff.rfl).symm

/-- **C154**: adding a number `s i` to every cost of row `i` leaves the assignments that `gibbs` returns for the same random
numbers as they are, and adds the sum of the `s i` to their costs; exceptions are the same. -/
theorem C154_shift (expNeg : K → K) (hexp : ∀ x, 0 < expNeg x) (hadd : ∀ x y, expNeg (x + y) = expNeg x * expNeg y)
    (costs : Fin N → Fin M → K) (s : Fin N → K) (n : ℕ) (u : ℕ → Fin N → K) :
    (∀ e, gibbs expNeg costs n u = .error e → gibbs expNeg (fun i j => costs i j + s i) n u = .error e) ∧
    ∀ out, gibbs expNeg costs n u = .ok out →
      gibbs expNeg (fun i j => costs i j + s i) n u = .ok (out.map fun p => (p.1, p.2 + ∑ i, s i)) := by
  unfold gibbs
  split
  · exact ⟨fun e h => h, fun out h => nomatch h⟩
  split
  swap
  · exact ⟨fun e h => h, fun out h => nomatch h⟩
  rw [iter_shift hexp hadd]
  split
  · exact ⟨fun e h => h, fun out h => nomatch h⟩
  · refine ⟨fun e h => (nomatch h), fun out h => ?_⟩
    obtain rfl := Except.ok.inj h
    rw [← uniqueRows_map, List.map_map]
    congr 2
    apply List.map_congr_left
    intro a _
    simp only [Function.comp, rowCost, Finset.sum_add_distrib]

/-- Number of rows returned. -/
def numRows (r : Except GibErr (List ((Fin N → Fin M) × K))) : ℕ :=
  match r with
  | .ok l => l.length
  | .error _ => 0

/-- The premises of the theorems can be met: `gibbs` returns one row for one iteration and two for three (two rows, five
columns, equal weights). -/
example : numRows (gibbs (fun _ : ℚ => 1) (fun (i : Fin 2) (j : Fin 5) => ((i.val + j.val : ℕ) : ℚ)) 1 fun _ _ => 0) = 1 ∧
    numRows (gibbs (fun _ : ℚ => 1) (fun (i : Fin 2) (j : Fin 5) => ((i.val + j.val : ℕ) : ℚ)) 3 fun _ _ => 0) = 2 ∧
    (∀ x y : ℚ, (fun _ : ℚ => (1 : ℚ)) (x + y) = (fun _ : ℚ => (1 : ℚ)) x * (fun _ : ℚ => (1 : ℚ)) y) := by
  refine ⟨by decide +kernel, by decide +kernel, fun x y => (one_mul 1).symm⟩

end Gasur.Props.GibbsMore
