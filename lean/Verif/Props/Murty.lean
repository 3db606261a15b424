import Verif.Proofs.MurtyMain
import Mathlib.Algebra.Order.Ring.Int
import Mathlib.Data.Fin.VecNotation
import Mathlib.SetTheory.Cardinal.Finite
import Mathlib.Data.Fintype.Pi
import Mathlib.Data.Fintype.Option

/-!
# Properties C04, C05: `murty_m_best`

`IsAssignment C b`: `b` sends some rows to distinct columns with finite cost (`Verif/Spec/Assign.lean`);
`enc b` is the Python row (0 = unassigned, otherwise column + 1).
-/

set_option linter.unusedSectionVars false

namespace Gasur.Props

open Gasur.Murty Gasur.Spec

variable {K : Type*} [CommRing K] [LinearOrder K] [IsStrictOrderedRing K] {r n : ℕ}

/-- **C04.** For every cost matrix with at least one row and every `m`, `murty_m_best` returns
`min(m, number of assignments)` pairwise distinct assignments in non-decreasing cost order, and every
assignment that is not returned costs at least as much as every returned one. -/
theorem C04_murty_m_best (C : Fin r → Fin n → WithTop K) (m : ℕ) (hr : 0 < r) :
    ∃ out : List ((Fin r → Option (Fin n)) × K),
      murty C m = .ok (out.map fun p => (enc p.1, p.2)) ∧
      (∀ p ∈ out, IsAssignment C p.1 ∧ p.2 = assignCost C p.1) ∧
      out.length = min m (Nat.card {b : Fin r → Option (Fin n) // IsAssignment C b}) ∧
      (out.map Prod.fst).Nodup ∧
      out.Pairwise (fun p q => p.2 ≤ q.2) ∧
      ∀ b, IsAssignment C b → b ∉ out.map Prod.fst → ∀ p ∈ out, p.2 ≤ assignCost C b := by
  obtain ⟨out, h1, h2, h3, h4, h5, h6⟩ := murty_spec C m hr
  refine ⟨out, h1, h2, ?_, h3, h4, fun b hb hn => (h6 b hb hn).2⟩
  classical
  have hcard : Nat.card {b : Fin r → Option (Fin n) // IsAssignment C b} =
      (Finset.univ.filter fun b => IsAssignment C b).card := by
    rw [Nat.card_eq_fintype_card, Fintype.card_subtype]
  have hsub : (out.map Prod.fst).toFinset ⊆ Finset.univ.filter fun b => IsAssignment C b := by
    intro b hb
    rw [List.mem_toFinset, List.mem_map] at hb
    obtain ⟨p, hp, rfl⟩ := hb
    simp only [Finset.mem_filter, Finset.mem_univ, true_and]
    exact (h2 p hp).1
  have hlen : (out.map Prod.fst).toFinset.card = out.length := by
    rw [List.toFinset_card_of_nodup h3, List.length_map]
  have hle := Finset.card_le_card hsub
  rw [hlen, ← hcard] at hle
  by_cases hall : ∀ b, IsAssignment C b → b ∈ out.map Prod.fst
  · have : (Finset.univ.filter fun b => IsAssignment C b) ⊆ (out.map Prod.fst).toFinset := by
      intro b hb
      rw [List.mem_toFinset]
      exact hall b (by simpa using hb)
    have hge := Finset.card_le_card this
    rw [hlen, ← hcard] at hge
    omega
  · push Not at hall
    obtain ⟨b, hb, hbn⟩ := hall
    have := (h6 b hb hbn).1
    omega

/-- **C05.** Every returned row has entries in `0..n`, uses no column twice, uses finite entries only,
and its reported cost is the sum of the original entries it uses. -/
theorem C05_murty_rows (C : Fin r → Fin n → WithTop K) (m : ℕ) (hr : 0 < r)
    (rows : List ((Fin r → ℕ) × K)) (h : murty C m = .ok rows) (p) (hp : p ∈ rows) :
    (∀ i, p.1 i ≤ n) ∧
    (∀ i i', p.1 i = p.1 i' → p.1 i ≠ 0 → i = i') ∧
    (∀ i (j : Fin n), p.1 i = j.val + 1 → C i j ≠ ⊤) ∧
    p.2 = ∑ i, ∑ j : Fin n, if p.1 i = j.val + 1 then (C i j).untopD 0 else 0 := by
  obtain ⟨out, h1, h2, _⟩ := murty_spec C m hr
  rw [h1] at h
  simp only [Except.ok.injEq] at h
  rw [← h] at hp
  obtain ⟨q, hq, rfl⟩ := List.mem_map.1 hp
  obtain ⟨ha, hc⟩ := h2 q hq
  have hnone : ∀ i, q.1 i = none → enc q.1 i = 0 := fun i hi => by simp [enc, hi]
  have hsome : ∀ i j, q.1 i = some j → enc q.1 i = j.val + 1 := fun i j hi => by simp [enc, hi]
  refine ⟨?_, ?_, ?_, ?_⟩
  · intro i
    simp only
    cases hi : q.1 i with
    | none => rw [hnone i hi]; omega
    | some j => rw [hsome i j hi]; have := j.isLt; omega
  · intro i i' he hne
    simp only at he hne
    cases hi : q.1 i with
    | none => exact absurd (hnone i hi) hne
    | some j =>
      cases hi' : q.1 i' with
      | none => rw [hsome i j hi, hnone i' hi'] at he; omega
      | some j' =>
        rw [hsome i j hi, hsome i' j' hi'] at he
        have : j = j' := Fin.ext (by omega)
        subst this
        exact ha.inj i i' j hi hi'
  · intro i j he
    simp only at he
    cases hi : q.1 i with
    | none => rw [hnone i hi] at he; omega
    | some j' =>
      rw [hsome i j' hi] at he
      have : j' = j := Fin.ext (by omega)
      subst this
      exact ha.finite i j' hi
  · simp only
    rw [hc]
    unfold assignCost
    apply Finset.sum_congr rfl
    intro i _
    unfold rowCost
    cases hi : q.1 i with
    | none =>
      symm
      apply Finset.sum_eq_zero
      intro j _
      rw [if_neg (by rw [hnone i hi]; omega)]
    | some j' =>
      rw [Finset.sum_eq_single j']
      · rw [if_pos (hsome i j' hi)]
      · intro j _ hj
        rw [if_neg]
        rw [hsome i j' hi]
        intro he
        exact hj (Fin.ext (by omega))
      · intro hcon; exact absurd (Finset.mem_univ _) hcon

/-- **C04, edge cases.** `m = 0` gives no assignment; a matrix without rows raises (numpy's `min` of
an empty array) for every other `m`. -/
theorem C04_murty_edge (C : Fin r → Fin n → WithTop K) :
    murty C 0 = .ok [] ∧ (r = 0 → ∀ m, m ≠ 0 → murty C m = .error .empty) := by
  refine ⟨by simp [murty], ?_⟩
  intro hr m hm
  subst hr
  unfold murty
  rw [if_neg hm]
  rfl

/-! Non-vacuity: a 2×2 integer matrix with a negative and an infinite entry. -/

/-- example matrix -/
def exC : Fin 2 → Fin 2 → WithTop ℤ := ![![((-3 : ℤ) : WithTop ℤ), 1], ![2, ⊤]]

example : (murty exC 3).toOption.map (fun l => l.map fun p => ((List.finRange 2).map p.1, p.2)) =
    some [([1, 0], -3), ([0, 0], 0), ([2, 0], 1)] := by decide +kernel

example : (murty exC 10).toOption.map (fun l => l.map fun p => ((List.finRange 2).map p.1, p.2)) =
    some [([1, 0], -3), ([0, 0], 0), ([2, 0], 1), ([0, 1], 2), ([2, 1], 3)] := by decide +kernel

example : IsAssignment exC ![some 1, some 0] := ⟨by decide, by decide⟩

end Gasur.Props
