import Verif.Proofs.KShortest
import Mathlib.Data.Finset.Powerset

/-!
# Property C08: `k_shortest`

The claim is false of this code (the deviation path is assembled with `sub_P[0:-2]` instead of
`sub_P[0:-1]`, graphs.py:148, and vertices are removed one short, graphs.py:123). What holds is the
partial theorem below.
-/

set_option linter.unusedSectionVars false

namespace Gasur.Props

open Gasur.KShortest

variable {K : Type*} [CommRing K] [LinearOrder K] [IsStrictOrderedRing K] {n : ℕ}

/-- Cost of a subset, up to the `eps` that the code adds to every path. -/
def subsetCost (lc : Fin n → K) (T : Finset (Fin n)) : K := ∑ i ∈ T, lc i

/-- `out` is the list of the `k` cheapest subsets: `k` (or all) distinct subsets, in cost order, each with its own
cost, none of the others cheaper. -/
def CheapestK (lc : Fin n → K) (eps : K) (k : ℕ) (out : List (List (Fin n) × WithTop K)) : Prop :=
    out.length = min k (2 ^ n) ∧
    (∀ p ∈ out, p.2 = ((subsetCost lc p.1.toFinset + eps : K) : WithTop K)) ∧
    (out.map fun p => p.1.toFinset).Nodup ∧
    out.Pairwise (fun p q => p.2 ≤ q.2) ∧
    ∀ T : Finset (Fin n), T ∉ out.map (fun p => p.1.toFinset) →
      ∀ p ∈ out, p.2 ≤ ((subsetCost lc T + eps : K) : WithTop K)

/-- The full claim C08 for one input. -/
def C08Claim (lc : Fin n → K) (σ : Equiv.Perm (Fin n)) (eps : K) (k : ℕ) : Prop :=
  ∃ out : List (List (Fin n) × WithTop K), kShortest lc σ eps k = .ok out ∧ CheapestK lc eps k out

/-- What `k_shortest([20, 10], 5)` returns (sorted input, `eps = 1` in this integer instance): a fourth
path `[1]` with the cost of `{0, 1}`, then the empty set a second time, although only four subsets
exist. -/
theorem C08_witness :
    (kShortest (n := 2) (K := ℤ) (fun i => if i = 0 then 20 else 10) (Equiv.refl _) 1 5).toOption =
      some [([], 1), ([1], 11), ([0], 21), ([1], 31), ([], 1)] := by
  decide +kernel

/-- **C08 is false of this code**, already for two elements with distinct positive costs; here `k = 5`. -/
theorem C08_refuted :
    ¬ C08Claim (n := 2) (K := ℤ) (fun i => if i = 0 then 20 else 10) (Equiv.refl _) 1 5 := by
  rintro ⟨out, h, hlen, _⟩
  have hw := C08_witness
  rw [h] at hw
  simp only [Except.toOption, Option.some.injEq] at hw
  rw [hw] at hlen
  simp at hlen

/-- **C08 is false of this code even when only existing subsets are requested** (`k = 4`): the last
path is reported with a cost that is not its own, and the subset `{0, 1}` is never returned. -/
theorem C08_refuted_cost : ∃ out : List (List (Fin 2) × WithTop ℤ),
    kShortest (n := 2) (K := ℤ) (fun i => if i = 0 then 20 else 10) (Equiv.refl _) 1 4 = .ok out ∧
    out.length = 4 ∧
    (∃ p ∈ out, p.2 ≠ ((subsetCost (n := 2) (fun i => if i = 0 then (20 : ℤ) else 10)
      p.1.toFinset + 1 : ℤ) : WithTop ℤ)) ∧
    ({0, 1} : Finset (Fin 2)) ∉ out.map fun p => p.1.toFinset := by
  refine ⟨[([], 1), ([1], 11), ([0], 21), ([1], 31)], ?_, rfl, ⟨([1], 31), by simp, ?_⟩, ?_⟩
  · have : (kShortest (n := 2) (K := ℤ) (fun i => if i = 0 then 20 else 10) (Equiv.refl _) 1
        4).toOption = some [([], 1), ([1], 11), ([0], 21), ([1], 31)] := by decide +kernel
    cases hk : kShortest (n := 2) (K := ℤ) (fun i => if i = 0 then 20 else 10) (Equiv.refl _) 1 4 with
    | error e => rw [hk] at this; simp [Except.toOption] at this
    | ok o => rw [hk] at this; simp only [Except.toOption, Option.some.injEq] at this; rw [this]
  · decide +kernel
  · decide +kernel

/-- **C08, partial.** For every cost vector without entries between 0 and `eps`, every order of ties in
the sort and every `k`: `k_shortest` returns without error, at most `k` paths (none for `k = 0`, at least
one otherwise); every path is a list of distinct element indices (in range by type) with a finite cost; the
first path is a
cheapest subset, reported with its own cost. *Missing:* the later paths (false, see `C08_refuted`). -/
theorem C08_k_shortest_partial (lc : Fin n → K) (σ : Equiv.Perm (Fin n)) (eps : K) (heps : 0 < eps)
    (hnt : ∀ i, lc i = 0 ∨ eps ≤ |lc i|) (k : ℕ) :
    (k = 0 → kShortest lc σ eps k = .ok []) ∧
    (0 < k → ∃ p c rest, kShortest lc σ eps k = .ok ((p, c) :: rest) ∧
      ((p, c) :: rest).length ≤ k ∧
      (∀ q ∈ (p, c) :: rest, q.1.Nodup ∧ q.2 ≠ ⊤) ∧
      c = ((subsetCost lc p.toFinset + eps : K) : WithTop K) ∧
      ∀ T : Finset (Fin n), subsetCost lc p.toFinset ≤ subsetCost lc T) := by
  constructor
  · rintro rfl
    simp [kShortest]
  · intro hk
    obtain ⟨p, c, rest, h1, h2, h3, h4, h5⟩ := kShortest_spec lc σ heps hnt k hk
    have hs : subsetCost lc p.toFinset = (p.map lc).sum := by
      unfold subsetCost
      exact List.sum_toFinset lc (h3 (p, c) List.mem_cons_self).1
    refine ⟨p, c, rest, h1, Nat.succ_le_of_lt h2, h3, by rw [hs]; exact h4, ?_⟩
    intro T
    have := h5 T
    rw [h4, WithTop.coe_le_coe] at this
    rw [hs]
    unfold subsetCost
    exact le_of_add_le_add_right this

/-! Non-vacuity of the partial theorem: three elements, one of them negative. -/

example : ∀ i : Fin 3, (![5, -20, -50] : Fin 3 → ℤ) i = 0 ∨ 1 ≤ |(![5, -20, -50] : Fin 3 → ℤ) i| := by
  decide

example : (kShortest (n := 3) (K := ℤ) ![5, -20, -50] (Equiv.refl _) 1 2).toOption =
    some [([1, 2], ((-69 : ℤ) : WithTop ℤ)), ([0, 1, 2], ((-64 : ℤ) : WithTop ℤ))] := by
  decide +kernel

end Gasur.Props
