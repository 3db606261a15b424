import Verif.Proofs.AssignMain
import Mathlib.Algebra.Order.Ring.Int
import Mathlib.Data.Fin.VecNotation

/-!
# Properties C01, C02, C03: `assign_opt`

`K` is any linearly ordered commutative ring (ℤ, ℚ, ℝ, …); `⊤` is `numpy.inf`; matrices have any
shape, including empty ones.
-/

set_option linter.unusedSectionVars false

namespace Gasur.Props

open Gasur.Assign Gasur.Spec

variable {K : Type*} [CommRing K] [LinearOrder K] [IsStrictOrderedRing K] {r c : ℕ}

/-- **C01.** On every matrix of non-negative or infinite entries, `assign_opt` returns an assignment
of finite entries, with no column used twice, with as many rows assigned as possible and with least
total cost among the assignments of that many rows. -/
theorem C01_assign_opt_optimal (D : Fin r → Fin c → WithTop K) (hD : ∀ i j, 0 ≤ D i j) :
    ∃ a cost, assignOpt D = .ok (a, cost) ∧
      (∀ i i' j, a i = some j → a i' = some j → i = i') ∧
      (∀ i j, a i = some j → D i j ≠ ⊤) ∧
      ∀ b : Fin r → Option (Fin c),
        (∀ i i' j, b i = some j → b i' = some j → i = i') → (∀ i j, b i = some j → D i j ≠ ⊤) →
        assignSize b ≤ assignSize a ∧
        (assignSize b = assignSize a → assignCost D a ≤ assignCost D b) := by
  obtain ⟨a, h1, h2, h3⟩ := assignOpt_ok D hD
  exact ⟨a, _, h1, h2.inj, h2.finite, fun b hb hb' => h3 b ⟨hb, hb'⟩⟩

/-- **C01, square/rectangular finite case.** If all entries are finite, as many rows as the shorter
side are assigned. -/
theorem C01_assign_opt_full (D : Fin r → Fin c → WithTop K) (hD : ∀ i j, 0 ≤ D i j)
    (hfin : ∀ i j, D i j ≠ ⊤) :
    ∃ a cost, assignOpt D = .ok (a, cost) ∧ assignSize a = min r c := by
  obtain ⟨a, h1, h2, h3⟩ := assignOpt_ok D hD
  refine ⟨a, _, h1, ?_⟩
  have hmd : minDim r c = min r c := by
    unfold minDim
    split
    · rw [min_eq_left (by assumption)]
    · rw [min_eq_right (by omega)]
  apply le_antisymm
  · rw [← pairs_card, ← hmd]; exact (pairs_match h2).card_le
  · obtain ⟨M, _, hM, hMc⟩ := IsMatch.extend (r := r) (c := c) (minDim r c) ∅
      ⟨by simp, by simp⟩ (by simp)
    classical
    let b : Fin r → Option (Fin c) := fun i => (List.finRange c).find? fun j => decide ((i, j) ∈ M)
    have hb : ∀ i j, b i = some j → (i, j) ∈ M := by
      intro i j h
      have := find_finRange_some (p := fun j => decide ((i, j) ∈ M)) h
      simpa using this
    have hb2 : ∀ i j, (i, j) ∈ M → b i = some j := by
      intro i j h
      obtain ⟨k, hk⟩ := find_finRange_exists (p := fun j => decide ((i, j) ∈ M)) ⟨j, by simpa using h⟩
      have h4 := hM.row _ (hb i k hk) _ h rfl
      have h5 : k = j := (Prod.ext_iff.1 h4).2
      rw [show b i = some k from hk, h5]
    have hba : IsAssignment D b := by
      refine ⟨?_, fun i j _ => hfin i j⟩
      intro i i' j hi hi'
      exact (Prod.ext_iff.1 (hM.col _ (hb i j hi) _ (hb i' j hi') rfl)).1
    have := (h3 b hba).1
    rw [← pairs_card b] at this
    have hpb : pairs b = M := by
      ext ⟨i, j⟩
      rw [mem_pairs]
      exact ⟨hb i j, hb2 i j⟩
    rw [hpb, hMc, hmd] at this
    exact this

/-- **C02.** `assign_opt` raises the "non-negative" error exactly when some entry is negative, and
otherwise returns: the recursion never exceeds `(min(r,c)+1)·(2r+2)` passes (`fuel`), never indexes
out of range and never adds an infinite dual step. -/
theorem C02_assign_opt_total (D : Fin r → Fin c → WithTop K) :
    (assignOpt D = .error .negative ↔ ∃ i j, D i j < 0) ∧
    (∀ e, assignOpt D = .error e → e = .negative) := by
  by_cases h : ∃ i j, D i j < 0
  · have := assignOpt_negative D h
    refine ⟨⟨fun _ => h, fun _ => this⟩, ?_⟩
    intro e he
    rw [this] at he
    simpa using he.symm
  · have hD : ∀ i j, 0 ≤ D i j := by
      push Not at h; exact h
    obtain ⟨a, h1, _⟩ := assignOpt_ok D hD
    rw [h1]
    exact ⟨⟨by simp, fun hh => absurd hh h⟩, by simp⟩

/-- **C02, fuel is not a restriction.** Giving the recursion more passes never changes a result. -/
theorem C02_fuel_irrelevant (n m : ℕ) (s s' : St K r c) (h : solve n s = .ok s') :
    solve (n + m) s = .ok s' := by
  induction n generalizing s with
  | zero => simp [solve] at h
  | succ n ih =>
    rw [show n + 1 + m = (n + m) + 1 by omega]
    unfold solve at h ⊢
    cases hsw : sweep (List.finRange c) s false with
    | augment t i j =>
      simp only [hsw] at h ⊢
      cases h4 : step4 t i j with
      | error e => simp [h4] at h
      | ok t' =>
        simp only [h4] at h ⊢
        by_cases hd : step2bDone (step2a t') = true
        · rwa [if_pos hd] at h ⊢
        · rw [if_neg hd] at h ⊢; exact ih _ h
    | swept t z =>
      simp only [hsw] at h ⊢
      cases z with
      | true => exact ih _ h
      | false =>
        cases h5 : step5 t with
        | error e => simp [h5] at h
        | ok t' => simp only [h5] at h ⊢; exact ih _ h

/-- **C03.** The returned cost is the sum of the entries used by the returned assignment (unassigned
rows count zero). -/
theorem C03_assign_opt_cost (D : Fin r → Fin c → WithTop K) (a : Fin r → Option (Fin c)) (cost : K)
    (h : assignOpt D = .ok (a, cost)) : cost = assignCost D a := by
  by_cases hn : ∃ i j, D i j < 0
  · rw [assignOpt_negative D hn] at h; simp at h
  · have hD : ∀ i j, 0 ≤ D i j := by push Not at hn; exact hn
    obtain ⟨a', h1, _⟩ := assignOpt_ok D hD
    rw [h1] at h
    simp only [Except.ok.injEq, Prod.mk.injEq] at h
    rw [← h.1, ← h.2]

/-- **C03, nothing finite.** A matrix with no finite entry (in particular an empty one) gives the
empty assignment at cost 0. -/
theorem C03_assign_opt_all_inf (D : Fin r → Fin c → WithTop K) (h : ∀ i j, D i j = ⊤) :
    assignOpt D = .ok (fun _ => none, 0) := by
  obtain ⟨a, h1, h2, _⟩ := assignOpt_ok D (by intro i j; rw [h i j]; exact le_top)
  have : a = fun _ => none := by
    funext i
    cases hh : a i with
    | none => rfl
    | some j => exact absurd (h i j) (h2.finite i j hh)
  rw [h1, this]
  simp [assignCost, rowCost]

/-! Non-vacuity: a 3×4 integer matrix with infinities meets the hypotheses, and the model computes
its optimum (rows 0, 1 assigned; row 2 has only column 1; total 2 + 1 + 1). -/

/-- example matrix -/
def exD : Fin 3 → Fin 4 → WithTop ℤ := ![![3, 1, ⊤, 2], ![2, 1, 1, 1], ![⊤, 1, ⊤, ⊤]]

example : ∀ i j, 0 ≤ exD i j := by decide

example : (assignOpt exD).toOption.map (fun p => ((List.finRange 3).map p.1, p.2)) =
    some ([some 3, some 2, some 1], 4) := by decide +kernel

/-- a matrix in which not all rows can be assigned -/
def exD2 : Fin 3 → Fin 2 → WithTop ℤ := ![![⊤, 5], ![⊤, 2], ![⊤, 7]]

example : ∀ i j, 0 ≤ exD2 i j := by decide

example : (assignOpt exD2).toOption.map (fun p => ((List.finRange 3).map p.1, p.2)) =
    some ([none, some 1, none], 2) := by decide +kernel

example : ∃ i j, (![![1, -2]] : Fin 1 → Fin 2 → WithTop ℤ) i j < 0 := ⟨0, 1, by decide⟩

end Gasur.Props
