import Verif.Props.Assign
import Verif.Props.Murty
import Mathlib.Data.Finset.Sort
import Mathlib.Tactic.FieldSimp
import Mathlib.Tactic.Linarith

/-!
# Property C129: assignment results do not depend on how the cost matrix is laid out
-/

namespace Gasur.Props

open Gasur.Assign Gasur.Spec

variable {K : Type*} [CommRing K] [LinearOrder K] [IsStrictOrderedRing K] {r c r' c' : ℕ}

theorem assignCost_sum (D : Fin r → Fin c → WithTop K) (a : Fin r → Option (Fin c)) :
    assignCost D a = ∑ i, ∑ j, if a i = some j then (D i j).untopD 0 else 0 := by
  unfold assignCost
  refine Finset.sum_congr rfl fun i _ => ?_
  unfold rowCost
  cases h : a i with
  | none => simp
  | some j => simp

theorem assignSize_sum (a : Fin r → Option (Fin c)) :
    assignSize a = ∑ i, ∑ j, if a i = some j then 1 else 0 := by
  unfold assignSize
  rw [Finset.card_filter]
  refine Finset.sum_congr rfl fun i _ => ?_
  cases h : a i with
  | none => simp
  | some j => simp

/-- Every assignment of `D` has a counterpart for `D'` with the same number of pairs and a cost that is a function of
the cost and that number. -/
def Carries (D : Fin r → Fin c → WithTop K) (D' : Fin r' → Fin c' → WithTop K) (φ : ℕ → K → K) : Prop :=
  ∀ a, IsAssignment D a → ∃ b, IsAssignment D' b ∧ assignSize b = assignSize a ∧
    assignCost D' b = φ (assignSize a) (assignCost D a)

theorem layout_core {D : Fin r → Fin c → WithTop K} {D' : Fin r' → Fin c' → WithTop K} {φ ψ : ℕ → K → K}
    (h : Carries D D' φ) (h' : Carries D' D ψ) (hφ : ∀ n, Monotone (φ n)) (hinv : ∀ n x, φ n (ψ n x) = x)
    (hD : ∀ i j, 0 ≤ D i j) (hD' : ∀ i j, 0 ≤ D' i j) :
    ∃ a cost a' cost', assignOpt D = .ok (a, cost) ∧ assignOpt D' = .ok (a', cost') ∧ assignSize a' = assignSize a ∧
      cost' = φ (assignSize a) cost := by
  obtain ⟨a, h1, h2, h3⟩ := assignOpt_ok D hD
  obtain ⟨a', g1, g2, g3⟩ := assignOpt_ok D' hD'
  obtain ⟨b, b1, b2, b3⟩ := h a h2
  obtain ⟨b', c1, c2, c3⟩ := h' a' g2
  have e : assignSize a' = assignSize a := le_antisymm (c2 ▸ (h3 b' c1).1) (b2 ▸ (g3 b b1).1)
  refine ⟨a, _, a', _, h1, g1, e, le_antisymm ?_ ?_⟩
  · rw [← b3]
    exact (g3 b b1).2 (by rw [b2, e])
  · have := hφ (assignSize a) ((h3 b' c1).2 (by rw [c2, e]))
    rw [c3, e, hinv] at this
    exact this

/-- The counterpart of an assignment after reordering rows and columns. -/
def reorder (ρ : Equiv.Perm (Fin r)) (γ : Equiv.Perm (Fin c)) (a : Fin r → Option (Fin c)) : Fin r → Option (Fin c) :=
  fun i => (a (ρ i)).map γ.symm

theorem reorder_ok {D : Fin r → Fin c → WithTop K} (ρ : Equiv.Perm (Fin r)) (γ : Equiv.Perm (Fin c))
    {a : Fin r → Option (Fin c)} (ha : IsAssignment D a) : IsAssignment (fun i j => D (ρ i) (γ j)) (reorder ρ γ a) ∧
      assignSize (reorder ρ γ a) = assignSize a ∧ assignCost (fun i j => D (ρ i) (γ j)) (reorder ρ γ a) = assignCost D a := by
  unfold reorder
  refine ⟨⟨?_, ?_⟩, ?_, ?_⟩
  · intro i i' j h h'
    simp only [Option.map_eq_some_iff] at h h'
    obtain ⟨x, hx, rfl⟩ := h
    obtain ⟨y, hy, e⟩ := h'
    rw [γ.symm.injective e] at hy
    exact ρ.injective (ha.inj _ _ _ hx hy)
  · intro i j h
    simp only [Option.map_eq_some_iff] at h
    obtain ⟨x, hx, rfl⟩ := h
    simpa using ha.finite _ _ hx
  · unfold assignSize
    refine Finset.card_bij (fun i _ => ρ i) (by simp) (fun _ _ _ _ h => ρ.injective h) fun b hb => ⟨ρ.symm b, ?_, by simp⟩
    simpa using hb
  · unfold assignCost
    rw [← Equiv.sum_comp ρ (rowCost D a)]
    refine Finset.sum_congr rfl fun i _ => ?_
    unfold rowCost
    cases h : a (ρ i) with
    | none => simp [h]
    | some j => simp [h]

theorem carries_perm (D : Fin r → Fin c → WithTop K) (ρ : Equiv.Perm (Fin r)) (γ : Equiv.Perm (Fin c)) :
    Carries D (fun i j => D (ρ i) (γ j)) fun _ x => x := fun _ ha => ⟨_, reorder_ok ρ γ ha⟩

theorem reorder_symm (ρ : Equiv.Perm (Fin r)) (γ : Equiv.Perm (Fin c)) (a : Fin r → Option (Fin c)) :
    reorder ρ γ (reorder ρ.symm γ.symm a) = a := by
  funext i
  simp [reorder, Function.comp_def]

theorem carries_transpose (D : Fin r → Fin c → WithTop K) : Carries D (fun i j => D j i) fun _ x => x := by
  intro a ha
  classical
  have hb : ∃ b : Fin c → Option (Fin r), ∀ i j, b j = some i ↔ a i = some j := by
    refine ⟨fun j => if h : ∃ i, a i = some j then some h.choose else none, fun i j => ?_⟩
    dsimp only
    split
    · rename_i h
      rw [Option.some.injEq]
      exact ⟨fun e => e ▸ h.choose_spec, fun e => ha.inj _ _ j h.choose_spec e⟩
    · rename_i h
      exact ⟨fun e => (nomatch e), fun e => absurd ⟨i, e⟩ h⟩
  obtain ⟨b, hb⟩ := hb
  refine ⟨b, ⟨?_, ?_⟩, ?_, ?_⟩
  · intro i i' j h h'
    rw [hb] at h h'
    exact Option.some.inj (h.symm.trans h')
  · intro i j h
    exact ha.finite _ _ ((hb _ _).1 h)
  · rw [assignSize_sum, assignSize_sum, Finset.sum_comm]
    simp only [hb]
  · rw [assignCost_sum, assignCost_sum, Finset.sum_comm]
    simp only [hb]

/-- **C129, `assign_opt`, order.** Reordering the rows and columns of the cost matrix changes neither the number of
assigned pairs nor the cost. -/
theorem C129_order (D : Fin r → Fin c → WithTop K) (hD : ∀ i j, 0 ≤ D i j) (ρ : Equiv.Perm (Fin r))
    (γ : Equiv.Perm (Fin c)) :
    ∃ a cost a', assignOpt D = .ok (a, cost) ∧ assignOpt (fun i j => D (ρ i) (γ j)) = .ok (a', cost) ∧
      assignSize a' = assignSize a := by
  have h' := carries_perm (fun i j => D (ρ i) (γ j)) ρ.symm γ.symm
  simp only [Equiv.apply_symm_apply] at h'
  obtain ⟨a, cost, a', cost', h1, h2, h3, rfl⟩ := layout_core (carries_perm D ρ γ) h' (fun _ => monotone_id)
    (fun _ _ => rfl) hD (fun _ _ => hD _ _)
  exact ⟨a, cost', a', h1, h2, h3⟩

/-- **C129, `assign_opt`, transposition.** Assigning columns to rows instead of rows to columns gives the same number of
pairs and the same cost. -/
theorem C129_transpose (D : Fin r → Fin c → WithTop K) (hD : ∀ i j, 0 ≤ D i j) :
    ∃ a cost a', assignOpt D = .ok (a, cost) ∧ assignOpt (fun i j => D j i) = .ok (a', cost) ∧
      assignSize a' = assignSize a := by
  obtain ⟨a, cost, a', cost', h1, h2, h3, rfl⟩ := layout_core (carries_transpose D)
    (carries_transpose fun (i : Fin c) (j : Fin r) => D j i) (fun _ => monotone_id) (fun _ _ => rfl) hD (fun _ _ => hD _ _)
  exact ⟨a, cost', a', h1, h2, h3⟩

theorem carries_affine (D : Fin r → Fin c → WithTop K) (s t : K) :
    Carries D (fun i j => (D i j).map fun x => s * x + t) fun n x => s * x + n * t := by
  intro a ha
  have hrow : ∀ i, rowCost (fun i j => (D i j).map fun x => s * x + t) a i =
      s * rowCost D a i + if (a i).isSome = true then t else 0 := by
    intro i
    unfold rowCost
    cases h : a i with
    | none => simp
    | some j =>
      have := ha.finite i j h
      cases hd : D i j with
      | top => exact absurd hd this
      | coe x =>
        simp only [hd, Option.isSome_some, if_true, WithTop.untopD_coe]
        rfl
  refine ⟨a, ⟨ha.inj, fun i j h e => ha.finite i j h ?_⟩, rfl, ?_⟩
  · cases hd : D i j with
    | top => rfl
    | coe x => rw [hd] at e; exact (nomatch e)
  · unfold assignCost assignSize
    simp only [hrow]
    rw [Finset.sum_add_distrib, ← Finset.mul_sum, Finset.card_filter, Nat.cast_sum, Finset.sum_mul]
    congr 1
    refine Finset.sum_congr rfl fun i _ => ?_
    split <;> simp

/-- **C129, `assign_opt`, units.** Over a field: changing the unit (a positive factor) and the zero (a constant) of all
costs leaves the number of pairs and changes the cost accordingly. -/
theorem C129_units {K : Type*} [Field K] [LinearOrder K] [IsStrictOrderedRing K] (D : Fin r → Fin c → WithTop K)
    (hD : ∀ i j, 0 ≤ D i j) (s t : K) (hs : 0 < s) (hD' : ∀ i j, 0 ≤ (D i j).map fun x => s * x + t) :
    ∃ a cost a', assignOpt D = .ok (a, cost) ∧
      assignOpt (fun i j => (D i j).map fun x => s * x + t) = .ok (a', s * cost + assignSize a * t) ∧
      assignSize a' = assignSize a := by
  have h' := carries_affine (fun i j => (D i j).map fun x => s * x + t) s⁻¹ (-(s⁻¹ * t))
  have e : (fun i j => ((D i j).map fun x => s * x + t).map fun x => s⁻¹ * x + -(s⁻¹ * t)) = D := by
    funext i j
    cases D i j with
    | top => rfl
    | coe x =>
      show ((s⁻¹ * (s * x + t) + -(s⁻¹ * t) : K) : WithTop K) = x
      congr 1
      field_simp
      ring
  rw [e] at h'
  obtain ⟨a, cost, a', cost', h1, h2, h3, rfl⟩ := layout_core (carries_affine D s t) h'
    (fun n x y h => by
      have := mul_le_mul_of_nonneg_left h hs.le
      linarith)
    (fun n x => by field_simp; ring) hD hD'
  exact ⟨a, cost, a', h1, h2, h3⟩

/-! ### `murty_m_best` -/

open Gasur.Murty in
/-- **C129, all assignments.** The costs returned by `murty_m_best` are the `m` smallest of the costs of all assignments
of the matrix, in order and with multiplicity: `L` lists the costs of all assignments in increasing order. -/
theorem C129_murty_costs {n : ℕ} (C : Fin r → Fin n → WithTop K) (m : ℕ) (hr : 0 < r)
    [DecidablePred fun b : Fin r → Option (Fin n) => IsAssignment C b] (L : List K) (hL : L.Pairwise (· ≤ ·))
    (hperm : L.Perm ((Finset.univ.filter fun b => IsAssignment C b).toList.map (assignCost C))) :
    ∃ rows, murty C m = .ok rows ∧ rows.map (fun p => p.2) = L.take m := by
  obtain ⟨out, h1, h2, h3, h4, h5, h6⟩ := C04_murty_m_best C m hr
  refine ⟨_, h1, ?_⟩
  rw [List.map_map]
  have hcard : Nat.card {b : Fin r → Option (Fin n) // IsAssignment C b} =
      (Finset.univ.filter fun b => IsAssignment C b).card := by
    rw [Nat.card_eq_fintype_card, Fintype.card_subtype]
  -- the assignments that were not returned
  set all := (Finset.univ.filter fun b => IsAssignment C b).toList with hall
  have hmem : ∀ b, b ∈ all ↔ IsAssignment C b := fun b => by simp [hall]
  have hnd : all.Nodup := Finset.nodup_toList _
  set rest := all.filter fun b => decide (b ∉ out.map Prod.fst) with hrest
  have hp : all.Perm (out.map Prod.fst ++ rest) := by
    rw [List.perm_ext_iff_of_nodup hnd]
    · intro b
      rw [List.mem_append, hrest, List.mem_filter, hmem]
      constructor
      · intro hb
        by_cases hc : b ∈ out.map Prod.fst
        · exact .inl hc
        · exact .inr ⟨hb, by simpa using hc⟩
      · rintro (hb | hb)
        · obtain ⟨p, hp, rfl⟩ := List.mem_map.1 hb
          exact (h2 p hp).1
        · exact hb.1
    · rw [List.nodup_append]
      refine ⟨h4, hnd.filter _, ?_⟩
      rintro a ha b hb rfl
      rw [hrest, List.mem_filter] at hb
      simp only [decide_eq_true_eq] at hb
      exact hb.2 ha
  have hcost : (out.map Prod.fst).map (assignCost C) = out.map Prod.snd := by
    rw [List.map_map]
    exact List.map_congr_left fun p hp => (h2 p hp).2.symm
  have hL2 : L = out.map Prod.snd ++ (rest.map (assignCost C)).insertionSort (· ≤ ·) := by
    refine List.Perm.eq_of_pairwise (le := (· ≤ ·)) (fun a b _ _ h h' => le_antisymm h h') hL ?_ ?_
    · rw [List.pairwise_append]
      refine ⟨List.pairwise_map.2 h5, List.pairwise_insertionSort _ _, ?_⟩
      intro x hx y hy
      obtain ⟨p, hp, rfl⟩ := List.mem_map.1 hx
      obtain ⟨b, hb, rfl⟩ := List.mem_map.1 ((List.mem_insertionSort _).1 hy)
      rw [hrest, List.mem_filter, hmem] at hb
      exact h6 b hb.1 (by simpa using hb.2) p hp
    · refine hperm.trans ?_
      refine (hp.map _).trans ?_
      rw [List.map_append, hcost]
      exact List.Perm.append_left _ (List.perm_insertionSort _ _).symm
  have hlen : (out.map Prod.snd).length = min m L.length := by
    rw [List.length_map, h3, hcard, hperm.length_eq, List.length_map, hall, Finset.length_toList]
  show out.map (fun p => p.2) = L.take m
  rcases le_total m L.length with hm | hm
  · rw [min_eq_left hm] at hlen
    rw [hL2, ← hlen, List.take_append_of_le_length (by simp), List.take_of_length_le (by simp)]
  · rw [min_eq_right hm] at hlen
    rw [List.take_of_length_le hm]
    have : (rest.map (assignCost C)).insertionSort (· ≤ ·) = [] := by
      have hl := congrArg List.length hL2
      rw [List.length_append, hlen] at hl
      exact List.length_eq_zero_iff.1 (by omega)
    rw [this, List.append_nil] at hL2
    exact hL2.symm

/-- Two lists of all assignments, carried to each other by a reordering, have the same costs. -/
theorem perm_costs {n : ℕ} (C : Fin r → Fin n → WithTop K) (ρ : Equiv.Perm (Fin r)) (γ : Equiv.Perm (Fin n))
    [DecidablePred fun b : Fin r → Option (Fin n) => IsAssignment C b]
    [DecidablePred fun b : Fin r → Option (Fin n) => IsAssignment (fun i j => C (ρ i) (γ j)) b] :
    ((Finset.univ.filter fun b => IsAssignment (fun i j => C (ρ i) (γ j)) b).toList.map
      (assignCost fun i j => C (ρ i) (γ j))).Perm
    ((Finset.univ.filter fun b => IsAssignment C b).toList.map (assignCost C)) := by
  refine List.Perm.symm ?_
  rw [← Multiset.coe_eq_coe, ← Multiset.map_coe, ← Multiset.map_coe, Finset.coe_toList, Finset.coe_toList]
  refine Multiset.map_eq_map_of_bij_of_nodup _ _ (Finset.nodup _) (Finset.nodup _) (fun b _ => reorder ρ γ b) ?_ ?_ ?_ ?_
  · intro b hb
    have hb : IsAssignment C b := by simpa using hb
    simpa using (reorder_ok ρ γ hb).1
  · intro a _ b _ h
    have := congrArg (reorder ρ.symm γ.symm) h
    have e := fun x => reorder_symm ρ.symm γ.symm x
    simp only [Equiv.symm_symm] at e
    rwa [e, e] at this
  · intro b hb
    have hb : IsAssignment (fun i j => C (ρ i) (γ j)) b := by simpa using hb
    refine ⟨reorder ρ.symm γ.symm b, ?_, reorder_symm ρ γ b⟩
    have := (reorder_ok ρ.symm γ.symm hb).1
    simpa using this
  · intro b hb
    have hb : IsAssignment C b := by simpa using hb
    exact (reorder_ok ρ γ hb).2.2.symm

open Gasur.Murty in
/-- **C129, `murty_m_best`, order.** Reordering rows and columns does not change the returned costs. -/
theorem C129_murty_order {n : ℕ} (C : Fin r → Fin n → WithTop K) (m : ℕ) (hr : 0 < r) (ρ : Equiv.Perm (Fin r))
    (γ : Equiv.Perm (Fin n)) :
    ∃ rows rows', murty C m = .ok rows ∧ murty (fun i j => C (ρ i) (γ j)) m = .ok rows' ∧
      rows'.map (fun p => p.2) = rows.map (fun p => p.2) := by
  classical
  set L := ((Finset.univ.filter fun b => IsAssignment C b).toList.map (assignCost C)).insertionSort (· ≤ ·) with hL
  obtain ⟨rows, h1, h2⟩ := C129_murty_costs C m hr L (List.pairwise_insertionSort _ _) (List.perm_insertionSort _ _)
  obtain ⟨rows', h1', h2'⟩ := C129_murty_costs (fun i j => C (ρ i) (γ j)) m hr L (List.pairwise_insertionSort _ _)
    ((List.perm_insertionSort _ _).trans (perm_costs C ρ γ).symm)
  exact ⟨rows, rows', h1, h1', by rw [h2, h2']⟩

/-! Non-vacuity: the matrix of C04 with its rows exchanged, and a 2×1 matrix. -/

example : ∃ rows rows', Murty.murty exC 3 = .ok rows ∧
    Murty.murty (fun i j => exC (Equiv.swap 0 1 i) (Equiv.refl _ j)) 3 = .ok rows' ∧
      rows'.map (fun p => p.2) = rows.map (fun p => p.2) ∧ rows.length = 3 := by
  obtain ⟨rows, rows', h1, h2, h3⟩ := C129_murty_order exC 3 (by decide) (Equiv.swap 0 1) (Equiv.refl _)
  refine ⟨rows, rows', h1, h2, h3, ?_⟩
  have : (Murty.murty exC 3).toOption.map List.length = some 3 := by decide +kernel
  rw [h1] at this
  exact Option.some.inj this

example : (assignOpt (![![3], ![2]] : Fin 2 → Fin 1 → WithTop ℤ)).toOption.map (fun p => p.2) = some 2 ∧
    (assignOpt (![![3, 2]] : Fin 1 → Fin 2 → WithTop ℤ)).toOption.map (fun p => p.2) = some 2 := by
  decide +kernel

end Gasur.Props
