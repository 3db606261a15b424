import Verif.Props.Murty

/-!
# Property C173: the costs of the m best assignments are stable and monotone
-/

set_option linter.unusedSectionVars false

namespace Gasur.Props

open Gasur.Murty Gasur.Spec

variable {K : Type*} [CommRing K] [LinearOrder K] [IsStrictOrderedRing K] {r n : ℕ}

/-- Two answers of `murty_m_best` for the same allowed assignments: if each assignment costs at most `d` more in the second
matrix, so does the `i`-th best one. -/
theorem ith_cost {C C' : Fin r → Fin n → WithTop K} {d : K} (hA : ∀ a, IsAssignment C a → IsAssignment C' a)
    (hcost : ∀ a, IsAssignment C a → assignCost C' a ≤ assignCost C a + d)
    {out out' : List ((Fin r → Option (Fin n)) × K)}
    (h1 : ∀ p ∈ out, IsAssignment C p.1 ∧ p.2 = assignCost C p.1) (h2 : (out.map Prod.fst).Nodup)
    (h3 : out.Pairwise (fun p q => p.2 ≤ q.2))
    (h3' : out'.Pairwise (fun p q => p.2 ≤ q.2)) (h4' : ∀ b, IsAssignment C' b → b ∉ out'.map Prod.fst →
      ∀ p ∈ out', p.2 ≤ assignCost C' b) (h1' : ∀ p ∈ out', p.2 = assignCost C' p.1)
    (i : ℕ) (hi : i < out.length) (hi' : i < out'.length) : out'[i].2 ≤ out[i].2 + d := by
  by_contra hlt
  push Not at hlt
  have key : ∀ b ∈ (out.take (i + 1)).map Prod.fst, b ∈ (out'.take i).map Prod.fst := by
    intro b hb
    obtain ⟨p, hp, rfl⟩ := List.mem_map.1 hb
    obtain ⟨k, hk, rfl⟩ := List.mem_iff_getElem.1 hp
    rw [List.length_take] at hk
    rw [List.getElem_take]
    obtain ⟨ha, hc⟩ := h1 out[k] (List.getElem_mem _)
    have hki : out[k].2 ≤ out[i].2 := by
      rcases (by omega : k < i ∨ k = i) with h | h
      · exact (List.pairwise_iff_getElem.1 h3) k i _ _ h
      · subst h
        exact le_rfl
    have hsmall : assignCost C' out[k].1 < out'[i].2 := by
      have := hcost _ ha
      rw [← hc] at this
      linarith
    have hmem : out[k].1 ∈ out'.map Prod.fst := by
      by_contra hn
      exact absurd (h4' _ (hA _ ha) hn _ (List.getElem_mem hi')) (not_le.2 hsmall)
    obtain ⟨q, hq, hqe⟩ := List.mem_map.1 hmem
    obtain ⟨l, hl, rfl⟩ := List.mem_iff_getElem.1 hq
    have hli : l < i := by
      by_contra hn
      have : out'[i].2 ≤ out'[l].2 := by
        rcases (by omega : i < l ∨ i = l) with h | h
        · exact (List.pairwise_iff_getElem.1 h3') i l _ _ h
        · subst h
          exact le_rfl
      rw [h1' _ hq, hqe] at this
      exact absurd this (not_le.2 hsmall)
    refine List.mem_map.2 ⟨out'[l], ?_, hqe⟩
    exact List.mem_iff_getElem.2 ⟨l, by rw [List.length_take]; omega, by rw [List.getElem_take]⟩
  have hnd : ((out.take (i + 1)).map Prod.fst).Nodup := h2.sublist ((List.take_sublist _ _).map _)
  have := (hnd.subperm key).length_le
  simp only [List.length_map, List.length_take] at this
  omega

theorem assign_moved {C C' : Fin r → Fin n → WithTop K} {δ : K} (hδ : 0 ≤ δ) (hfin : ∀ i j, C' i j = ⊤ ↔ C i j = ⊤)
    (hle : ∀ i j, (C' i j).untopD 0 ≤ (C i j).untopD 0 + δ) (a : Fin r → Option (Fin n)) :
    (IsAssignment C' a ↔ IsAssignment C a) ∧ assignCost C' a ≤ assignCost C a + r * δ := by
  refine ⟨⟨fun h => ⟨h.inj, fun i j hij => fun e => h.finite i j hij ((hfin i j).2 e)⟩,
    fun h => ⟨h.inj, fun i j hij => fun e => h.finite i j hij ((hfin i j).1 e)⟩⟩, ?_⟩
  unfold assignCost
  have : ∑ i, rowCost C' a i ≤ ∑ i, (rowCost C a i + δ) := by
    refine Finset.sum_le_sum fun i _ => ?_
    unfold rowCost
    cases a i with
    | none => simpa using hδ
    | some j => exact hle i j
  rw [Finset.sum_add_distrib] at this
  simpa using this

/-- **C173.** The costs of the `m` best assignments are stable: if each entry of the cost matrix changes by at most `δ`, and
the same entries are infinite, then `murty_m_best` returns as many rows as before, and the cost of the `i`-th row changes by
at most `r δ`, `r` the number of rows of the matrix, for every `i` and `m`. -/
theorem C173_stable (C C' : Fin r → Fin n → WithTop K) (m : ℕ) (hr : 0 < r) {δ : K} (hδ : 0 ≤ δ)
    (hfin : ∀ i j, C' i j = ⊤ ↔ C i j = ⊤) (hle : ∀ i j, |(C' i j).untopD 0 - (C i j).untopD 0| ≤ δ) :
    ∃ rows rows', murty C m = .ok rows ∧ murty C' m = .ok rows' ∧
      List.Forall₂ (fun p p' => |p'.2 - p.2| ≤ r * δ) rows rows' := by
  obtain ⟨out, e, h1, l, h2, h3, h4⟩ := C04_murty_m_best C m hr
  obtain ⟨out', e', h1', l', h2', h3', h4'⟩ := C04_murty_m_best C' m hr
  have A := assign_moved hδ hfin fun i j => by linarith [(abs_le.1 (hle i j)).2]
  have A' := assign_moved (C := C') (C' := C) hδ (fun i j => (hfin i j).symm)
    fun i j => by linarith [(abs_le.1 (hle i j)).1]
  have hlen : out.length = out'.length := by
    rw [l, l']
    congr 1
    exact Nat.card_congr (Equiv.subtypeEquivRight fun b => ((A b).1).symm)
  refine ⟨_, _, e, e', ?_⟩
  rw [List.forall₂_map_left_iff, List.forall₂_map_right_iff, List.forall₂_iff_get]
  refine ⟨hlen, fun i hi hi' => ?_⟩
  simp only [List.get_eq_getElem]
  have u := ith_cost (fun a => (A a).1.2) (fun a _ => (A a).2) h1 h2 h3 h3' h4' (fun p hp => (h1' p hp).2) i hi hi'
  have v := ith_cost (fun a => (A' a).1.2) (fun a _ => (A' a).2) h1' h2' h3' h3 h4 (fun p hp => (h1 p hp).2) i hi' hi
  rw [abs_le]
  constructor <;> linarith

/-- **C173**, monotone: if entries of the cost matrix go up, possibly to infinity, then `murty_m_best` returns at most as many
rows as before, and the cost of the `i`-th row that it still returns is at least the cost of the `i`-th row before. -/
theorem C173_monotone (C C' : Fin r → Fin n → WithTop K) (m : ℕ) (hr : 0 < r) (hle : ∀ i j, C i j ≤ C' i j) :
    ∃ rows rows', murty C m = .ok rows ∧ murty C' m = .ok rows' ∧ rows'.length ≤ rows.length ∧
      ∀ (i : ℕ) p p', rows[i]? = some p → rows'[i]? = some p' → p.2 ≤ p'.2 := by
  obtain ⟨out, e, h1, l, h2, h3, h4⟩ := C04_murty_m_best C m hr
  obtain ⟨out', e', h1', l', h2', h3', h4'⟩ := C04_murty_m_best C' m hr
  have A : ∀ a, IsAssignment C' a → IsAssignment C a := fun a h => ⟨h.inj, fun i j hij e => by
    have := hle i j
    rw [e, top_le_iff] at this
    exact h.finite i j hij this⟩
  have B : ∀ a, IsAssignment C' a → assignCost C a ≤ assignCost C' a + 0 := by
    intro a h
    rw [add_zero]
    unfold assignCost
    refine Finset.sum_le_sum fun i _ => ?_
    unfold rowCost
    cases hi : a i with
    | none => exact le_rfl
    | some j =>
      have h1 := hle i j
      have h2 := h.finite i j hi
      cases hc' : C' i j with
      | top => exact absurd hc' h2
      | coe y =>
        rw [hc'] at h1
        cases hc : C i j with
        | top =>
          rw [hc, top_le_iff] at h1
          exact absurd h1 (WithTop.coe_ne_top)
        | coe x =>
          rw [hc] at h1
          change (C i j).untopD 0 ≤ (C' i j).untopD 0
          rw [hc, hc']
          simpa using h1
  have hlen : out'.length ≤ out.length := by
    rw [l, l']
    exact min_le_min_left _ (Nat.card_le_card_of_injective (fun b => ⟨b.1, A b.1 b.2⟩) fun x y h => by simpa [Subtype.ext_iff] using h)
  refine ⟨_, _, e, e', by simpa using hlen, fun i p p' hp hp' => ?_⟩
  rw [List.getElem?_map, Option.map_eq_some_iff] at hp hp'
  obtain ⟨q, hq, rfl⟩ := hp
  obtain ⟨q', hq', rfl⟩ := hp'
  obtain ⟨hi, rfl⟩ := List.getElem?_eq_some_iff.1 hq
  obtain ⟨hi', rfl⟩ := List.getElem?_eq_some_iff.1 hq'
  have v := ith_cost A B h1' h2' h3' h3 h4 (fun p hp => (h1 p hp).2) i hi' hi
  simpa using v

/-- A concrete case with a negative and an infinite entry: every entry moves by at most `1`. -/
example : ∃ rows rows', murty exC 5 = .ok rows ∧
    murty (![![((-2 : ℤ) : WithTop ℤ), 0], ![3, ⊤]] : Fin 2 → Fin 2 → WithTop ℤ) 5 = .ok rows' ∧
    List.Forall₂ (fun p p' => |p'.2 - p.2| ≤ ((2 : ℕ) : ℤ) * 1) rows rows' :=
  C173_stable exC ![![((-2 : ℤ) : WithTop ℤ), 0], ![3, ⊤]] 5 two_pos (δ := 1) zero_le_one
    (by decide) (by decide)

/-- A concrete case of the monotone statement: an entry becomes infinite. -/
example : ∃ rows rows', murty exC 5 = .ok rows ∧
    murty (![![((-3 : ℤ) : WithTop ℤ), 1], ![⊤, ⊤]] : Fin 2 → Fin 2 → WithTop ℤ) 5 = .ok rows' ∧
    rows'.length ≤ rows.length ∧ ∀ (i : ℕ) p p', rows[i]? = some p → rows'[i]? = some p' → p.2 ≤ p'.2 :=
  C173_monotone exC ![![((-3 : ℤ) : WithTop ℤ), 1], ![⊤, ⊤]] 5 two_pos (by decide)

end Gasur.Props
