import Verif.Model.Gating
import Mathlib.Data.List.Sort
import Mathlib.Data.List.Range

/-! Proofs about measurement gating. -/

set_option linter.unusedSectionVars false
set_option linter.unusedSimpArgs false

namespace Gasur.Gating

variable {K Z : Type*} [Field K] [LinearOrder K]

theorem gateComp_aux (gate : K) (dist : Z → K) : ∀ (l : List (Z × ℕ)) (v : List ℕ),
    v.Nodup → (l.foldl (fun v zi =>
      if zi.2 ∈ v then v else if dist zi.1 < gate then v ++ [zi.2] else v) v).Nodup ∧
    ∀ i, (i ∈ l.foldl (fun v zi =>
      if zi.2 ∈ v then v else if dist zi.1 < gate then v ++ [zi.2] else v) v ↔
      i ∈ v ∨ ∃ z, (z, i) ∈ l ∧ dist z < gate)
  | [], v, hv => ⟨hv, by simp⟩
  | (z, k) :: l, v, hv => by
    rw [List.foldl_cons]
    by_cases hk : k ∈ v
    · rw [if_pos hk]
      obtain ⟨h1, h2⟩ := gateComp_aux gate dist l v hv
      refine ⟨h1, fun i => ?_⟩
      rw [h2]
      constructor
      · rintro (h | ⟨z', h, hd⟩)
        · exact .inl h
        · exact .inr ⟨z', List.mem_cons_of_mem _ h, hd⟩
      · rintro (h | ⟨z', h, hd⟩)
        · exact .inl h
        · rcases List.mem_cons.1 h with h | h
          · simp only [Prod.mk.injEq] at h
            rw [h.2]
            exact .inl hk
          · exact .inr ⟨z', h, hd⟩
    · rw [if_neg hk]
      by_cases hd0 : dist z < gate
      · rw [if_pos hd0]
        obtain ⟨h1, h2⟩ := gateComp_aux gate dist l (v ++ [k]) (by
          rw [List.nodup_append]
          refine ⟨hv, by simp, ?_⟩
          intro a ha b hb
          rw [List.mem_singleton] at hb
          subst hb
          rintro rfl
          exact hk ha)
        refine ⟨h1, fun i => ?_⟩
        rw [h2, List.mem_append, List.mem_singleton]
        constructor
        · rintro ((h | h) | ⟨z', h, hd⟩)
          · exact .inl h
          · exact .inr ⟨z, by rw [h]; exact List.mem_cons_self, hd0⟩
          · exact .inr ⟨z', List.mem_cons_of_mem _ h, hd⟩
        · rintro (h | ⟨z', h, hd⟩)
          · exact .inl (.inl h)
          · rcases List.mem_cons.1 h with h | h
            · simp only [Prod.mk.injEq] at h
              exact .inl (.inr h.2)
            · exact .inr ⟨z', h, hd⟩
      · rw [if_neg hd0]
        obtain ⟨h1, h2⟩ := gateComp_aux gate dist l v hv
        refine ⟨h1, fun i => ?_⟩
        rw [h2]
        constructor
        · rintro (h | ⟨z', h, hd⟩)
          · exact .inl h
          · exact .inr ⟨z', List.mem_cons_of_mem _ h, hd⟩
        · rintro (h | ⟨z', h, hd⟩)
          · exact .inl h
          · rcases List.mem_cons.1 h with h | h
            · simp only [Prod.mk.injEq] at h
              rw [h.1] at hd
              exact absurd hd hd0
            · exact .inr ⟨z', h, hd⟩

theorem gateIdx_spec (gate : K) (meas : List Z) : ∀ (dists : List (Z → K)) (v : List ℕ), v.Nodup →
    (dists.foldl (gateComp gate meas) v).Nodup ∧
    ∀ i, (i ∈ dists.foldl (gateComp gate meas) v ↔
      i ∈ v ∨ ∃ z, meas[i]? = some z ∧ ∃ d ∈ dists, d z < gate)
  | [], v, hv => ⟨hv, by simp⟩
  | d :: ds, v, hv => by
    rw [List.foldl_cons]
    obtain ⟨h1, h2⟩ := gateComp_aux gate d meas.zipIdx v hv
    obtain ⟨h3, h4⟩ := gateIdx_spec gate meas ds _ h1
    refine ⟨h3, fun i => ?_⟩
    refine (h4 i).trans ?_
    rw [h2]
    constructor
    · rintro ((h | ⟨z, h, hd⟩) | ⟨z, h, d', hd', hd⟩)
      · exact .inl h
      · exact .inr ⟨z, List.mk_mem_zipIdx_iff_getElem?.1 h, d, List.mem_cons_self, hd⟩
      · exact .inr ⟨z, h, d', List.mem_cons_of_mem _ hd', hd⟩
    · rintro (h | ⟨z, h, d', hd', hd⟩)
      · exact .inl (.inl h)
      · rcases List.mem_cons.1 hd' with rfl | hd'
        · exact .inl (.inr ⟨z, List.mk_mem_zipIdx_iff_getElem?.2 h, hd⟩)
        · exact .inr ⟨z, h, d', hd', hd⟩

theorem sorted_unique {l₁ l₂ : List ℕ} (h1 : l₁.Pairwise (· < ·)) (h2 : l₂.Pairwise (· < ·))
    (h : ∀ i, i ∈ l₁ ↔ i ∈ l₂) : l₁ = l₂ := by
  have n1 : l₁.Nodup := h1.imp (fun hab => ne_of_lt hab)
  have n2 : l₂.Nodup := h2.imp (fun hab => ne_of_lt hab)
  exact ((List.perm_ext_iff_of_nodup n1 n2).2 h).eq_of_pairwise
    (fun a b _ _ hab hba => absurd (lt_trans hab hba) (lt_irrefl _)) h1 h2

theorem filterMap_range_filter (meas : List Z) (q : Z → Bool) :
    ((List.range meas.length).filter fun i => (meas[i]?).any q).filterMap (fun i => meas[i]?) =
      meas.filter q := by
  induction meas using List.reverseRecOn with
  | nil => rfl
  | append_singleton l z ih =>
    rw [List.length_append, List.length_singleton, List.range_succ, List.filter_append,
      List.filterMap_append, List.filter_append]
    congr 1
    · rw [← ih]
      have hf : (List.range l.length).filter (fun i => ((l ++ [z])[i]?).any q) =
          (List.range l.length).filter (fun i => (l[i]?).any q) := by
        apply List.filter_congr
        intro i hi
        rw [List.getElem?_append_left (List.mem_range.1 hi)]
      rw [hf]
      apply List.filterMap_congr
      intro i hi
      rw [List.getElem?_append_left (List.mem_range.1 (List.mem_filter.1 hi).1)]
    · by_cases hq : q z = true
      · simp [hq]
      · simp [hq]

/-- The gate keeps exactly the measurements close to some component, in order. -/
theorem gateMeas_eq (gate : K) (dists : List (Z → K)) (meas : List Z) :
    gateMeas gate dists meas = meas.filter fun z => dists.any fun d => decide (d z < gate) := by
  unfold gateMeas
  split
  · rename_i h
    rw [List.length_eq_zero_iff] at h
    rw [h]
    rfl
  · obtain ⟨h1, h2⟩ := gateIdx_spec gate meas dists [] List.nodup_nil
    have hs : ((dists.foldl (gateComp gate meas) []).mergeSort (fun a b => decide (a ≤ b))) =
        (List.range meas.length).filter
          fun i => (meas[i]?).any fun z => dists.any fun d => decide (d z < gate) := by
      apply sorted_unique
      · have p1 : ((dists.foldl (gateComp gate meas) []).mergeSort
            (fun a b => decide (a ≤ b))).Pairwise (fun a b => decide (a ≤ b) = true) := by
          apply List.pairwise_mergeSort
          · intro a b c hab hbc
            simp only [decide_eq_true_eq] at *
            omega
          · intro a b
            simp only [Bool.or_eq_true, decide_eq_true_eq]
            omega
        have p2 := (List.mergeSort_perm (dists.foldl (gateComp gate meas) [])
          (fun a b => decide (a ≤ b))).nodup_iff.2 h1
        refine (p1.and p2).imp ?_
        rintro a b ⟨hab, hne⟩
        simp only [decide_eq_true_eq] at hab
        omega
      · exact (List.pairwise_lt_range).sublist List.filter_sublist
      · intro i
        rw [(List.mergeSort_perm _ _).mem_iff, h2, List.mem_filter, List.mem_range]
        constructor
        · rintro (h | ⟨z, hz, d, hd, hlt⟩)
          · simp at h
          · have : i < meas.length := by
              by_contra hc
              rw [List.getElem?_eq_none (by omega)] at hz
              simp at hz
            refine ⟨this, ?_⟩
            rw [hz, Option.any_some, List.any_eq_true]
            exact ⟨d, hd, by simpa using hlt⟩
        · rintro ⟨hi, h⟩
          rw [List.getElem?_eq_getElem hi, Option.any_some, List.any_eq_true] at h
          obtain ⟨d, hd, hlt⟩ := h
          exact .inr ⟨_, List.getElem?_eq_getElem hi, d, hd, by simpa using hlt⟩
    rw [hs, filterMap_range_filter]

end Gasur.Gating
