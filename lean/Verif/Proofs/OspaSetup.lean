import Verif.Proofs.Ospa2

/-! # Proofs about the matrix set-up for OSPA -/

namespace Gasur.Ospa

open Gasur.Spec

variable {X : Type*}

theorem fillRow_ok {n : ℕ} {l : List (Option X)} {r : Row X} (h : fillRow n l = .ok r) :
    r.length = n ∧ ∀ k, slot r k = slot l k := by
  unfold fillRow at h
  split at h
  · exact absurd h (by simp)
  · rename_i hn
    simp only [Except.ok.injEq] at h
    subst h
    refine ⟨by simp, fun k => ?_⟩
    by_cases hk : k < n
    · simp [slot, hk]
    · have : slot ((List.range n).map (slot l)) k = none := by
        unfold slot; rw [List.getElem?_eq_none (by simpa using hk)]; rfl
      rw [this]
      by_contra hne
      have hs : (slot l k).isSome := by
        cases hh : slot l k with
        | none => rw [hh] at hne; exact absurd rfl hne
        | some x => rfl
      apply hn
      refine ⟨k, ?_, by omega, hs⟩
      rw [List.mem_range]
      by_contra hlt
      unfold slot at hs
      rw [List.getElem?_eq_none (by omega)] at hs
      exact absurd hs (by simp)

theorem fillRow_error {n : ℕ} {l : List (Option X)} :
    (∃ e, fillRow n l = .error e) ↔ ∃ k, n ≤ k ∧ (slot l k).isSome := by
  unfold fillRow
  constructor
  · rintro ⟨e, h⟩
    split at h
    · rename_i hk
      obtain ⟨k, _, h1, h2⟩ := hk
      exact ⟨k, h1, h2⟩
    · exact absurd h (by simp)
  · rintro ⟨k, h1, h2⟩
    refine ⟨.index, if_pos ⟨k, ?_, h1, h2⟩⟩
    rw [List.mem_range]
    by_contra hlt
    unfold slot at h2
    rw [List.getElem?_eq_none (by omega)] at h2
    exact absurd h2 (by simp)

theorem setupRows_cons (n : ℕ) (l : List (Option X)) (ls : List (List (Option X))) :
    setupRows n (l :: ls) =
    match fillRow n l with
    | .error e => .error e
    | .ok r =>
      match setupRows n ls with
      | .error e => .error e
      | .ok rs => .ok (r :: rs) := rfl

theorem setupRows_ok {n : ℕ} : ∀ {ls : List (List (Option X))} {rs : List (Row X)}, setupRows n ls = .ok rs →
    List.Forall₂ (fun l r => r.length = n ∧ ∀ k, slot r k = slot l k) ls rs
  | [], rs, h => by
    have : rs = [] := by simpa [setupRows] using h.symm
    subst this; exact List.Forall₂.nil
  | l :: ls, rs, h => by
    rw [setupRows_cons] at h
    cases h1 : fillRow n l with
    | error e => rw [h1] at h; exact absurd h (by simp)
    | ok r =>
      rw [h1] at h
      simp only at h
      cases h2 : setupRows n ls with
      | error e => rw [h2] at h; exact absurd h (by simp)
      | ok rs' =>
        rw [h2] at h
        simp only [Except.ok.injEq] at h
        subst h
        exact List.Forall₂.cons (fillRow_ok h1) (setupRows_ok h2)

theorem setupRows_error {n : ℕ} : ∀ {ls : List (List (Option X))},
    (∃ e, setupRows n ls = .error e) ↔ ∃ l ∈ ls, ∃ k, n ≤ k ∧ (slot l k).isSome
  | [] => by simp [setupRows]
  | l :: ls => by
    have ih := setupRows_error (n := n) (ls := ls)
    simp only [List.mem_cons, exists_eq_or_imp]
    rw [← ih, ← fillRow_error, setupRows_cons]
    cases h1 : fillRow n l with
    | error e => simp
    | ok r =>
      simp only
      cases h2 : setupRows n ls with
      | error e => simp
      | ok r => simp

theorem count_map_some (xs : List X) : count (xs.map some) = xs.length := by
  simp [count, List.countP_map, Function.comp_def]

theorem slot_map_some (xs : List X) (k : ℕ) : slot (xs.map some) k = xs[k]? := by
  unfold slot; rw [List.getElem?_map]; cases xs[k]? <;> rfl

theorem fillRow_map_some {n : ℕ} {xs : List X} (h : xs.length ≤ n) :
    fillRow n (xs.map some) = .ok (xs.map some ++ List.replicate (n - xs.length) none) := by
  cases hf : fillRow n (xs.map some) with
  | error e =>
    obtain ⟨k, h1, h2⟩ := fillRow_error.1 ⟨e, hf⟩
    rw [slot_map_some, List.getElem?_eq_none (by omega)] at h2
    exact absurd h2 (by simp)
  | ok r =>
    obtain ⟨h1, h2⟩ := fillRow_ok hf
    congr 1
    apply List.ext_getElem (by simp; omega)
    intro i hi hi'
    have := h2 i
    rw [slot_map_some] at this
    unfold slot at this
    rw [List.getElem?_eq_getElem hi] at this
    simp only [Option.getD_some] at this
    rw [this]
    by_cases hx : i < xs.length
    · rw [List.getElem_append_left (by simpa using hx)]; simp [hx]
    · rw [List.getElem_append_right (by simpa using hx), List.getElem?_eq_none (by omega)]; simp

theorem setupRows_map_some {n : ℕ} : ∀ {ls : List (List X)}, (∀ xs ∈ ls, xs.length ≤ n) →
    setupRows n (ls.map (·.map some)) =
      .ok (ls.map fun xs => xs.map some ++ List.replicate (n - xs.length) none)
  | [], _ => rfl
  | xs :: ls, h => by
    rw [List.map_cons, setupRows_cons, fillRow_map_some (h xs (by simp))]
    simp only
    rw [setupRows_map_some (fun ys hy => h ys (by simp [hy]))]
    rfl

theorem setupMat_map_some (ls : List (List X)) :
    setupMat (ls.map (·.map some)) = .ok (ls.map fun xs =>
      xs.map some ++ List.replicate (numObjs (ls.map (·.map some)) - xs.length) none) := by
  apply setupRows_map_some
  intro xs hx
  refine le_foldr_max ?_
  rw [List.map_map, List.mem_map]
  exact ⟨xs, hx, count_map_some xs⟩

/-! ### Labels -/

variable {L : Type*} [DecidableEq L]

theorem foldl_order (ls : List L) : ∀ acc : List L, acc.Nodup →
    (ls.foldl (fun acc l => if l ∈ acc then acc else acc ++ [l]) acc).Nodup ∧
    ∀ l, l ∈ ls.foldl (fun acc l => if l ∈ acc then acc else acc ++ [l]) acc ↔ l ∈ acc ∨ l ∈ ls := by
  induction ls with
  | nil => intro acc h; exact ⟨h, by simp⟩
  | cons a ls ih =>
    intro acc h
    rw [List.foldl_cons]
    by_cases ha : a ∈ acc
    · rw [if_pos ha]
      obtain ⟨h1, h2⟩ := ih acc h
      refine ⟨h1, fun l => ?_⟩
      rw [h2, List.mem_cons]
      constructor
      · rintro (h | h) <;> simp [h]
      · rintro (h | rfl | h)
        · simp [h]
        · exact Or.inl ha
        · simp [h]
    · rw [if_neg ha]
      obtain ⟨h1, h2⟩ := ih (acc ++ [a]) (by
        rw [List.nodup_append]
        refine ⟨h, by simp, ?_⟩
        intro x hx y hy hxy
        simp at hy; subst hy; subst hxy; exact ha hx)
      refine ⟨h1, fun l => ?_⟩
      rw [h2]
      simp [or_assoc]

theorem labelOrder_nodup (labels : List (List L)) : (labelOrder labels).Nodup :=
  (foldl_order _ [] List.nodup_nil).1

theorem mem_labelOrder (labels : List (List L)) (l : L) : l ∈ labelOrder labels ↔ ∃ ls ∈ labels, l ∈ ls := by
  rw [labelOrder, (foldl_order _ [] List.nodup_nil).2]
  simp

theorem foldl_set (order : List L) : ∀ (ps : List (L × X)) (r : Row X), r.length = order.length →
    (ps.map Prod.fst).Nodup → (∀ a ∈ ps, a.1 ∈ order) →
    (ps.foldl (fun r ls => r.set (order.idxOf ls.1) (some ls.2)) r).length = order.length ∧
    (∀ a ∈ ps, slot (ps.foldl (fun r ls => r.set (order.idxOf ls.1) (some ls.2)) r) (order.idxOf a.1) = some a.2) ∧
    (∀ q, (∀ a ∈ ps, order.idxOf a.1 ≠ q) →
      slot (ps.foldl (fun r ls => r.set (order.idxOf ls.1) (some ls.2)) r) q = slot r q)
  | [], r, h, _, _ => ⟨h, by simp, fun _ _ => rfl⟩
  | a :: ps, r, h, hn, hm => by
    rw [List.map_cons, List.nodup_cons] at hn
    obtain ⟨h1, h2, h3⟩ := foldl_set order ps (r.set (order.idxOf a.1) (some a.2)) (by simp [h]) hn.2
      (fun b hb => hm b (by simp [hb]))
    rw [List.foldl_cons]
    have ha : order.idxOf a.1 < order.length := List.idxOf_lt_length_iff.2 (hm a (by simp))
    refine ⟨h1, ?_, ?_⟩
    · intro b hb
      rcases List.mem_cons.1 hb with rfl | hb
      · rw [h3]
        · unfold slot; rw [List.getElem?_set_self (by omega)]; rfl
        · intro b' hb' he
          have := (List.idxOf_inj (hm b' (by simp [hb']))).1 he
          exact hn.1 (List.mem_map.2 ⟨b', hb', this⟩)
      · exact h2 b hb
    · intro q hq
      rw [h3 q (fun b hb => hq b (by simp [hb]))]
      unfold slot
      rw [List.getElem?_set_ne (hq a (by simp))]

theorem labelRow_spec (order : List L) (lbls : List L) (ss : List X) (hn : lbls.Nodup)
    (hlen : lbls.length = ss.length) (hm : ∀ l ∈ lbls, l ∈ order) :
    (labelRow order lbls ss).length = order.length ∧
    ∀ q x, slot (labelRow order lbls ss) q = some x ↔
      ∃ (k : ℕ) (l : L), lbls[k]? = some l ∧ ss[k]? = some x ∧ order.idxOf l = q := by
  have hfst : (lbls.zip ss).map Prod.fst = lbls := List.map_fst_zip (by omega)
  obtain ⟨h1, h2, h3⟩ := foldl_set order (lbls.zip ss) (List.replicate order.length none) (by simp)
    (by rw [hfst]; exact hn) (fun a ha => hm a.1 (List.of_mem_zip ha).1)
  refine ⟨h1, fun q x => ?_⟩
  constructor
  · intro h
    by_cases hq : ∀ a ∈ lbls.zip ss, order.idxOf a.1 ≠ q
    · have := h3 q hq
      unfold labelRow at h
      rw [h] at this
      have hnone : slot (List.replicate order.length (none : Option X)) q = none := by
        unfold slot
        rw [List.getElem?_replicate]
        split <;> rfl
      rw [hnone] at this
      exact absurd this (by simp)
    · push Not at hq
      obtain ⟨a, ha, rfl⟩ := hq
      have := h2 a ha
      unfold labelRow at h
      rw [h] at this
      obtain ⟨k, hk⟩ := List.getElem?_of_mem ha
      rw [List.getElem?_zip_eq_some] at hk
      exact ⟨k, a.1, hk.1, by rw [this]; exact hk.2, rfl⟩
  · rintro ⟨k, l, hk, hx, rfl⟩
    exact h2 (l, x) (List.mem_of_getElem? (List.getElem?_zip_eq_some.2 ⟨hk, hx⟩))

end Gasur.Ospa
