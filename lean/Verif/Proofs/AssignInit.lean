import Verif.Proofs.AssignSolve

/-! # Initial states of `assign_opt` satisfy the invariant -/

set_option linter.unusedSectionVars false
set_option linter.unusedSimpArgs false

namespace Gasur.Assign

variable {K : Type*} {r c : ℕ} [CommRing K] [LinearOrder K]

theorem foldl_min_le (l : List K) : ∀ x : K, l.foldl min x ≤ x ∧ ∀ y ∈ l, l.foldl min x ≤ y := by
  induction l with
  | nil => intro x; simp
  | cons a l ih =>
    intro x
    simp only [List.foldl_cons]
    obtain ⟨h1, h2⟩ := ih (min x a)
    refine ⟨le_trans h1 (min_le_left _ _), ?_⟩
    intro y hy
    rcases List.mem_cons.1 hy with rfl | hy
    · exact le_trans h1 (min_le_right _ _)
    · exact h2 y hy

theorem listMin_le {l : List K} {x : K} (hx : x ∈ l) : listMin l ≤ x := by
  cases l with
  | nil => simp at hx
  | cons a l =>
    obtain ⟨h1, h2⟩ := foldl_min_le l a
    rcases List.mem_cons.1 hx with rfl | hx
    · exact h1
    · exact h2 x hx

theorem le_foldl_max (l : List K) : ∀ x : K, x ≤ l.foldl max x ∧ ∀ y ∈ l, y ≤ l.foldl max x := by
  induction l with
  | nil => intro x; simp
  | cons a l ih =>
    intro x
    simp only [List.foldl_cons]
    obtain ⟨h1, h2⟩ := ih (max x a)
    refine ⟨le_trans (le_max_left _ _) h1, ?_⟩
    intro y hy
    rcases List.mem_cons.1 hy with rfl | hy
    · exact le_trans (le_max_right _ _) h1
    · exact h2 y hy

theorem le_listMax {l : List K} {x : K} (hx : x ∈ l) : x ≤ listMax l := by
  cases l with
  | nil => simp at hx
  | cons a l =>
    obtain ⟨h1, h2⟩ := le_foldl_max l a
    rcases List.mem_cons.1 hx with rfl | hx
    · exact h1
    · exact h2 x hx

/-- Invariant of the greedy starring by rows; `done` are the rows already visited. -/
structure GRow (dist : Fin r → Fin c → K) (rows : List (Fin r)) (s : St K r c) : Prop where
  dist_eq : s.dist = dist
  zero : ∀ i j, s.star i j = true → s.dist i j = 0
  rowU : ∀ i j k, s.star i j = true → s.star i k = true → j = k
  colU : ∀ i k j, s.star i j = true → s.star k j = true → i = k
  cov : ∀ j, s.covC j = true ↔ ∃ i, s.star i j = true
  todo : ∀ i ∈ rows, ∀ j, s.star i j = false
  covR : s.covR = fun _ => false
  prime : s.prime = fun _ _ => false

theorem GRow.step {dist : Fin r → Fin c → K} {i : Fin r} {rows : List (Fin r)} {s : St K r c}
    (hi : i ∉ rows) (h : GRow dist (i :: rows) s) : GRow dist rows (greedyRow s i) := by
  unfold greedyRow
  cases hf : (List.finRange c).find? (fun j => decide (s.dist i j = 0) && !s.covC j) with
  | none => exact ⟨h.dist_eq, h.zero, h.rowU, h.colU, h.cov,
      fun a ha => h.todo a (List.mem_cons_of_mem _ ha), h.covR, h.prime⟩
  | some j =>
    have hj := find_finRange_some hf
    simp only [Bool.and_eq_true, decide_eq_true_eq, Bool.not_eq_true'] at hj
    obtain ⟨hz, hC⟩ := hj
    have hrow : ∀ k, s.star i k = false := h.todo i (List.mem_cons_self)
    have hcol : ∀ a, s.star a j = false := by
      intro a
      by_contra hcon
      have := (h.cov j).2 ⟨a, by simpa using hcon⟩
      simp [hC] at this
    refine ⟨h.dist_eq, ?_, ?_, ?_, ?_, ?_, h.covR, h.prime⟩
    · intro a b hab
      rcases (upd2_true_iff _ _ _ _ _).1 hab with ⟨rfl, rfl⟩ | h'
      · exact hz
      · exact h.zero a b h'
    · intro a b k hab hak
      rcases (upd2_true_iff _ _ _ _ _).1 hab with ⟨rfl, rfl⟩ | h'
      · rcases (upd2_true_iff _ _ _ _ _).1 hak with ⟨_, rfl⟩ | h''
        · rfl
        · simp [hrow k] at h''
      · rcases (upd2_true_iff _ _ _ _ _).1 hak with ⟨rfl, rfl⟩ | h''
        · simp [hrow b] at h'
        · exact h.rowU a b k h' h''
    · intro a k b hab hkb
      rcases (upd2_true_iff _ _ _ _ _).1 hab with ⟨rfl, rfl⟩ | h'
      · rcases (upd2_true_iff _ _ _ _ _).1 hkb with ⟨rfl, _⟩ | h''
        · rfl
        · simp [hcol k] at h''
      · rcases (upd2_true_iff _ _ _ _ _).1 hkb with ⟨rfl, rfl⟩ | h''
        · simp [hcol a] at h'
        · exact h.colU a k b h' h''
    · intro b
      by_cases hb : b = j
      · subst hb
        simp only [Function.update_self, true_iff]
        exact ⟨i, (upd2_true_iff _ _ _ _ _).2 (Or.inl ⟨rfl, rfl⟩)⟩
      · simp only [Function.update_of_ne hb]
        rw [h.cov b]
        constructor
        · rintro ⟨a, ha⟩; exact ⟨a, (upd2_true_iff _ _ _ _ _).2 (Or.inr ha)⟩
        · rintro ⟨a, ha⟩
          rcases (upd2_true_iff _ _ _ _ _).1 ha with ⟨_, h'⟩ | h'
          · exact absurd h' hb
          · exact ⟨a, h'⟩
    · intro a ha b
      have hai : a ≠ i := by rintro rfl; exact hi ha
      simp only [upd2, hai, false_and, if_false]
      exact h.todo a (List.mem_cons_of_mem _ ha) b

theorem GRow.foldl {dist : Fin r → Fin c → K} : ∀ (rows : List (Fin r)) (s : St K r c),
    rows.Nodup → GRow dist rows s → GRow dist [] (rows.foldl greedyRow s) := by
  intro rows
  induction rows with
  | nil => intro s _ h; exact h
  | cons i rows ih =>
    intro s hn h
    rw [List.nodup_cons] at hn
    exact ih _ hn.2 (GRow.step hn.1 h)

/-- Invariant of the greedy starring by columns. -/
structure GCol (dist : Fin r → Fin c → K) (cols : List (Fin c)) (s : St K r c) : Prop where
  dist_eq : s.dist = dist
  zero : ∀ i j, s.star i j = true → s.dist i j = 0
  rowU : ∀ i j k, s.star i j = true → s.star i k = true → j = k
  colU : ∀ i k j, s.star i j = true → s.star k j = true → i = k
  cov : ∀ j, s.covC j = true ↔ ∃ i, s.star i j = true
  covR : ∀ i, s.covR i = true ↔ ∃ j, s.star i j = true
  todo : ∀ j ∈ cols, ∀ i, s.star i j = false
  prime : s.prime = fun _ _ => false

theorem GCol.step {dist : Fin r → Fin c → K} {j : Fin c} {cols : List (Fin c)} {s : St K r c}
    (hj : j ∉ cols) (h : GCol dist (j :: cols) s) : GCol dist cols (greedyCol s j) := by
  unfold greedyCol
  cases hf : (List.finRange r).find? (fun i => decide (s.dist i j = 0) && !s.covR i) with
  | none => exact ⟨h.dist_eq, h.zero, h.rowU, h.colU, h.cov, h.covR,
      fun a ha => h.todo a (List.mem_cons_of_mem _ ha), h.prime⟩
  | some i =>
    have hi := find_finRange_some hf
    simp only [Bool.and_eq_true, decide_eq_true_eq, Bool.not_eq_true'] at hi
    obtain ⟨hz, hR⟩ := hi
    have hcol : ∀ k, s.star k j = false := h.todo j (List.mem_cons_self)
    have hrow : ∀ b, s.star i b = false := by
      intro b
      by_contra hcon
      have := (h.covR i).2 ⟨b, by simpa using hcon⟩
      simp [hR] at this
    refine ⟨h.dist_eq, ?_, ?_, ?_, ?_, ?_, ?_, h.prime⟩
    · intro a b hab
      rcases (upd2_true_iff _ _ _ _ _).1 hab with ⟨rfl, rfl⟩ | h'
      · exact hz
      · exact h.zero a b h'
    · intro a b k hab hak
      rcases (upd2_true_iff _ _ _ _ _).1 hab with ⟨rfl, rfl⟩ | h'
      · rcases (upd2_true_iff _ _ _ _ _).1 hak with ⟨_, rfl⟩ | h''
        · rfl
        · simp [hrow k] at h''
      · rcases (upd2_true_iff _ _ _ _ _).1 hak with ⟨rfl, rfl⟩ | h''
        · simp [hrow b] at h'
        · exact h.rowU a b k h' h''
    · intro a k b hab hkb
      rcases (upd2_true_iff _ _ _ _ _).1 hab with ⟨rfl, rfl⟩ | h'
      · rcases (upd2_true_iff _ _ _ _ _).1 hkb with ⟨rfl, _⟩ | h''
        · rfl
        · simp [hcol k] at h''
      · rcases (upd2_true_iff _ _ _ _ _).1 hkb with ⟨rfl, rfl⟩ | h''
        · simp [hcol a] at h'
        · exact h.colU a k b h' h''
    · intro b
      by_cases hb : b = j
      · subst hb
        simp only [Function.update_self, true_iff]
        exact ⟨i, (upd2_true_iff _ _ _ _ _).2 (Or.inl ⟨rfl, rfl⟩)⟩
      · simp only [Function.update_of_ne hb]
        rw [h.cov b]
        constructor
        · rintro ⟨a, ha⟩; exact ⟨a, (upd2_true_iff _ _ _ _ _).2 (Or.inr ha)⟩
        · rintro ⟨a, ha⟩
          rcases (upd2_true_iff _ _ _ _ _).1 ha with ⟨_, h'⟩ | h'
          · exact absurd h' hb
          · exact ⟨a, h'⟩
    · intro a
      by_cases ha : a = i
      · subst ha
        simp only [Function.update_self, true_iff]
        exact ⟨j, (upd2_true_iff _ _ _ _ _).2 (Or.inl ⟨rfl, rfl⟩)⟩
      · simp only [Function.update_of_ne ha]
        rw [h.covR a]
        constructor
        · rintro ⟨b, hb⟩; exact ⟨b, (upd2_true_iff _ _ _ _ _).2 (Or.inr hb)⟩
        · rintro ⟨b, hb⟩
          rcases (upd2_true_iff _ _ _ _ _).1 hb with ⟨h', _⟩ | h'
          · exact absurd h' ha
          · exact ⟨b, h'⟩
    · intro b hb a
      have hbj : b ≠ j := by rintro rfl; exact hj hb
      simp only [upd2, hbj, and_false, if_false]
      exact h.todo b (List.mem_cons_of_mem _ hb) a

theorem GCol.foldl {dist : Fin r → Fin c → K} : ∀ (cols : List (Fin c)) (s : St K r c),
    cols.Nodup → GCol dist cols s → GCol dist [] (cols.foldl greedyCol s) := by
  intro cols
  induction cols with
  | nil => intro s _ h; exact h
  | cons i cols ih =>
    intro s hn h
    rw [List.nodup_cons] at hn
    exact ih _ hn.2 (GCol.step hn.1 h)

variable [IsStrictOrderedRing K]

/-- Everything `start` needs of the initial state. -/
structure InitOK (d : Fin r → Fin c → K) (s : St K r c) : Prop where
  core : Core s
  dual : Dual d s
  cov : ∀ j, s.covC j = true ↔ ∃ i, s.star i j = true

theorem initRows_ok (d : Fin r → Fin c → K) (hrc : r ≤ c) : InitOK d (initRows d) := by
  obtain ⟨dist, hdist⟩ : ∃ dist : Fin r → Fin c → K,
    dist = fun i j => d i j - listMin ((List.finRange c).map (d i)) := ⟨_, rfl⟩
  have h : GRow dist [] (initRows d) := by
    unfold initRows
    apply GRow.foldl _ _ (List.nodup_finRange r)
    rw [← hdist]
    exact ⟨rfl, by simp [blank], by simp [blank], by simp [blank], by simp [blank], by simp [blank],
      rfl, rfl⟩
  refine ⟨⟨?_, h.zero, h.rowU, h.colU, fun j hj => (h.cov j).1 hj, ?_, ?_, ?_, ?_, ?_, ?_, ?_⟩, ?_, h.cov⟩
  · intro i j
    rw [h.dist_eq, hdist]
    have : listMin ((List.finRange c).map (d i)) ≤ d i j :=
      listMin_le (List.mem_map.2 ⟨j, List.mem_finRange j, rfl⟩)
    exact sub_nonneg.2 this
  · intro i j hij
    simp only [h.covR, (h.cov j).2 ⟨i, hij⟩]
  · intro i hi; simp [h.covR] at hi
  · intro i j hi; simp [h.prime] at hi
  · intro i j hi; simp [h.prime] at hi
  · intro i j hi; simp [h.prime] at hi
  · intro i hi; simp [h.covR] at hi
  · exact ⟨fun _ => 0, by intro i j i' hi; simp [h.prime] at hi⟩
  · refine ⟨fun i => listMin ((List.finRange c).map (d i)), fun _ => 0, ?_, ?_, fun hh => absurd hrc hh⟩
    · intro i j; rw [h.dist_eq, hdist]; simp
    · intro _ j; exact ⟨le_refl _, Or.inl rfl⟩

theorem initCols_ok (d : Fin r → Fin c → K) (hrc : ¬ r ≤ c) : InitOK d (initCols d) := by
  obtain ⟨dist, hdist⟩ : ∃ dist : Fin r → Fin c → K,
    dist = fun i j => d i j - listMin ((List.finRange r).map fun a => d a j) := ⟨_, rfl⟩
  obtain ⟨s, hs⟩ : ∃ s : St K r c, s = (List.finRange c).foldl greedyCol
      (blank fun i j => d i j - listMin ((List.finRange r).map fun a => d a j)) := ⟨_, rfl⟩
  have hinit : initCols d = { s with covR := fun _ => false } := by
    unfold initCols; rw [← hs]
  have h : GCol dist [] s := by
    rw [hs]
    apply GCol.foldl _ _ (List.nodup_finRange c)
    rw [← hdist]
    exact ⟨rfl, by simp [blank], by simp [blank], by simp [blank], by simp [blank], by simp [blank],
      by simp [blank], rfl⟩
  rw [hinit]
  refine ⟨⟨?_, h.zero, h.rowU, h.colU, fun j hj => (h.cov j).1 hj, ?_, ?_, ?_, ?_, ?_, ?_, ?_⟩, ?_, h.cov⟩
  · intro i j
    simp only [h.dist_eq, hdist]
    have : listMin ((List.finRange r).map fun a => d a j) ≤ d i j :=
      listMin_le (List.mem_map.2 ⟨i, List.mem_finRange i, rfl⟩)
    exact sub_nonneg.2 this
  · intro i j hij
    simp only [(h.cov j).2 ⟨i, hij⟩]
  · intro i hi; simp at hi
  · intro i j hi; simp [h.prime] at hi
  · intro i j hi; simp [h.prime] at hi
  · intro i j hi; simp [h.prime] at hi
  · intro i hi; simp at hi
  · exact ⟨fun _ => 0, by intro i j i' hi; simp [h.prime] at hi⟩
  · refine ⟨fun _ => 0, fun j => listMin ((List.finRange r).map fun a => d a j), ?_, fun hh => absurd hh hrc, ?_⟩
    · intro i j; simp [h.dist_eq, hdist]
    · intro _ j; exact ⟨le_refl _, Or.inl rfl⟩

/-- `start` always succeeds, with a full set of independent zeros and dual potentials. -/
theorem start_spec {d : Fin r → Fin c → K} {s : St K r c} (h : InitOK d s) :
    ∃ s', start s = .ok s' ∧ Core s' ∧ Dual d s' ∧ nStar s' = minDim r c := by
  unfold start
  by_cases hdone : step2bDone s = true
  · rw [if_pos hdone]
    exact ⟨s, rfl, h.core, h.dual, (step2bDone_iff h.cov).1 hdone⟩
  · rw [if_neg hdone]
    have hne : nStar s ≠ minDim r c := fun hh => hdone ((step2bDone_iff h.cov).2 hh)
    have hle := nStar_le h.core
    apply solve_spec _ _ h.core h.dual (by omega)
    unfold mu sweepBound
    have : (minDim r c - nStar s) * (2 * r + 2) ≤ minDim r c * (2 * r + 2) :=
      Nat.mul_le_mul_right _ (by omega)
    have h2 : (minDim r c + 1) * (2 * r + 2) = minDim r c * (2 * r + 2) + (2 * r + 2) := by ring
    split <;> omega

end Gasur.Assign
