import Verif.Model.Assign
import Mathlib.Data.Fintype.Card
import Mathlib.Data.Fintype.Basic
import Mathlib.Data.Finset.Lattice.Fold
import Mathlib.Tactic.Linarith
import Mathlib.Tactic.Ring

/-! # Lemmas about the sweep (step 3) and the alternating path (step 4) of `assign_opt` -/

namespace Gasur.Assign

variable {K : Type*} {r c : ℕ}

theorem upd2_true_iff (m : Fin r → Fin c → Bool) (i j a b) :
    upd2 m i j true a b = true ↔ (a = i ∧ b = j) ∨ m a b = true := by
  unfold upd2; split <;> simp_all

theorem upd2_false_iff (m : Fin r → Fin c → Bool) (i j a b) :
    upd2 m i j false a b = true ↔ ¬(a = i ∧ b = j) ∧ m a b = true := by
  unfold upd2; split <;> simp_all

theorem find_finRange_some {n : ℕ} {p : Fin n → Bool} {i : Fin n}
    (h : (List.finRange n).find? p = some i) : p i = true := List.find?_some h

theorem find_finRange_none {n : ℕ} {p : Fin n → Bool}
    (h : (List.finRange n).find? p = none) : ∀ i, p i = false := by
  intro i
  have := List.find?_eq_none.1 h i (List.mem_finRange i)
  simpa using this

theorem find_finRange_exists {n : ℕ} {p : Fin n → Bool} (h : ∃ i, p i = true) :
    ∃ i, (List.finRange n).find? p = some i := by
  cases hh : (List.finRange n).find? p with
  | some i => exact ⟨i, rfl⟩
  | none =>
    obtain ⟨i, hi⟩ := h
    have := find_finRange_none hh i
    simp_all

/-- What step 4 achieves: a new independent set of zeros which keeps all starred lines starred and
stars one more column. -/
structure Augmented (star : Fin r → Fin c → Bool) (Z : Fin r → Fin c → Prop)
    (new : Fin r → Fin c → Bool) : Prop where
  zero : ∀ i j, new i j = true → Z i j
  rowU : ∀ i j k, new i j = true → new i k = true → j = k
  colU : ∀ i k j, new i j = true → new k j = true → i = k
  rowKeep : ∀ i j, star i j = true → ∃ k, new i k = true
  colKeep : ∀ i j, star i j = true → ∃ k, new k j = true
  more : ∃ i j, new i j = true ∧ ∀ k, star k j = false

theorem step4Loop_spec (star prime : Fin r → Fin c → Bool) (Z : Fin r → Fin c → Prop)
    (R : Fin r → Prop) [DecidablePred R] (rk : Fin r → ℕ)
    (rowU : ∀ i j k, star i j = true → star i k = true → j = k)
    (colU : ∀ i k j, star i j = true → star k j = true → i = k)
    (hRp : ∀ i, R i → ∃ j, prime i j = true)
    (hp : ∀ i j, R i → prime i j = true →
      Z i j ∧ ∀ i', star i' j = true → R i' ∧ rk i' < rk i) :
    ∀ (fuel : ℕ) (new : Fin r → Fin c → Bool) (sc : Fin c) (p : Fin r) (b : ℕ),
      (Finset.univ.filter fun i => R i ∧ rk i < b).card < fuel →
      (∀ i j, new i j = true → Z i j) →
      (∀ i j k, new i j = true → new i k = true → j = k) →
      (∀ i k j, j ≠ sc → new i j = true → new k j = true → i = k) →
      (∀ i, new i sc = true → i = p ∨ star i sc = true) →
      (∀ i, R i → rk i < b → ∀ j, new i j = star i j) →
      (∀ i j, new i j = true → star i j = true ∨ (i = p ∧ j = sc) ∨
        ∃ i2, star i2 j = true ∧ b ≤ rk i2) →
      (∀ i j, star i j = true → ∃ k, new i k = true) →
      (∀ i j, star i j = true → ∃ k, new k j = true) →
      new p sc = true →
      (∀ i, star i sc = true → R i ∧ rk i < b) →
      ¬ (R p ∧ rk p < b) →
      ∃ new', step4Loop star prime fuel new sc = .ok new' ∧ Augmented star Z new' := by
  intro fuel
  induction fuel with
  | zero => intro new sc p b h; omega
  | succ n ih =>
    intro new sc p b hcard hZ hrow hcol hsc hunm he hf hg hpsc hh hpb
    unfold step4Loop
    cases hs : starRow star sc with
    | none =>
      have hno : ∀ i, star i sc = false := find_finRange_none hs
      refine ⟨new, rfl, ⟨hZ, hrow, ?_, hf, hg, ⟨p, sc, hpsc, hno⟩⟩⟩
      intro i k j hi hk
      by_cases hj : j = sc
      · subst hj
        have h1 : i = p := by
          rcases hsc i hi with h | h
          · exact h
          · simp [hno i] at h
        have h2 : k = p := by
          rcases hsc k hk with h | h
          · exact h
          · simp [hno k] at h
        rw [h1, h2]
      · exact hcol i k j hj hi hk
    | some i =>
      have hi : star i sc = true := find_finRange_some (p := fun a => star a sc) hs
      obtain ⟨hRi, hbi⟩ := hh i hi
      obtain ⟨pc, hpc⟩ := find_finRange_exists (p := fun j => prime i j) (hRp i hRi)
      have hpr : prime i pc = true := find_finRange_some hpc
      obtain ⟨hZpc, hlt⟩ := hp i pc hRi hpr
      have hpc' : primeCol prime i = some pc := hpc
      simp only [hpc']
      have hne : pc ≠ sc := by
        rintro rfl
        have := (hlt i hi).2; omega
      have hpi : p ≠ i := by
        rintro rfl; exact hpb ⟨hRi, hbi⟩
      have hnew : ∀ a j, upd2 (upd2 new i sc false) i pc true a j = true ↔
          (a = i ∧ j = pc) ∨ (¬(a = i ∧ j = sc) ∧ new a j = true) := by
        intro a j; rw [upd2_true_iff, upd2_false_iff]
      have hinew : ∀ j, new i j = true → j = sc := by
        intro j hj
        rw [hunm i hRi hbi] at hj
        exact rowU i j sc hj hi
      apply ih (upd2 (upd2 new i sc false) i pc true) pc i (rk i)
      · refine lt_of_lt_of_le (Finset.card_lt_card ?_) (Nat.lt_succ_iff.1 hcard)
        refine ⟨?_, ?_⟩
        · intro a ha
          simp only [Finset.mem_filter, Finset.mem_univ, true_and] at ha ⊢
          exact ⟨ha.1, by omega⟩
        · intro hsub
          have : i ∈ Finset.univ.filter fun a => R a ∧ rk a < b := by simp [hRi, hbi]
          have := hsub this
          simp at this
      · intro a j ha
        rcases (hnew a j).1 ha with ⟨rfl, rfl⟩ | ⟨_, h⟩
        · exact hZpc
        · exact hZ a j h
      · intro a j k haj hak
        rcases (hnew a j).1 haj with ⟨rfl, rfl⟩ | ⟨h1, h2⟩
        · rcases (hnew a k).1 hak with ⟨_, rfl⟩ | ⟨h3, h4⟩
          · rfl
          · exact absurd ⟨rfl, hinew k h4⟩ h3
        · rcases (hnew a k).1 hak with ⟨rfl, rfl⟩ | ⟨h3, h4⟩
          · exact absurd ⟨rfl, hinew j h2⟩ h1
          · exact hrow a j k h2 h4
      · intro a k j hj haj hkj
        have ha : ¬(a = i ∧ j = sc) ∧ new a j = true := by
          rcases (hnew a j).1 haj with ⟨_, h⟩ | h
          · exact absurd h hj
          · exact h
        have hk : ¬(k = i ∧ j = sc) ∧ new k j = true := by
          rcases (hnew k j).1 hkj with ⟨_, h⟩ | h
          · exact absurd h hj
          · exact h
        by_cases hjs : j = sc
        · subst hjs
          have h1 : a = p := by
            rcases hsc a ha.2 with h | h
            · exact h
            · exact absurd ⟨colU a i j h hi, rfl⟩ ha.1
          have h2 : k = p := by
            rcases hsc k hk.2 with h | h
            · exact h
            · exact absurd ⟨colU k i j h hi, rfl⟩ hk.1
          rw [h1, h2]
        · exact hcol a k j hjs ha.2 hk.2
      · intro a ha
        rcases (hnew a pc).1 ha with ⟨h, _⟩ | ⟨_, h⟩
        · exact Or.inl h
        · rcases he a pc h with h | ⟨_, h⟩ | ⟨i2, h1, h2⟩
          · exact Or.inr h
          · exact absurd h hne
          · have := (hlt i2 h1).2; omega
      · intro a hRa hra j
        have hai : a ≠ i := by rintro rfl; omega
        have : upd2 (upd2 new i sc false) i pc true a j = new a j := by
          simp [upd2, hai]
        rw [this]
        exact hunm a hRa (by omega) j
      · intro a j ha
        rcases (hnew a j).1 ha with h | ⟨_, h⟩
        · exact Or.inr (Or.inl h)
        · rcases he a j h with h | ⟨h1, h2⟩ | ⟨i2, h1, h2⟩
          · exact Or.inl h
          · exact Or.inr (Or.inr ⟨i, by rw [h2]; exact hi, le_refl _⟩)
          · exact Or.inr (Or.inr ⟨i2, h1, by omega⟩)
      · intro a j ha
        by_cases hai : a = i
        · exact ⟨pc, (hnew a pc).2 (Or.inl ⟨hai, rfl⟩)⟩
        · obtain ⟨k, hk⟩ := hf a j ha
          exact ⟨k, (hnew a k).2 (Or.inr ⟨fun h => hai h.1, hk⟩)⟩
      · intro a j ha
        obtain ⟨k, hk⟩ := hg a j ha
        by_cases hki : k = i ∧ j = sc
        · refine ⟨p, (hnew p j).2 (Or.inr ⟨fun h => hpi h.1, ?_⟩)⟩
          rw [hki.2]; exact hpsc
        · exact ⟨k, (hnew k j).2 (Or.inr ⟨hki, hk⟩)⟩
      · exact (hnew i pc).2 (Or.inl ⟨rfl, rfl⟩)
      · exact hlt
      · simp

/-- The discipline of stars, primes and covers kept by steps 2-5. -/
structure Core [CommRing K] [LinearOrder K] (s : St K r c) : Prop where
  nonneg : ∀ i j, 0 ≤ s.dist i j
  zero : ∀ i j, s.star i j = true → s.dist i j = 0
  rowU : ∀ i j k, s.star i j = true → s.star i k = true → j = k
  colU : ∀ i k j, s.star i j = true → s.star k j = true → i = k
  covC_star : ∀ j, s.covC j = true → ∃ i, s.star i j = true
  cov_iff : ∀ i j, s.star i j = true → (s.covC j = true ↔ s.covR i = false)
  covR_star : ∀ i, s.covR i = true → ∃ j, s.star i j = true
  prime_zero : ∀ i j, s.prime i j = true → s.dist i j = 0
  prime_covR : ∀ i j, s.prime i j = true → s.covR i = true
  prime_covC : ∀ i j, s.prime i j = true → s.covC j = false
  covR_prime : ∀ i, s.covR i = true → ∃ j, s.prime i j = true
  rank : ∃ rk : Fin r → ℕ, ∀ i j i', s.prime i j = true → s.star i' j = true → rk i' < rk i

/-- Number of covered rows. -/
def nR (s : St K r c) : ℕ := (Finset.univ.filter fun i => s.covR i = true).card

/-- Number of starred columns. -/
def nStar (s : St K r c) : ℕ := (Finset.univ.filter fun j => ∃ i, s.star i j = true).card

section
variable [CommRing K] [LinearOrder K]

/-- Covering the row of a newly primed zero and uncovering its star's column keeps `Core`. -/
theorem Core.cover {s : St K r c} (h : Core s) {i : Fin r} {j k : Fin c}
    (hR : s.covR i = false) (hC : s.covC j = false) (hz : s.dist i j = 0)
    (hk : s.star i k = true) :
    Core { s with
      prime := upd2 s.prime i j true
      covR := Function.update s.covR i true
      covC := Function.update s.covC k false } := by
  have hCk : s.covC k = true := (h.cov_iff i k hk).2 hR
  have hjk : j ≠ k := by rintro rfl; simp [hC] at hCk
  obtain ⟨rk, hrk⟩ := h.rank
  refine ⟨h.nonneg, h.zero, h.rowU, h.colU, ?_, ?_, ?_, ?_, ?_, ?_, ?_, ?_⟩
  · intro b hb
    by_cases hbk : b = k
    · exact ⟨i, by rw [hbk]; exact hk⟩
    · exact h.covC_star b (by simpa [Function.update_of_ne hbk] using hb)
  · intro a b hab
    by_cases hai : a = i
    · subst hai
      have := h.rowU a b k hab hk
      subst this
      simp
    · have hbk : b ≠ k := by
        rintro rfl; exact hai (h.colU a i b hab hk)
      simp only [Function.update_of_ne hai, Function.update_of_ne hbk]
      exact h.cov_iff a b hab
  · intro a ha
    by_cases hai : a = i
    · exact ⟨k, by rw [hai]; exact hk⟩
    · exact h.covR_star a (by simpa [Function.update_of_ne hai] using ha)
  · intro a b hab
    rcases (upd2_true_iff _ _ _ _ _).1 hab with ⟨rfl, rfl⟩ | h'
    · exact hz
    · exact h.prime_zero a b h'
  · intro a b hab
    rcases (upd2_true_iff _ _ _ _ _).1 hab with ⟨rfl, rfl⟩ | h'
    · simp
    · by_cases hai : a = i
      · simp [hai]
      · simpa [Function.update_of_ne hai] using h.prime_covR a b h'
  · intro a b hab
    by_cases hbk : b = k
    · simp [hbk]
    · simp only [Function.update_of_ne hbk]
      rcases (upd2_true_iff _ _ _ _ _).1 hab with ⟨rfl, rfl⟩ | h'
      · exact hC
      · exact h.prime_covC a b h'
  · intro a ha
    by_cases hai : a = i
    · exact ⟨j, (upd2_true_iff _ _ _ _ _).2 (Or.inl ⟨hai, rfl⟩)⟩
    · obtain ⟨b, hb⟩ := h.covR_prime a (by simpa [Function.update_of_ne hai] using ha)
      exact ⟨b, (upd2_true_iff _ _ _ _ _).2 (Or.inr hb)⟩
  · refine ⟨Function.update rk i (1 + Finset.univ.sup rk), ?_⟩
    intro a b a' hab ha'
    have ha'i : a' ≠ i := by
      rintro rfl
      have hbk := h.rowU a' b k ha' hk
      subst hbk
      rcases (upd2_true_iff _ _ _ _ _).1 hab with ⟨_, h2⟩ | h'
      · exact hjk h2.symm
      · have := h.prime_covC a b h'
        simp [hCk] at this
    rw [Function.update_of_ne ha'i]
    rcases (upd2_true_iff _ _ _ _ _).1 hab with ⟨rfl, rfl⟩ | h'
    · rw [Function.update_self]
      have : rk a' ≤ Finset.univ.sup rk := Finset.le_sup (f := rk) (Finset.mem_univ a')
      omega
    · by_cases hai : a = i
      · have := h.prime_covR a b h'
        rw [hai, hR] at this
        simp at this
      · rw [Function.update_of_ne hai]
        exact hrk a b a' h' ha'

omit [CommRing K] [LinearOrder K] in
theorem nR_cover_lt {s : St K r c} {i : Fin r} (hR : s.covR i = false)
    (p : Fin r → Fin c → Bool) (q : Fin c → Bool) :
    nR s < nR { s with prime := p, covR := Function.update s.covR i true, covC := q } := by
  unfold nR
  apply Finset.card_lt_card
  refine ⟨?_, ?_⟩
  · intro a ha
    simp only [Finset.mem_filter, Finset.mem_univ, true_and] at ha ⊢
    by_cases hai : a = i
    · simp [hai]
    · simpa [Function.update_of_ne hai] using ha
  · intro hsub
    have : i ∈ Finset.univ.filter fun a => s.covR a = true := by
      apply hsub; simp
    simp [hR] at this

/-- What one pass of step 3 guarantees. -/
def SweepOK (s : St K r c) (js : List (Fin c)) (z : Bool) : Sweep K r c → Prop
  | .augment s' i j => ∃ t : St K r c, Core t ∧ t.star = s.star ∧ t.dist = s.dist ∧
      s' = { t with prime := upd2 t.prime i j true } ∧ t.covR i = false ∧ t.covC j = false ∧
      t.dist i j = 0 ∧ ∀ k, t.star i k = false
  | .swept s' true => Core s' ∧ s'.star = s.star ∧ s'.dist = s.dist ∧
      (nR s < nR s' ∨ (z = true ∧ nR s ≤ nR s'))
  | .swept s' false => z = false ∧ s' = s ∧
      ∀ j ∈ js, s.covC j = false → ∀ i, s.covR i = false → s.dist i j ≠ 0

theorem sweep_spec : ∀ (js : List (Fin c)) (s : St K r c) (z : Bool), Core s →
    SweepOK s js z (sweep js s z) := by
  intro js
  induction js with
  | nil =>
    intro s z h
    unfold sweep
    cases z
    · exact ⟨rfl, rfl, by simp⟩
    · exact ⟨h, rfl, rfl, Or.inr ⟨rfl, le_refl _⟩⟩
  | cons j js ih =>
    intro s z h
    unfold sweep
    by_cases hC : s.covC j = true
    · rw [if_pos hC]
      have := ih s z h
      revert this
      cases sweep js s z with
      | augment s' i j' => exact id
      | swept s' z' =>
        cases z' with
        | true => exact id
        | false =>
          rintro ⟨h1, h2, h3⟩
          refine ⟨h1, h2, ?_⟩
          intro b hb hbc
          rcases List.mem_cons.1 hb with rfl | hb
          · simp [hC] at hbc
          · exact h3 b hb hbc
    · rw [if_neg hC]
      have hC' : s.covC j = false := by simpa using hC
      cases hf : (List.finRange r).find? (fun i => !s.covR i && decide (s.dist i j = 0)) with
      | none =>
        have hno := find_finRange_none hf
        have := ih s z h
        simp only
        revert this
        cases sweep js s z with
        | augment s' i j' => exact id
        | swept s' z' =>
          cases z' with
          | true => exact id
          | false =>
            rintro ⟨h1, h2, h3⟩
            refine ⟨h1, h2, ?_⟩
            intro b hb hbc
            rcases List.mem_cons.1 hb with rfl | hb
            · intro i hi hd
              have := hno i
              simp [hi, hd] at this
            · exact h3 b hb hbc
      | some i =>
        have hi := find_finRange_some hf
        simp only [Bool.and_eq_true, Bool.not_eq_true', decide_eq_true_eq] at hi
        obtain ⟨hR, hz⟩ := hi
        simp only
        cases hst : starCol s.star i with
        | none =>
          have hno : ∀ k, s.star i k = false := find_finRange_none hst
          exact ⟨s, h, rfl, rfl, rfl, hR, hC', hz, hno⟩
        | some k =>
          have hk : s.star i k = true := find_finRange_some hst
          have h' := h.cover hR hC' hz hk
          have hlt := nR_cover_lt (s := s) hR (upd2 s.prime i j true)
            (Function.update s.covC k false)
          simp only
          have := ih _ true h'
          generalize sweep js ({ s with
            prime := upd2 s.prime i j true
            covR := Function.update s.covR i true
            covC := Function.update s.covC k false } : St K r c) true = res at this ⊢
          revert this
          cases res with
          | augment s' i' j' => exact id
          | swept s' z' =>
            cases z' with
            | true =>
              rintro ⟨h1, h2, h3, h4⟩
              refine ⟨h1, h2, h3, Or.inl ?_⟩
              rcases h4 with h4 | ⟨_, h4⟩
              · exact lt_trans hlt h4
              · exact lt_of_lt_of_le hlt h4
            | false =>
              rintro ⟨h1, _⟩
              simp at h1

/-- Step 4 followed by step 2a re-establishes the discipline with one more starred column. -/
theorem step4_spec {t : St K r c} (h : Core t) {i : Fin r} {j : Fin c}
    (hR : t.covR i = false) (hC : t.covC j = false) (hz : t.dist i j = 0)
    (hns : ∀ k, t.star i k = false) :
    ∃ s', step4 { t with prime := upd2 t.prime i j true } i j = .ok s' ∧
      s'.dist = t.dist ∧ Core (step2a s') ∧ (step2a s').dist = t.dist ∧
      nStar t < nStar (step2a s') ∧ (∀ j, (step2a s').covC j = true ↔ ∃ i, (step2a s').star i j = true) ∧
      (∀ a b, t.star a b = true → ∃ k, (step2a s').star a k = true) ∧
      (∀ a b, t.star a b = true → ∃ k, (step2a s').star k b = true) := by
  obtain ⟨rk, hrk⟩ := h.rank
  have hstarj : ∀ a, t.star a j = true → t.covR a = true := by
    intro a ha
    have := h.cov_iff a j ha
    by_contra hcon
    have h2 := this.2 (by simpa using hcon)
    simp [hC] at h2
  obtain ⟨new, hnew, hA⟩ := step4Loop_spec t.star (upd2 t.prime i j true)
    (fun a b => t.dist a b = 0) (fun a => t.covR a = true) rk h.rowU h.colU
    (by
      intro a ha
      obtain ⟨b, hb⟩ := h.covR_prime a ha
      exact ⟨b, (upd2_true_iff _ _ _ _ _).2 (Or.inr hb)⟩)
    (by
      intro a b ha hab
      have hp : t.prime a b = true := by
        rcases (upd2_true_iff _ _ _ _ _).1 hab with ⟨rfl, rfl⟩ | h'
        · simp [hR] at ha
        · exact h'
      refine ⟨h.prime_zero a b hp, ?_⟩
      intro a' ha'
      refine ⟨?_, hrk a b a' hp ha'⟩
      have := h.cov_iff a' b ha'
      by_contra hcon
      have h2 := this.2 (by simpa using hcon)
      simp [h.prime_covC a b hp] at h2)
    (r + 1) (upd2 t.star i j true) j i (Finset.univ.sup rk + 1)
    (by
      have := Finset.card_le_univ (Finset.univ.filter fun a =>
        t.covR a = true ∧ rk a < Finset.univ.sup rk + 1)
      simp only [Fintype.card_fin] at this
      omega)
    (by
      intro a b hab
      rcases (upd2_true_iff _ _ _ _ _).1 hab with ⟨rfl, rfl⟩ | h'
      · exact hz
      · exact h.zero a b h')
    (by
      intro a b k hab hak
      rcases (upd2_true_iff _ _ _ _ _).1 hab with ⟨rfl, rfl⟩ | h'
      · rcases (upd2_true_iff _ _ _ _ _).1 hak with ⟨_, rfl⟩ | h''
        · rfl
        · simp [hns k] at h''
      · rcases (upd2_true_iff _ _ _ _ _).1 hak with ⟨rfl, rfl⟩ | h''
        · simp [hns b] at h'
        · exact h.rowU a b k h' h'')
    (by
      intro a k b hb hab hkb
      rcases (upd2_true_iff _ _ _ _ _).1 hab with ⟨_, h'⟩ | h'
      · exact absurd h' hb
      · rcases (upd2_true_iff _ _ _ _ _).1 hkb with ⟨_, h''⟩ | h''
        · exact absurd h'' hb
        · exact h.colU a k b h' h'')
    (by
      intro a ha
      rcases (upd2_true_iff _ _ _ _ _).1 ha with ⟨h', _⟩ | h'
      · exact Or.inl h'
      · exact Or.inr h')
    (by
      intro a ha _ b
      have hai : a ≠ i := by rintro rfl; simp [hR] at ha
      simp [upd2, hai])
    (by
      intro a b hab
      rcases (upd2_true_iff _ _ _ _ _).1 hab with h' | h'
      · exact Or.inr (Or.inl h')
      · exact Or.inl h')
    (by
      intro a b hab
      exact ⟨b, (upd2_true_iff _ _ _ _ _).2 (Or.inr hab)⟩)
    (by
      intro a b hab
      exact ⟨a, (upd2_true_iff _ _ _ _ _).2 (Or.inr hab)⟩)
    ((upd2_true_iff _ _ _ _ _).2 (Or.inl ⟨rfl, rfl⟩))
    (by
      intro a ha
      refine ⟨hstarj a ha, ?_⟩
      have : rk a ≤ Finset.univ.sup rk := Finset.le_sup (f := rk) (Finset.mem_univ a)
      omega)
    (by simp [hR])
  refine ⟨{ t with star := new, prime := fun _ _ => false, covR := fun _ => false }, ?_, rfl, ?_⟩
  · unfold step4
    simp only [hnew]
  · have hcov : ∀ b, (step2a ({ t with star := new, prime := fun _ _ => false, covR := fun _ => false } : St K r c)).covC b = true ↔
        ∃ a, new a b = true := by
      intro b
      simp only [step2a, Bool.or_eq_true, List.any_eq_true, List.mem_finRange, true_and]
      constructor
      · rintro (hb | hb)
        · obtain ⟨a, ha⟩ := h.covC_star b hb
          exact hA.colKeep a b ha
        · exact hb
      · exact Or.inr
    refine ⟨?_, rfl, ?_, hcov, hA.rowKeep, hA.colKeep⟩
    · refine ⟨h.nonneg, hA.zero, hA.rowU, hA.colU, fun b hb => (hcov b).1 hb, ?_, ?_, ?_, ?_, ?_, ?_, ?_⟩
      · intro a b hab
        rw [hcov b]
        simp only [step2a]
        exact ⟨fun _ => trivial, fun _ => ⟨a, hab⟩⟩
      · intro a ha; simp [step2a] at ha
      · intro a b hab; simp [step2a] at hab
      · intro a b hab; simp [step2a] at hab
      · intro a b hab; simp [step2a] at hab
      · intro a ha; simp [step2a] at ha
      · exact ⟨rk, by intro a b a' hab; simp [step2a] at hab⟩
    · unfold nStar
      apply Finset.card_lt_card
      refine ⟨?_, ?_⟩
      · intro b hb
        simp only [Finset.mem_filter, Finset.mem_univ, true_and] at hb ⊢
        obtain ⟨a, ha⟩ := hb
        exact hA.colKeep a b ha
      · intro hsub
        obtain ⟨a, b, hab, hno⟩ := hA.more
        have hb : b ∈ Finset.univ.filter fun b => ∃ a, t.star a b = true := by
          apply hsub
          simp only [Finset.mem_filter, Finset.mem_univ, true_and]
          exact ⟨a, hab⟩
        simp [hno] at hb

end

end Gasur.Assign
