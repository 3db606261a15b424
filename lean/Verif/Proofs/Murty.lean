import Verif.Model.Murty
import Verif.Proofs.AssignMain
import Mathlib.Data.Set.Lattice

/-! # Proof that `murty_m_best` enumerates assignments in order of cost -/

set_option linter.unusedSectionVars false
set_option linter.unusedSimpArgs false

namespace Gasur.Murty

open Gasur.Assign Gasur.Spec

variable {K : Type*} [CommRing K] [LinearOrder K] [IsStrictOrderedRing K] {r n : ℕ}

/-- A complete assignment of the extended problem using finite entries only. -/
structure Full (P : Fin r → Fin (n + r) → WithTop K) (f : Fin r → Fin (n + r)) : Prop where
  inj : ∀ i i', f i = f i' → i = i'
  fin : ∀ i, P i (f i) ≠ ⊤

/-- Forget which dummy column is used. -/
def proj (f : Fin r → Fin (n + r)) : Fin r → Option (Fin n) :=
  fun i => if h : (f i).val < n then some ⟨(f i).val, h⟩ else none

/-- The assignments represented by a subproblem. -/
def asg (P : Fin r → Fin (n + r) → WithTop K) : Set (Fin r → Option (Fin n)) :=
  {σ | ∃ f, Full P f ∧ proj f = σ}

/-- Invariant of subproblem matrices. -/
structure Good (cm P : Fin r → Fin (n + r) → WithTop K) : Prop where
  nonneg : ∀ i j, 0 ≤ P i j
  sub : ∀ i j, P i j = ⊤ ∨ P i j = cm i j
  exch : ∀ i i' (d d' : Fin (n + r)), n ≤ d.val → n ≤ d'.val →
    P i d ≠ ⊤ → P i d' ≠ ⊤ → P i' d ≠ ⊤ → P i' d' ≠ ⊤

theorem proj_eq_some {f : Fin r → Fin (n + r)} {i : Fin r} {j : Fin n} :
    proj f i = some j ↔ (f i).val = j.val := by
  unfold proj
  split
  · rename_i h
    simp only [Option.some.injEq, Fin.ext_iff]
  · rename_i h
    simp only [reduceCtorEq, false_iff]
    intro he; exact h (by rw [he]; exact j.isLt)

theorem proj_eq_none {f : Fin r → Fin (n + r)} {i : Fin r} :
    proj f i = none ↔ n ≤ (f i).val := by
  unfold proj
  split
  · rename_i h; simp only [reduceCtorEq, false_iff]; omega
  · rename_i h; simp only [true_iff]; omega

theorem proj_eq_proj {f g : Fin r → Fin (n + r)} {i : Fin r} :
    proj f i = proj g i ↔ (f i = g i ∨ (n ≤ (f i).val ∧ n ≤ (g i).val)) := by
  cases hg : proj g i with
  | none =>
    rw [proj_eq_none] at hg ⊢
    constructor
    · intro h; exact Or.inr ⟨h, hg⟩
    · rintro (h | h)
      · rw [h]; exact hg
      · exact h.1
  | some j =>
    rw [proj_eq_some] at hg ⊢
    constructor
    · intro h; left; exact Fin.ext (by omega)
    · rintro (h | h)
      · rw [h]; exact hg
      · have := j.isLt; omega

/-! ### banning -/

theorem ban_ne_top {P : Fin r → Fin (n + r) → WithTop K} {aw : Fin r} {aj : Fin (n + r)} {i j} :
    ban P aw aj i j ≠ ⊤ ↔ P i j ≠ ⊤ ∧ ¬ (i = aw ∧ (j = aj ∨ (n ≤ aj.val ∧ n ≤ j.val))) := by
  unfold ban
  split
  · rename_i h
    unfold upd2
    split
    · rename_i h2; simp [h2]
    · rename_i h2
      constructor
      · intro h3
        refine ⟨h3, ?_⟩
        rintro ⟨h4, h5 | h5⟩
        · exact h2 ⟨h4, h5⟩
        · omega
      · exact fun h3 => h3.1
  · rename_i h
    beta_reduce
    by_cases h2 : i = aw ∧ n ≤ j.val
    · rw [if_pos h2]
      constructor
      · intro h3; exact absurd rfl h3
      · rintro ⟨_, h3⟩
        exact absurd ⟨h2.1, Or.inr ⟨by omega, h2.2⟩⟩ h3
    · rw [if_neg h2]
      constructor
      · intro h3
        refine ⟨h3, ?_⟩
        rintro ⟨h4, h5 | h5⟩
        · exact h2 ⟨h4, by rw [h5]; omega⟩
        · exact h2 ⟨h4, h5.2⟩
      · exact fun h3 => h3.1

theorem ban_sub {P : Fin r → Fin (n + r) → WithTop K} {aw : Fin r} {aj : Fin (n + r)} {i j} :
    ban P aw aj i j = ⊤ ∨ ban P aw aj i j = P i j := by
  unfold ban upd2
  split
  · simp only; split
    · exact Or.inl rfl
    · exact Or.inr rfl
  · simp only; split
    · exact Or.inl rfl
    · exact Or.inr rfl

theorem Good.ban {cm P : Fin r → Fin (n + r) → WithTop K} (h : Good cm P) (aw : Fin r)
    (aj : Fin (n + r)) : Good cm (ban P aw aj) := by
  refine ⟨?_, ?_, ?_⟩
  · intro i j
    rcases ban_sub (P := P) (aw := aw) (aj := aj) (i := i) (j := j) with h1 | h1
    · rw [h1]; exact le_top
    · rw [h1]; exact h.nonneg i j
  · intro i j
    rcases ban_sub (P := P) (aw := aw) (aj := aj) (i := i) (j := j) with h1 | h1
    · exact Or.inl h1
    · rw [h1]; exact h.sub i j
  · intro i i' d d' hd hd' h1 h2 h3
    rw [ban_ne_top] at h1 h2 h3 ⊢
    refine ⟨h.exch i i' d d' hd hd' h1.1 h2.1 h3.1, ?_⟩
    rintro ⟨h4, h5⟩
    apply h3.2
    refine ⟨h4, ?_⟩
    rcases h5 with h5 | h5
    · right; rw [← h5]; exact ⟨hd', hd⟩
    · right; exact ⟨h5.1, hd⟩

theorem asg_ban {P : Fin r → Fin (n + r) → WithTop K} {f : Fin r → Fin (n + r)} (aw : Fin r)
    (σ : Fin r → Option (Fin n)) :
    σ ∈ asg (ban P aw (f aw)) ↔ σ ∈ asg P ∧ σ aw ≠ proj f aw := by
  constructor
  · rintro ⟨g, hg, rfl⟩
    refine ⟨⟨g, ⟨hg.inj, fun i => (ban_ne_top.1 (hg.fin i)).1⟩, rfl⟩, ?_⟩
    intro he
    rw [proj_eq_proj] at he
    apply (ban_ne_top.1 (hg.fin aw)).2
    refine ⟨rfl, he.imp id (fun h => ⟨h.2, h.1⟩)⟩
  · rintro ⟨⟨g, hg, rfl⟩, hne⟩
    refine ⟨g, ⟨hg.inj, ?_⟩, rfl⟩
    intro i
    rw [ban_ne_top]
    refine ⟨hg.fin i, ?_⟩
    rintro ⟨rfl, h⟩
    exact hne (proj_eq_proj.2 (h.imp id (fun h => ⟨h.2, h.1⟩)))

/-! ### pinning -/

theorem pin_ne_top {P : Fin r → Fin (n + r) → WithTop K} {aw : Fin r} {aj : Fin (n + r)} {i j} :
    pin P aw aj i j ≠ ⊤ ↔ P i j ≠ ⊤ ∧ (i = aw ↔ j = aj) := by
  unfold pin
  by_cases h1 : i = aw <;> by_cases h2 : j = aj <;> simp [h1, h2]

theorem pin_sub {P : Fin r → Fin (n + r) → WithTop K} {aw : Fin r} {aj : Fin (n + r)} {i j} :
    pin P aw aj i j = ⊤ ∨ pin P aw aj i j = P i j := by
  unfold pin
  split
  · exact Or.inr rfl
  · split
    · exact Or.inl rfl
    · exact Or.inr rfl

theorem Good.pin {cm P : Fin r → Fin (n + r) → WithTop K} (h : Good cm P) (aw : Fin r)
    (aj : Fin (n + r)) : Good cm (pin P aw aj) := by
  refine ⟨?_, ?_, ?_⟩
  · intro i j
    rcases pin_sub (P := P) (aw := aw) (aj := aj) (i := i) (j := j) with h1 | h1
    · rw [h1]; exact le_top
    · rw [h1]; exact h.nonneg i j
  · intro i j
    rcases pin_sub (P := P) (aw := aw) (aj := aj) (i := i) (j := j) with h1 | h1
    · exact Or.inl h1
    · rw [h1]; exact h.sub i j
  · intro i i' d d' hd hd' h1 h2 h3
    rw [pin_ne_top] at h1 h2 h3 ⊢
    refine ⟨h.exch i i' d d' hd hd' h1.1 h2.1 h3.1, ?_⟩
    rw [h3.2, ← h1.2, h2.2]

theorem Full.pin {P : Fin r → Fin (n + r) → WithTop K} {f : Fin r → Fin (n + r)} (h : Full P f)
    (aw : Fin r) : Full (pin P aw (f aw)) f := by
  refine ⟨h.inj, ?_⟩
  intro i
  rw [pin_ne_top]
  exact ⟨h.fin i, fun he => by rw [he], fun he => h.inj _ _ he⟩

theorem asg_pin {cm P : Fin r → Fin (n + r) → WithTop K} {f : Fin r → Fin (n + r)}
    (hP : Good cm P) (hf : Full P f) (aw : Fin r) (σ : Fin r → Option (Fin n)) :
    σ ∈ asg (pin P aw (f aw)) ↔ σ ∈ asg P ∧ σ aw = proj f aw := by
  constructor
  · rintro ⟨g, hg, rfl⟩
    refine ⟨⟨g, ⟨hg.inj, fun i => (pin_ne_top.1 (hg.fin i)).1⟩, rfl⟩, ?_⟩
    rw [proj_eq_proj]
    exact Or.inl ((pin_ne_top.1 (hg.fin aw)).2.1 rfl)
  · rintro ⟨⟨g, hg, rfl⟩, he⟩
    rw [proj_eq_proj] at he
    by_cases hgf : g aw = f aw
    · refine ⟨g, ⟨hg.inj, ?_⟩, rfl⟩
      intro i
      rw [pin_ne_top]
      refine ⟨hg.fin i, ?_⟩
      rw [← hgf]
      exact ⟨fun h => by rw [h], fun h => hg.inj _ _ h⟩
    · -- swap the two dummy columns
      obtain ⟨hd1, hd2⟩ : n ≤ (g aw).val ∧ n ≤ (f aw).val := by
        rcases he with h | h
        · exact absurd h hgf
        · exact h
      let g' : Fin r → Fin (n + r) := fun i =>
        if g i = g aw then f aw else if g i = f aw then g aw else g i
      have hg' : ∀ i, (g' i = g i) ∨ (n ≤ (g' i).val ∧ n ≤ (g i).val) := by
        intro i
        simp only [g']
        by_cases h1 : g i = g aw
        · rw [if_pos h1, h1]; exact Or.inr ⟨hd2, hd1⟩
        · rw [if_neg h1]
          by_cases h2 : g i = f aw
          · rw [if_pos h2, h2]; exact Or.inr ⟨hd1, hd2⟩
          · rw [if_neg h2]; exact Or.inl rfl
      have hinj : ∀ i i', g' i = g' i' → i = i' := by
        intro i i' h
        simp only [g'] at h
        apply hg.inj
        by_cases h1 : g i = g aw <;> by_cases h1' : g i' = g aw <;>
          by_cases h2 : g i = f aw <;> by_cases h2' : g i' = f aw <;>
          simp_all
      refine ⟨g', ⟨hinj, ?_⟩, ?_⟩
      · intro i
        rw [pin_ne_top]
        have haw : g' aw = f aw := by simp [g']
        refine ⟨?_, ?_⟩
        · simp only [g']
          by_cases h1 : g i = g aw
          · rw [if_pos h1]
            have : i = aw := hg.inj _ _ h1
            rw [this]; exact hf.fin aw
          · rw [if_neg h1]
            by_cases h2 : g i = f aw
            · rw [if_pos h2]
              refine hP.exch aw i (f aw) (g aw) hd2 hd1 (hf.fin aw) (hg.fin aw) ?_
              rw [← h2]; exact hg.fin i
            · rw [if_neg h2]; exact hg.fin i
        · rw [← haw]
          exact ⟨fun h => by rw [h], fun h => hinj _ _ h⟩
      · funext i
        rw [proj_eq_proj]
        exact hg' i

/-! ### results of `assign_opt` on a subproblem -/

/-- Cost of a complete assignment. -/
def fcost (P : Fin r → Fin (n + r) → WithTop K) (f : Fin r → Fin (n + r)) : K :=
  ∑ i, (P i (f i)).untopD 0

theorem assignSize_le {c : ℕ} (a : Fin r → Option (Fin c)) : assignSize a ≤ r := by
  unfold assignSize
  simpa using Finset.card_le_univ (Finset.univ.filter fun i => (a i).isSome = true)

theorem assignSize_full {c : ℕ} (a : Fin r → Option (Fin c)) :
    assignSize a = r ↔ ∀ i, (a i).isSome = true := by
  unfold assignSize
  constructor
  · intro h i
    have : (Finset.univ.filter fun i => (a i).isSome = true) = Finset.univ := by
      apply Finset.eq_univ_of_card; simpa using h
    have h2 := Finset.mem_univ i
    rw [← this] at h2
    simpa using h2
  · intro h
    rw [Finset.filter_true_of_mem (fun i _ => h i)]
    simp

theorem assignCost_some {P : Fin r → Fin (n + r) → WithTop K} (f : Fin r → Fin (n + r)) :
    assignCost P (fun i => some (f i)) = fcost P f := rfl

theorem assign_full {cm P : Fin r → Fin (n + r) → WithTop K} (hP : Good cm P) :
    ∃ a cost, assignOpt P = .ok (a, cost) ∧
      ((∃ f, a = (fun i => some (f i)) ∧ Full P f ∧ cost = fcost P f ∧
          ∀ g, Full P g → fcost P f ≤ fcost P g) ∨
       ((∃ i, a i = none) ∧ ∀ g, ¬ Full P g)) := by
  obtain ⟨a, h1, h2, h3⟩ := assignOpt_ok P hP.nonneg
  refine ⟨a, _, h1, ?_⟩
  have hfull : ∀ g, Full P g → IsAssignment P (fun i => some (g i)) := by
    intro g hg
    refine ⟨?_, ?_⟩
    · intro i i' j hi hi'
      simp only [Option.some.injEq] at hi hi'
      exact hg.inj _ _ (by rw [hi, hi'])
    · intro i j hi
      simp only [Option.some.injEq] at hi
      rw [← hi]; exact hg.fin i
  by_cases hall : ∀ i, (a i).isSome = true
  · left
    have hex : ∀ i, ∃ j, a i = some j := fun i => Option.isSome_iff_exists.1 (hall i)
    choose f hf using hex
    have ha : a = fun i => some (f i) := funext hf
    refine ⟨f, ha, ⟨?_, ?_⟩, ?_, ?_⟩
    · intro i i' h
      exact h2.inj i i' (f i) (hf i) (by rw [hf i', h])
    · intro i; exact h2.finite i (f i) (hf i)
    · rw [ha, assignCost_some]
    · intro g hg
      have := (h3 _ (hfull g hg)).2 (by
        rw [(assignSize_full _).2 (by simp), (assignSize_full _).2 hall])
      rwa [assignCost_some, ha, assignCost_some] at this
  · right
    refine ⟨?_, ?_⟩
    · push Not at hall
      obtain ⟨i, hi⟩ := hall
      exact ⟨i, by simpa using hi⟩
    · intro g hg
      have h4 := (h3 _ (hfull g hg)).1
      rw [(assignSize_full _).2 (by simp)] at h4
      exact hall ((assignSize_full a).1 (le_antisymm (assignSize_le a) h4))

/-! ### slots -/

/-- The assignments of a live slot. -/
def slotAsg (s : Slot K r n) : Set (Fin r → Option (Fin n)) :=
  {σ | s.C.isSome = true ∧ σ ∈ asg s.P}

/-- A live slot holds an optimal solution of its subproblem. -/
def SlotOK (cm : Fin r → Fin (n + r) → WithTop K) (s : Slot K r n) : Prop :=
  ∀ c, s.C = some c → Good cm s.P ∧ ∃ f, s.S = (fun i => some (f i)) ∧ Full s.P f ∧
    c = fcost s.P f ∧ ∀ g, Full s.P g → c ≤ fcost s.P g

theorem expand_spec {cm : Fin r → Fin (n + r) → WithTop K} (f : Fin r → Fin (n + r)) :
    ∀ (rows : List (Fin r)) (P : Fin r → Fin (n + r) → WithTop K) (slots : List (Slot K r n)),
      Good cm P → Full P f →
      ∃ (new : List (Slot K r n)) (E : Set (Fin r → Option (Fin n))),
        expand (fun i => some (f i)) rows P slots = .ok (slots ++ new) ∧
        (∀ s ∈ new, SlotOK cm s ∧ s.C.isSome = true) ∧
        new.Pairwise (fun s t => Disjoint (slotAsg s) (slotAsg t)) ∧
        (∀ σ, σ ∈ asg P ↔ σ ∈ E ∨ ∃ s ∈ new, σ ∈ slotAsg s) ∧
        (∀ s ∈ new, Disjoint (slotAsg s) E) ∧
        (∀ σ ∈ E, ∀ i ∈ rows, σ i = proj f i) ∧ proj f ∈ E := by
  intro rows
  induction rows with
  | nil =>
    intro P slots hP hf
    exact ⟨[], asg P, by simp [expand], by simp, by simp, by simp, by simp, by simp, ⟨f, hf, rfl⟩⟩
  | cons aw rows ih =>
    intro P slots hP hf
    unfold expand
    simp only
    obtain ⟨a, cost, ha, hcase⟩ := assign_full (hP.ban aw (f aw))
    simp only [ha]
    rcases hcase with ⟨g, hg, hgf, hcost, hopt⟩ | ⟨⟨i0, hi0⟩, hno⟩
    · rw [if_pos (by rw [hg]; simp)]
      obtain ⟨new, E, h1, h2, h3, h4, h5, h6, h7⟩ :=
        ih (pin P aw (f aw)) (slots ++ [⟨ban P aw (f aw), a, some cost⟩]) (hP.pin aw (f aw)) (hf.pin aw)
      refine ⟨⟨ban P aw (f aw), a, some cost⟩ :: new, E, ?_, ?_, ?_, ?_, ?_, ?_, h7⟩
      · rw [h1]; simp
      · intro s hs
        rcases List.mem_cons.1 hs with rfl | hs
        · refine ⟨?_, rfl⟩
          intro c hc
          simp only [Option.some.injEq] at hc
          refine ⟨hP.ban aw (f aw), g, hg, hgf, by rw [← hc, hcost], ?_⟩
          rw [← hc, hcost]; exact hopt
        · exact h2 s hs
      · rw [List.pairwise_cons]
        refine ⟨?_, h3⟩
        intro t ht
        rw [Set.disjoint_left]
        rintro σ ⟨_, hσ⟩ hσt
        have e1 := ((asg_ban aw σ).1 hσ).2
        have e2 := ((asg_pin hP hf aw σ).1 ((h4 σ).2 (Or.inr ⟨t, ht, hσt⟩))).2
        exact e1 e2
      · intro σ
        constructor
        · intro hσ
          by_cases he : σ aw = proj f aw
          · rcases (h4 σ).1 ((asg_pin hP hf aw σ).2 ⟨hσ, he⟩) with h | ⟨s, hs, h⟩
            · exact Or.inl h
            · exact Or.inr ⟨s, List.mem_cons_of_mem _ hs, h⟩
          · exact Or.inr ⟨_, List.mem_cons_self, rfl, (asg_ban aw σ).2 ⟨hσ, he⟩⟩
        · rintro (h | ⟨s, hs, h⟩)
          · exact ((asg_pin hP hf aw σ).1 ((h4 σ).2 (Or.inl h))).1
          · rcases List.mem_cons.1 hs with rfl | hs
            · exact ((asg_ban aw σ).1 h.2).1
            · exact ((asg_pin hP hf aw σ).1 ((h4 σ).2 (Or.inr ⟨s, hs, h⟩))).1
      · intro s hs
        rcases List.mem_cons.1 hs with rfl | hs
        · rw [Set.disjoint_left]
          rintro σ ⟨_, hσ⟩ hσE
          have e1 := ((asg_ban aw σ).1 hσ).2
          have e2 := ((asg_pin hP hf aw σ).1 ((h4 σ).2 (Or.inl hσE))).2
          exact e1 e2
        · exact h5 s hs
      · intro σ hσ i hi
        rcases List.mem_cons.1 hi with rfl | hi
        · exact ((asg_pin hP hf i σ).1 ((h4 σ).2 (Or.inl hσ))).2
        · exact h6 σ hσ i hi
    · rw [if_neg (by
        simp only [List.all_eq_true, List.mem_finRange, true_implies]
        intro h
        have := h i0
        simp [hi0] at this)]
      obtain ⟨new, E, h1, h2, h3, h4, h5, h6, h7⟩ := ih P slots hP hf
      refine ⟨new, E, h1, h2, h3, h4, h5, ?_, h7⟩
      intro σ hσ i hi
      rcases List.mem_cons.1 hi with rfl | hi
      · by_contra hne
        obtain ⟨g, hg, _⟩ := (asg_ban i σ).2 ⟨(h4 σ).2 (Or.inl hσ), hne⟩
        exact hno g hg
      · exact h6 σ hσ i hi

/-! ### nanargmin -/

theorem nanArgmin_none {l : List (Option K)} (h : nanArgmin l = none) : ∀ o ∈ l, o = none := by
  induction l with
  | nil => simp
  | cons a l ih =>
    cases a with
    | none =>
      simp only [nanArgmin, Option.map_eq_none_iff] at h
      intro o ho
      rcases List.mem_cons.1 ho with rfl | ho
      · rfl
      · exact ih h o ho
    | some x =>
      simp only [nanArgmin] at h
      split at h
      · simp at h
      · split at h <;> simp at h

theorem nanArgmin_some {l : List (Option K)} {i : ℕ} {c : K} (h : nanArgmin l = some (i, c)) :
    l[i]? = some (some c) ∧ ∀ x, some x ∈ l → c ≤ x := by
  induction l generalizing i c with
  | nil => simp [nanArgmin] at h
  | cons a l ih =>
    cases a with
    | none =>
      simp only [nanArgmin, Option.map_eq_some_iff] at h
      obtain ⟨⟨i', c'⟩, h1, h2⟩ := h
      simp only [Prod.mk.injEq] at h2
      obtain ⟨rfl, rfl⟩ := h2
      obtain ⟨h3, h4⟩ := ih h1
      refine ⟨by simpa using h3, ?_⟩
      intro x hx
      exact h4 x (by simpa using hx)
    | some x =>
      simp only [nanArgmin] at h
      split at h
      · rename_i hn
        simp only [Option.some.injEq, Prod.mk.injEq] at h
        obtain ⟨rfl, rfl⟩ := h
        refine ⟨by simp, ?_⟩
        intro y hy
        rcases List.mem_cons.1 hy with hy | hy
        · simp only [Option.some.injEq] at hy; rw [hy]
        · have := nanArgmin_none hn _ hy; simp at this
      · rename_i i' y hn
        obtain ⟨h3, h4⟩ := ih hn
        split at h
        · rename_i hlt
          simp only [Option.some.injEq, Prod.mk.injEq] at h
          obtain ⟨rfl, rfl⟩ := h
          refine ⟨by simpa using h3, ?_⟩
          intro z hz
          rcases List.mem_cons.1 hz with hz | hz
          · simp only [Option.some.injEq] at hz; rw [hz]; exact hlt.le
          · exact h4 z hz
        · rename_i hlt
          simp only [Option.some.injEq, Prod.mk.injEq] at h
          obtain ⟨rfl, rfl⟩ := h
          refine ⟨by simp, ?_⟩
          intro z hz
          rcases List.mem_cons.1 hz with hz | hz
          · simp only [Option.some.injEq] at hz; rw [hz]
          · exact le_trans (not_lt.1 hlt) (h4 z hz)

/-! ### the main loop -/

/-- Decoded row of a stored solution. -/
def pj (S : Fin r → Option (Fin (n + r))) : Fin r → Option (Fin n) :=
  fun i => (S i).bind fun j => if h : j.val < n then some ⟨j.val, h⟩ else none

theorem pj_some (f : Fin r → Fin (n + r)) : pj (fun i => some (f i)) = proj f := by
  funext i; simp [pj, proj]

theorem Full.mono {cm P : Fin r → Fin (n + r) → WithTop K} (hP : Good cm P)
    {f : Fin r → Fin (n + r)} (hf : Full P f) : Full cm f := by
  refine ⟨hf.inj, ?_⟩
  intro i
  rcases hP.sub i (f i) with h | h
  · exact absurd h (hf.fin i)
  · rw [← h]; exact hf.fin i

theorem fcost_mono {cm P : Fin r → Fin (n + r) → WithTop K} (hP : Good cm P)
    {f : Fin r → Fin (n + r)} (hf : Full P f) : fcost P f = fcost cm f := by
  unfold fcost
  apply Finset.sum_congr rfl
  intro i _
  rcases hP.sub i (f i) with h | h
  · exact absurd h (hf.fin i)
  · rw [h]

/-- Popped solutions are correct. -/
def OutOK (cm : Fin r → Fin (n + r) → WithTop K) (out : List ((Fin r → Option (Fin (n + r))) × K)) :
    Prop :=
  (∀ p ∈ out, ∃ f, p.1 = (fun i => some (f i)) ∧ Full cm f ∧ p.2 = fcost cm f) ∧
  out.Pairwise (fun p q => pj p.1 ≠ pj q.1) ∧ out.Pairwise (fun p q => p.2 ≤ q.2)

/-- Loop invariant of `for ii in range(0, m)`. -/
structure LoopInv (cm : Fin r → Fin (n + r) → WithTop K) (slots : List (Slot K r n))
    (out : List ((Fin r → Option (Fin (n + r))) × K)) : Prop where
  slotOK : ∀ s ∈ slots, SlotOK cm s
  disj : slots.Pairwise (fun s t => Disjoint (slotAsg s) (slotAsg t))
  outOK : OutOK cm out
  fresh : ∀ s ∈ slots, ∀ p ∈ out, pj p.1 ∉ slotAsg s
  cover : ∀ σ, σ ∈ asg cm ↔ (∃ p ∈ out, pj p.1 = σ) ∨ ∃ s ∈ slots, σ ∈ slotAsg s
  order : ∀ p ∈ out, ∀ s ∈ slots, ∀ c, s.C = some c → p.2 ≤ c
  dead : slots.countP (fun s => s.C.isNone) = out.length

/-- What the enumeration guarantees for the rows `res` obtained with `m` iterations. -/
def FinalOK (cm : Fin r → Fin (n + r) → WithTop K) (kost : (Fin r → Option (Fin n)) → K) (m : ℕ)
    (res : List ((Fin r → Option (Fin (n + r))) × K)) : Prop :=
  OutOK cm res ∧ res.length ≤ m ∧
  ∀ σ ∈ asg cm, (∀ p ∈ res, pj p.1 ≠ σ) → res.length = m ∧ ∀ p ∈ res, p.2 ≤ kost σ

theorem popLoop_spec {cm : Fin r → Fin (n + r) → WithTop K} {kost : (Fin r → Option (Fin n)) → K}
    (hk : ∀ f, Full cm f → fcost cm f = kost (proj f)) :
    ∀ (k : ℕ) (slots : List (Slot K r n)) (out : List ((Fin r → Option (Fin (n + r))) × K)),
      LoopInv cm slots out →
      ∃ res, popLoop k slots out = .ok (res.map some) ∧ FinalOK cm kost (out.length + k) res := by
  intro k
  induction k with
  | zero =>
    intro slots out h
    refine ⟨out, rfl, h.outOK, by omega, ?_⟩
    intro σ hσ hno
    refine ⟨by omega, ?_⟩
    rcases (h.cover σ).1 hσ with ⟨p, hp, hpe⟩ | ⟨s, hs, hsσ⟩
    · exact absurd hpe (hno p hp)
    · intro p hp
      obtain ⟨hlive, g, hg, rfl⟩ := hsσ
      obtain ⟨c, hc⟩ := Option.isSome_iff_exists.1 hlive
      obtain ⟨hgood, f, _, _, _, hopt⟩ := h.slotOK s hs c hc
      calc p.2 ≤ c := h.order p hp s hs c hc
        _ ≤ fcost s.P g := hopt g hg
        _ = fcost cm g := fcost_mono hgood hg
        _ = kost (proj g) := hk g (hg.mono hgood)
  | succ k ih =>
    intro slots out h
    unfold popLoop
    by_cases hall : slots.all (fun s => s.C.isNone) = true
    · rw [if_pos hall]
      have hlen : slots.length = out.length := by
        rw [← h.dead, List.countP_eq_length.2]
        intro s hs
        exact List.all_eq_true.1 hall s hs
      refine ⟨out, ?_, h.outOK, by omega, ?_⟩
      · rw [hlen, List.take_append_of_le_length (by simp)]
        simp [List.take_of_length_le]
      · intro σ hσ hno
        exfalso
        rcases (h.cover σ).1 hσ with ⟨p, hp, hpe⟩ | ⟨s, hs, hsσ⟩
        · exact hno p hp hpe
        · have := List.all_eq_true.1 hall s hs
          have h2 := hsσ.1
          simp only [Option.isNone_iff_eq_none] at this
          rw [this] at h2; simp at h2
    · rw [if_neg hall]
      cases harg : nanArgmin (slots.map fun s => s.C) with
      | none =>
        exfalso
        apply hall
        rw [List.all_eq_true]
        intro s hs
        have := nanArgmin_none harg s.C (List.mem_map.2 ⟨s, hs, rfl⟩)
        rw [this]; rfl
      | some ic =>
        obtain ⟨idx, cost⟩ := ic
        obtain ⟨hget, hmin⟩ := nanArgmin_some harg
        rw [List.getElem?_map, Option.map_eq_some_iff] at hget
        obtain ⟨sl, hsl, hslC⟩ := hget
        simp only [hsl]
        obtain ⟨hlt, hslget⟩ := List.getElem?_eq_some_iff.1 hsl
        obtain ⟨l1, l2, hsplit, hl1, hset⟩ := List.exists_of_set (a' := { sl with C := none }) hlt
        rw [hslget] at hsplit
        have hslmem : sl ∈ slots := by rw [hsplit]; simp
        obtain ⟨hgood, f, hS, hf, hcost, hopt⟩ := h.slotOK sl hslmem cost hslC
        obtain ⟨new, E, e1, e2, e3, e4, e5, e6, e7⟩ := expand_spec (cm := cm) f (List.finRange r) sl.P
          (slots.set idx { sl with C := none }) hgood hf
        have hE : ∀ σ, σ ∈ E ↔ σ = proj f := by
          intro σ
          constructor
          · intro hσ; funext i; exact e6 σ hσ i (List.mem_finRange i)
          · rintro rfl; exact e7
        rw [← hS] at e1
        simp only [e1]
        have hsub : ∀ s ∈ new, slotAsg s ⊆ slotAsg sl := by
          intro s hs σ hσ
          exact ⟨by rw [hslC]; rfl, (e4 σ).2 (Or.inr ⟨s, hs, hσ⟩)⟩
        have hfsl : proj f ∈ slotAsg sl := ⟨by rw [hslC]; rfl, f, hf, rfl⟩
        have hdead : slotAsg ({ sl with C := none } : Slot K r n) = ∅ := by
          ext σ; simp [slotAsg]
        have hold : ∀ s ∈ slots.set idx { sl with C := none },
            s = { sl with C := none } ∨ (s ∈ l1 ∨ s ∈ l2) := by
          intro s hs
          rw [hset] at hs
          simp only [List.mem_append, List.mem_cons] at hs
          tauto
        have hmem : ∀ s, s ∈ l1 ∨ s ∈ l2 → s ∈ slots := by
          intro s hs; rw [hsplit]; simp only [List.mem_append, List.mem_cons]; tauto
        have hdisj := h.disj
        rw [hsplit, List.pairwise_append, List.pairwise_cons] at hdisj
        obtain ⟨d1, ⟨d2, d3⟩, d4⟩ := hdisj
        have hdsl : ∀ s, s ∈ l1 ∨ s ∈ l2 → Disjoint (slotAsg s) (slotAsg sl) := by
          rintro s (hs | hs)
          · exact d4 s hs sl List.mem_cons_self
          · exact (d2 s hs).symm
        have hpjf : pj sl.S = proj f := by rw [hS]; exact pj_some f
        have hinv : LoopInv cm (slots.set idx { sl with C := none } ++ new)
            (out ++ [(sl.S, cost)]) := by
          refine ⟨?_, ?_, ⟨?_, ?_, ?_⟩, ?_, ?_, ?_, ?_⟩
          · intro s hs
            rcases List.mem_append.1 hs with hs | hs
            · rcases hold s hs with rfl | hs
              · intro c hc; simp at hc
              · exact h.slotOK s (hmem s hs)
            · exact (e2 s hs).1
          · rw [List.pairwise_append]
            refine ⟨?_, e3, ?_⟩
            · rw [hset, List.pairwise_append, List.pairwise_cons]
              refine ⟨d1, ⟨?_, d3⟩, ?_⟩
              · intro t _; rw [hdead]; exact Set.empty_disjoint _
              · intro s hs t ht
                rcases List.mem_cons.1 ht with rfl | ht
                · rw [hdead]; exact Set.disjoint_empty _
                · exact d4 s hs t (List.mem_cons_of_mem _ ht)
            · intro s hs t ht
              rcases hold s hs with rfl | hs
              · rw [hdead]; exact Set.empty_disjoint _
              · exact (hdsl s hs).mono_right (hsub t ht)
          · intro p hp
            rcases List.mem_append.1 hp with hp | hp
            · exact h.outOK.1 p hp
            · simp only [List.mem_singleton] at hp
              subst hp
              exact ⟨f, hS, hf.mono hgood, by rw [hcost]; exact fcost_mono hgood hf⟩
          · rw [List.pairwise_append]
            refine ⟨h.outOK.2.1, by simp, ?_⟩
            intro p hp q hq
            simp only [List.mem_singleton] at hq
            subst hq
            intro he
            rw [hpjf] at he
            exact h.fresh sl hslmem p hp (by rw [he]; exact hfsl)
          · rw [List.pairwise_append]
            refine ⟨h.outOK.2.2, by simp, ?_⟩
            intro p hp q hq
            simp only [List.mem_singleton] at hq
            subst hq
            exact h.order p hp sl hslmem cost hslC
          · intro s hs p hp hcon
            rcases List.mem_append.1 hs with hs | hs
            · rcases hold s hs with rfl | hs
              · rw [hdead] at hcon; exact hcon
              · rcases List.mem_append.1 hp with hp | hp
                · exact h.fresh s (hmem s hs) p hp hcon
                · simp only [List.mem_singleton] at hp
                  subst hp
                  rw [hpjf] at hcon
                  exact Set.disjoint_left.1 (hdsl s hs) hcon hfsl
            · rcases List.mem_append.1 hp with hp | hp
              · exact h.fresh sl hslmem p hp (hsub s hs hcon)
              · simp only [List.mem_singleton] at hp
                subst hp
                rw [hpjf] at hcon
                exact Set.disjoint_left.1 (e5 s hs) hcon e7
          · intro σ
            rw [h.cover σ]
            constructor
            · rintro (⟨p, hp, hpe⟩ | ⟨s, hs, hsσ⟩)
              · exact Or.inl ⟨p, List.mem_append_left _ hp, hpe⟩
              · rw [hsplit] at hs
                simp only [List.mem_append, List.mem_cons] at hs
                have hcase : s = sl ∨ (s ∈ l1 ∨ s ∈ l2) := by tauto
                rcases hcase with rfl | hs
                · rcases (e4 σ).1 hsσ.2 with hσE | ⟨t, ht, htσ⟩
                  · left
                    refine ⟨_, List.mem_append_right _ List.mem_cons_self, ?_⟩
                    rw [hpjf, (hE σ).1 hσE]
                  · exact Or.inr ⟨t, List.mem_append_right _ ht, htσ⟩
                · right
                  refine ⟨s, List.mem_append_left _ ?_, hsσ⟩
                  rw [hset]
                  simp only [List.mem_append, List.mem_cons]
                  tauto
            · rintro (⟨p, hp, hpe⟩ | ⟨s, hs, hsσ⟩)
              · rcases List.mem_append.1 hp with hp | hp
                · exact Or.inl ⟨p, hp, hpe⟩
                · simp only [List.mem_singleton] at hp
                  subst hp
                  rw [hpjf] at hpe
                  subst hpe
                  exact Or.inr ⟨sl, hslmem, hfsl⟩
              · rcases List.mem_append.1 hs with hs | hs
                · rcases hold s hs with rfl | hs
                  · rw [hdead] at hsσ; exact absurd hsσ (Set.notMem_empty _)
                  · exact Or.inr ⟨s, hmem s hs, hsσ⟩
                · exact Or.inr ⟨sl, hslmem, hsub s hs hsσ⟩
          · have hle : ∀ s ∈ slots.set idx { sl with C := none } ++ new, ∀ c, s.C = some c →
                cost ≤ c := by
              intro s hs c hc
              rcases List.mem_append.1 hs with hs | hs
              · rcases hold s hs with rfl | hs
                · simp at hc
                · exact hmin c (by rw [← hc]; exact List.mem_map.2 ⟨s, hmem s hs, rfl⟩)
              · obtain ⟨hg', g, hgS, hgF, hgc, _⟩ := (e2 s hs).1 c hc
                have : proj g ∈ slotAsg sl := hsub s hs ⟨by rw [hc]; rfl, g, hgF, rfl⟩
                obtain ⟨_, g', hg'F, hg'e⟩ := this
                calc cost ≤ fcost sl.P g' := hopt g' hg'F
                  _ = fcost cm g' := fcost_mono hgood hg'F
                  _ = kost (proj g') := hk g' (hg'F.mono hgood)
                  _ = kost (proj g) := by rw [hg'e]
                  _ = fcost cm g := (hk g (hgF.mono hg')).symm
                  _ = fcost s.P g := (fcost_mono hg' hgF).symm
                  _ = c := hgc.symm
            intro p hp s hs c hc
            rcases List.mem_append.1 hp with hp | hp
            · exact le_trans (h.order p hp sl hslmem cost hslC) (hle s hs c hc)
            · simp only [List.mem_singleton] at hp
              subst hp
              exact hle s hs c hc
          · have hd := h.dead
            rw [hsplit] at hd
            rw [hset]
            simp only [List.countP_append, List.countP_cons, List.length_append, List.length_singleton,
              hslC, Option.isNone_some, Option.isNone_none, if_true, Bool.false_eq_true,
              if_false] at hd ⊢
            have hnew : new.countP (fun s => s.C.isNone) = 0 := by
              rw [List.countP_eq_zero]
              intro s hs
              have := (e2 s hs).2
              cases hc : s.C <;> simp_all
            omega
        obtain ⟨res, hres, hfin⟩ := ih _ _ hinv
        refine ⟨res, hres, ?_⟩
        simp only [List.length_append, List.length_singleton] at hfin
        rw [show out.length + (k + 1) = out.length + 1 + k by omega]
        exact hfin

theorem helper_spec {cm : Fin r → Fin (n + r) → WithTop K} {kost : (Fin r → Option (Fin n)) → K}
    (hgood : Good cm cm) (hfull : ∃ f, Full cm f)
    (hk : ∀ f, Full cm f → fcost cm f = kost (proj f)) (m : ℕ) (hm : m ≠ 0) :
    ∃ res, helper cm m = .ok (res.map some) ∧ FinalOK cm kost m res := by
  unfold helper
  obtain ⟨a, cost, ha, hcase⟩ := assign_full hgood
  simp only [ha]
  rcases hcase with ⟨f, hf, hfF, hcost, hopt⟩ | ⟨_, hno⟩
  · by_cases hm1 : m = 1
    · rw [if_pos hm1]
      refine ⟨[(a, cost)], by simp, ⟨?_, by simp, by simp⟩, by simp [hm1], ?_⟩
      · intro p hp
        simp only [List.mem_singleton] at hp
        subst hp
        exact ⟨f, hf, hfF, hcost⟩
      · rintro σ ⟨g, hg, rfl⟩ _
        refine ⟨by simp [hm1], ?_⟩
        intro p hp
        simp only [List.mem_singleton] at hp
        subst hp
        rw [← hk g hg]; exact hcost ▸ hopt g hg
    · rw [if_neg hm1]
      have := popLoop_spec hk m [⟨cm, a, some cost⟩] [] (by
        refine ⟨?_, by simp, ⟨by simp, by simp, by simp⟩, by simp, ?_, by simp, by simp⟩
        · intro s hs
          simp only [List.mem_singleton] at hs
          subst hs
          intro c hc
          simp only [Option.some.injEq] at hc
          subst hc
          exact ⟨hgood, f, hf, hfF, hcost, by rw [hcost]; exact hopt⟩
        · intro σ
          simp [slotAsg])
      simpa using this
  · obtain ⟨f, hf⟩ := hfull
    exact absurd hf (hno f)

end Gasur.Murty
