import Verif.Proofs.GlmbRename
import Verif.Spec.BirthOrder
import Verif.Props.GlmbTrack

/-!
# C134: the order of the birth terms does not matter
-/

set_option linter.unusedSectionVars false

namespace Gasur.Props

open Gasur.Glmb Gasur.Spec Gasur.Rename

section
variable {K τ F S C Z : Type*} [Field K] [LinearOrder K] [IsStrictOrderedRing K] [FloorRing K] [DecidableEq τ]

theorem relabel_inj (π : τ → Equiv.Perm ℕ) : Function.Injective (relabel π) := by
  rintro ⟨a, i⟩ ⟨b, j⟩ h
  simp only [relabel, Prod.mk.injEq] at h
  obtain ⟨rfl, h⟩ := h
  rw [(π a).injective h]

theorem re_of_perm {α : Type*} (σ : Equiv.Perm ℕ) {l l' : List α} (h : ∀ i : ℕ, l'[σ i]? = l[i]?) : Re Eq σ l l' := by
  have hlt : ∀ i, σ i < l'.length ↔ i < l.length := by
    intro i
    constructor
    · intro hi
      by_contra hc
      have h1 := h i
      rw [List.getElem?_eq_none (not_lt.1 hc), List.getElem?_eq_getElem hi] at h1
      exact (nomatch h1)
    · intro hi
      by_contra hc
      have h1 := h i
      rw [List.getElem?_eq_none (not_lt.1 hc), List.getElem?_eq_getElem hi] at h1
      exact (nomatch h1)
  have hlen : l'.length = l.length := by
    apply le_antisymm
    · have := Finset.card_le_card_of_injOn (s := Finset.range l'.length) (t := Finset.range l.length) σ.symm (by
        intro i hi
        have hi' : i < l'.length := by simpa using hi
        have := (hlt (σ.symm i)).1 (by rw [Equiv.apply_symm_apply]; exact hi')
        simpa using this) (σ.symm.injective.injOn)
      simpa using this
    · have := Finset.card_le_card_of_injOn (s := Finset.range l.length) (t := Finset.range l'.length) σ (by
        intro i hi
        have hi' : i < l.length := by simpa using hi
        simpa using (hlt i).2 hi') (σ.injective.injOn)
      simpa using this
  refine ⟨hlen, fun i hi => by rw [← hlen]; exact (hlt i).2 hi, fun i _ j _ hij => σ.injective hij, ?_⟩
  intro i a ha
  exact ⟨a, by rw [h, ha], rfl⟩

theorem sameButOrder_sym {π : τ → Equiv.Perm ℕ} {o o' : Op K τ F S C Z} (h : SameButOrder π o o') :
    SameButOrder (fun t => (π t).symm) o' o := by
  cases h with
  | @predict env lab births births' hg hget hdist =>
    have hback : ∀ i : ℕ, births[(π lab).symm i]? = births'[i]? := by
      intro i
      have := hget ((π lab).symm i)
      rw [Equiv.apply_symm_apply] at this
      exact this.symm
    refine .predict hg hback ?_
    intro i j b c hb hc hb0 hc0 hbc
    have := hdist ((π lab).symm i) ((π lab).symm j) b c (by rw [hback]; exact hb) (by rw [hback]; exact hc) hb0 hc0 hbc
    exact (π lab).symm.injective this
  | correct meas hg => exact .correct meas hg
  | cleanup bp bc be u c => exact .cleanup bp bc be u c
  | extract u c => exact .extract u c

theorem step_re {π : τ → Equiv.Perm ℕ} {pr : Params K} (heps : 0 < pr.eps) {o o' : Op K τ F S C Z} (h : SameButOrder π o o')
    {st st' s : St K τ F S C} (hS : Sim (relabel π) st st') (hs : step pr st o = .ok s) :
    ∃ s', step pr st' o' = .ok s' ∧ Sim (relabel π) s s' := by
  cases h with
  | predict hg hget hdist =>
    exact predict_re heps ⟨hg.surv, hg.det⟩ hg.sorts (re_of_perm _ hget) (fun _ _ => rfl) hdist hS hs
  | correct meas hg => exact correct_re ⟨hg.surv, hg.det⟩ hS hs
  | cleanup bp bc be u c => exact cleanup_re (relabel_inj π) hS hs
  | extract u c =>
    unfold step at hs ⊢
    dsimp only at hs ⊢
    cases h3 : extract u c st with
    | error x => rw [h3] at hs; exact (nomatch hs)
    | ok r =>
      rw [h3] at hs
      obtain ⟨r', h3', hS4, _⟩ := extract_re (relabel_inj π) hS h3
      rw [h3']
      obtain ⟨a, b⟩ := r
      obtain rfl := Except.ok.inj hs
      exact ⟨_, rfl, hS4⟩

theorem run_re {π : τ → Equiv.Perm ℕ} {pr : Params K} (heps : 0 < pr.eps) {ops ops' : List (Op K τ F S C Z)}
    (h : List.Forall₂ (SameButOrder π) ops ops') {st st' s : St K τ F S C} (hS : Sim (relabel π) st st')
    (hs : run pr st ops = .ok s) : ∃ s', run pr st' ops' = .ok s' ∧ Sim (relabel π) s s' := by
  induction h generalizing st st' with
  | nil =>
    obtain rfl := Except.ok.inj hs
    exact ⟨_, rfl, hS⟩
  | @cons o o' os os' ho _ ih =>
    unfold run at hs ⊢
    cases h1 : step pr st o with
    | error e => rw [h1] at hs; exact (nomatch hs)
    | ok s1 =>
      rw [h1] at hs
      obtain ⟨s1', h1', hS1⟩ := step_re heps ho hS h1
      rw [h1']
      exact ih hS1 hs

theorem sim_init (lam : τ × ℕ → τ × ℕ) : Sim lam (init : St K τ F S C) init :=
  ⟨id, ⟨rfl, fun _ h => h, fun _ _ _ _ h => h, fun i a h => by simp [init] at h⟩, by simp [init], by simp [init, reH], rfl, rfl,
    rfl, rfl, rfl, rfl⟩

theorem sim_same {π : τ → Equiv.Perm ℕ} {st st' : St K τ F S C} (h : Sim (relabel π) st st') : SameButLabels π st st' := by
  obtain ⟨ρ, hT, hr, hH, hcd, hcn, hex, hst, hlb, hcv⟩ := h
  refine ⟨?_, ?_, ?_, hcd, hcn, hex, hst, hcv, hlb⟩
  · have hm : Re Eq ρ (st.tab.map (relabelTrack π)) st'.tab := by
      refine ⟨by rw [List.length_map]; exact hT.len, by rw [List.length_map]; exact hT.lt,
        by rw [List.length_map]; exact hT.inj, ?_⟩
      intro i a ha
      rw [List.getElem?_map] at ha
      cases hi : st.tab[i]? with
      | none => rw [hi] at ha; exact (nomatch ha)
      | some e =>
        rw [hi] at ha
        obtain ⟨b, hb, hR⟩ := hT.get i e hi
        exact ⟨b, hb, by rw [← Option.some.inj ha, hR]; rfl⟩
    exact hm.perm.symm
  · rw [hH]; exact map_reH_probs _
  · rw [hH, List.map_map]
    apply List.map_congr_left
    intro x hx
    simp only [Function.comp, reH, List.map_map]
    apply List.map_congr_left
    intro t ht
    obtain ⟨e', he', hR⟩ := hT.get t _ (List.getElem?_eq_getElem (hr x hx t ht))
    simp only [Function.comp]
    rw [he', List.getElem?_eq_getElem (hr x hx t ht), hR]
    rfl

/-- **C134.** Two runs of the filter (any sequence of calls from a new filter) whose calls differ only in the order in
which the birth terms are given succeed or fail together, and if they succeed they are in the same state except for the
numbers of the birth terms in the labels. -/
theorem C134_birth_order (π : τ → Equiv.Perm ℕ) (pr : Params K) (heps : 0 < pr.eps) (ops ops' : List (Op K τ F S C Z))
    (h : List.Forall₂ (SameButOrder π) ops ops') :
    (∀ st, run pr init ops = .ok st → ∃ st', run pr init ops' = .ok st' ∧ SameButLabels π st st') ∧
    (∀ st', run pr init ops' = .ok st' → ∃ st, run pr init ops = .ok st ∧ SameButLabels π st st') := by
  have hfw : ∀ st, run pr init ops = .ok st → ∃ st', run pr init ops' = .ok st' ∧ SameButLabels π st st' := by
    intro st hst
    obtain ⟨st', h1, h2⟩ := run_re heps h (sim_init _) hst
    exact ⟨st', h1, sim_same h2⟩
  refine ⟨hfw, ?_⟩
  intro st' hst'
  have hsym : List.Forall₂ (SameButOrder fun t => (π t).symm) ops' ops := by
    have := h.flip
    exact this.imp fun _ _ hab => sameButOrder_sym hab
  obtain ⟨st, h1, _⟩ := run_re heps hsym (sim_init _) hst'
  obtain ⟨st'', h2, h3⟩ := hfw st h1
  rw [hst'] at h2
  obtain rfl := Except.ok.inj h2
  exact ⟨st, h1, h3⟩

end

/-! ### A concrete case -/

/-- The positions `0 … n - 1` in descending order of `lc`. -/
def descList (n : ℕ) (lc : Fin n → WithTop ℚ) : List (Fin n) := (List.finRange n).insertionSort fun a b => lc b ≤ lc a

theorem descList_perm (n : ℕ) (lc : Fin n → WithTop ℚ) : (descList n lc).Perm (List.finRange n) := List.perm_insertionSort _ _

/-- The sorting permutation. -/
def descSort (n : ℕ) (lc : Fin n → WithTop ℚ) : Equiv.Perm (Fin n) :=
  (finCongr (by rw [(descList_perm n lc).length_eq, List.length_finRange])).trans
    (List.Nodup.getEquivOfForallMemList (descList n lc) ((descList_perm n lc).nodup_iff.2 (List.nodup_finRange n))
      fun i => (descList_perm n lc).mem_iff.2 (List.mem_finRange i))

theorem descSort_sorts (n : ℕ) (lc : Fin n → WithTop ℚ) (i j : Fin n) (h : i ≤ j) :
    lc (descSort n lc j) ≤ lc (descSort n lc i) := by
  haveI : Std.Total (fun a b : Fin n => lc b ≤ lc a) := ⟨fun a b => le_total _ _⟩
  haveI : IsTrans (Fin n) (fun a b : Fin n => lc b ≤ lc a) := ⟨fun a b c h1 h2 => le_trans h2 h1⟩
  have hp := List.pairwise_insertionSort (fun a b : Fin n => lc b ≤ lc a) (List.finRange n)
  rcases eq_or_lt_of_le h with rfl | h
  · exact le_rfl
  · exact List.pairwise_iff_get.1 hp _ _ h

/-- The environment of `exTrackEnv` with a sort that sorts. -/
def exOrdEnv : Env ℚ ℕ Unit ℚ Unit ℚ := { exTrackEnv with sortInds := descSort }

def exOrdBirth (x p : ℚ) : Birth ℚ Unit ℚ Unit := ⟨[()], [1], [x], [()], p⟩

/-- Two birth terms at time 0, one at time 1. -/
def exOrdOps (a b : Birth ℚ Unit ℚ Unit) : List (Op ℚ ℕ Unit ℚ Unit ℚ) :=
  [.predict exOrdEnv 0 [a, b], .correct exOrdEnv [4, 8], .cleanup exOrdEnv true true true true true,
   .predict exOrdEnv 1 [exOrdBirth 5 (1 / 3)], .correct exOrdEnv [6], .cleanup exOrdEnv true true true true true]

def exOrdPerm : ℕ → Equiv.Perm ℕ := fun t => if t = 0 then Equiv.swap 0 1 else 1

theorem exOrdEnv_good : GoodEnv exOrdEnv := ⟨descSort_sorts, fun _ _ => rfl, fun _ _ => rfl⟩

theorem exOrd_same : List.Forall₂ (SameButOrder exOrdPerm) (exOrdOps (exOrdBirth 0 (9 / 10)) (exOrdBirth 10 (3 / 4)))
    (exOrdOps (exOrdBirth 10 (3 / 4)) (exOrdBirth 0 (9 / 10))) := by
  refine .cons (.predict exOrdEnv_good ?_ ?_) (.cons (.correct _ exOrdEnv_good) (.cons (.cleanup _ _ _ _ _)
    (.cons (.predict exOrdEnv_good ?_ ?_) (.cons (.correct _ exOrdEnv_good) (.cons (.cleanup _ _ _ _ _) .nil)))))
  · intro i
    match i with
    | 0 => rfl
    | 1 => rfl
    | i + 2 =>
      rw [show exOrdPerm 0 (i + 2) = i + 2 from Equiv.swap_apply_of_ne_of_ne (by omega) (by omega)]
      rfl
  · intro i j b c hb hc _ _ hbc
    match i, j with
    | 0, 0 => rfl
    | 1, 1 => rfl
    | 0, 1 =>
      obtain rfl := Option.some.inj hb
      obtain rfl := Option.some.inj hc
      exact absurd hbc (by decide +kernel)
    | 1, 0 =>
      obtain rfl := Option.some.inj hb
      obtain rfl := Option.some.inj hc
      exact absurd hbc (by decide +kernel)
    | i + 2, _ => simp at hb
    | _, j + 2 => simp at hc
  · intro i; rfl
  · intro i j b c hb hc _ _ _
    match i, j with
    | 0, 0 => rfl
    | i + 1, _ => simp at hb
    | _, j + 1 => simp at hc

/-- The hypotheses of C134 hold, and for the two runs: the reported labels at the end, and hypotheses (as lists of labels)
after the first three calls. -/
example : (0 : ℚ) < exTrackPr.eps ∧
    ((run exTrackPr init (exOrdOps (exOrdBirth 0 (9 / 10)) (exOrdBirth 10 (3 / 4)))).toOption.map fun s => s.labels) =
      some [[(0, 0)], [(0, 0)]] ∧
    ((run exTrackPr init (exOrdOps (exOrdBirth 10 (3 / 4)) (exOrdBirth 0 (9 / 10)))).toOption.map fun s => s.labels) =
      some [[(0, 1)], [(0, 1)]] ∧
    ((run { exTrackPr with reqBirths := 4 } init
      ((exOrdOps (exOrdBirth 0 (9 / 10)) (exOrdBirth 10 (3 / 4))).take 3)).toOption.map fun s =>
        (s.tab.map fun e => e.label, s.hyps.map fun h => h.tracks)) =
      some ([(0, 0), (0, 1), (0, 0)], [[1, 2], [0], [2], []]) ∧
    ((run { exTrackPr with reqBirths := 4 } init
      ((exOrdOps (exOrdBirth 10 (3 / 4)) (exOrdBirth 0 (9 / 10))).take 3)).toOption.map fun s =>
        (s.tab.map fun e => e.label, s.hyps.map fun h => h.tracks)) =
      some ([(0, 0), (0, 1), (0, 1)], [[0, 2], [1], [2], []]) := by
  refine ⟨by decide +kernel, by decide +kernel, by decide +kernel, by decide +kernel, by decide +kernel⟩

end Gasur.Props
