import Verif.Proofs.Phd
import Verif.Props.Phd

/-!
# Property C139: cleaning up a PHD filter twice
-/

set_option linter.unusedSectionVars false

namespace Gasur.Props

open Gasur.Phd Gasur.Spec

variable {K V P Z : Type*} [Field K] [LinearOrder K] [IsStrictOrderedRing K] [FloorRing K]
  [AddCommGroup V] [Module K V] [AddCommGroup P] [Module K P]

theorem mass_sublist {l₁ l₂ : List (K × V × P)} (h : l₁.Sublist l₂) (hn : ∀ x ∈ l₂, 0 ≤ x.1) : mass l₁ ≤ mass l₂ := by
  induction h with
  | slnil => exact le_refl _
  | cons a _ ih =>
    have h1 := ih fun x hx => hn x (List.mem_cons_of_mem _ hx)
    have h2 := hn a List.mem_cons_self
    simp only [mass, List.map_cons, List.sum_cons] at h1 ⊢
    linarith
  | cons_cons a _ ih =>
    have h1 := ih fun x hx => hn x (List.mem_cons_of_mem _ hx)
    simp only [mass, List.map_cons, List.sum_cons] at h1 ⊢
    linarith

/-- Components above the threshold are not changed by pruning. -/
theorem pprune_again (pr : Params K) {cs : List (K × V × P)} (h : ∀ c ∈ cs, pr.pruneThreshold ≤ c.1) :
    prune pr (ofComps cs) = .ok (ofComps cs) := by
  rw [prune_ofComps, List.filter_eq_self.2 fun c hc => decide_eq_true (h c hc)]

/-- What `cap` leaves: capping again changes nothing, and no component has become lighter than the lightest one. -/
theorem pcap_again {argsort : List K → List ℕ} (pr : Params K) {cs : List (K × V × P)}
    (ha : ∀ ws, IsArgsort ws (argsort ws)) (hw : ∀ c ∈ cs, 0 ≤ c.1) {m : Mix K V P}
    (h : cap argsort pr (ofComps cs) = .ok m) :
    cap argsort pr m = .ok m ∧ ∃ cs', m = ofComps cs' ∧
      ∀ thr, (∀ c ∈ cs, thr ≤ c.1) → ∀ c ∈ cs', thr ≤ c.1 := by
  by_cases hgt : pr.maxGauss < cs.length
  · rcases Nat.eq_zero_or_pos pr.maxGauss with h0 | hpos
    · rcases cap_zero (argsort := argsort) pr cs h0 with h1 | h1
      · rw [h] at h1
        obtain rfl := Except.ok.inj h1
        exact ⟨h, cs, rfl, fun _ ht => ht⟩
      · rw [h] at h1
        exact (nomatch h1)
    · obtain ⟨S, _, _, hl, _, hc⟩ := cap_ofComps pr cs (ha _) hgt hpos
      rw [hc] at h
      by_cases hm : mass (keep S cs) = 0
      · rw [if_pos hm] at h
        exact (nomatch h)
      · rw [if_neg hm] at h
        obtain rfl := Except.ok.inj h
        refine ⟨?_, _, rfl, ?_⟩
        · unfold cap
          rw [if_neg]
          simp [ofComps, hl]
        · intro thr ht c hcm
          obtain ⟨q, hq, rfl⟩ := List.mem_map.1 hcm
          have hq' : q ∈ cs := (keep_sublist S cs).mem hq
          have hle := mass_sublist (keep_sublist S cs) hw
          have h0 : 0 ≤ mass (keep S cs) := List.sum_nonneg (by
            intro x hx
            obtain ⟨y, hy, rfl⟩ := List.mem_map.1 hx
            exact hw y ((keep_sublist S cs).mem hy))
          have hp := lt_of_le_of_ne h0 (Ne.symm hm)
          refine (ht q hq').trans ?_
          refine le_mul_of_one_le_right (hw q hq') ?_
          rw [le_div_iff₀ hp, one_mul]
          exact hle
  · have h1 : cap argsort pr (ofComps cs) = .ok (ofComps cs) := by
      unfold cap
      rw [if_neg]
      simpa [ofComps] using hgt
    rw [h] at h1
    obtain rfl := Except.ok.inj h1
    exact ⟨h, cs, rfl, fun _ ht => ht⟩

/-- **C139 without merging.** After a `cleanup` with merging and extraction disabled (pruning and capping as one likes) of a
density with non-negative weights, a second one with the same settings changes nothing. -/
theorem C139_cleanup_twice_partial (env : Env K V P Z) (pr : Params K) (bp bc : Bool) (s s' : PState K V P)
    (ha : ∀ ws, IsArgsort ws (env.argsort ws)) (hal : Aligned s.mix) (hw : ∀ w ∈ s.mix.ws, 0 ≤ w)
    (h : cleanup env pr bp false bc false s = .ok s') : cleanup env pr bp false bc false s' = .ok s' := by
  obtain ⟨cs, hcs⟩ := (aligned_iff _).1 hal
  have hw0 : ∀ c ∈ cs, 0 ≤ c.1 := by
    intro c hc
    refine hw c.1 ?_
    rw [hcs]
    exact List.mem_map_of_mem hc
  -- after pruning
  have h1 : ∃ cs1, optStep bp (prune pr) s.mix = .ok (ofComps cs1) ∧ (∀ c ∈ cs1, 0 ≤ c.1) ∧
      (bp = true → ∀ c ∈ cs1, pr.pruneThreshold ≤ c.1) := by
    cases bp with
    | false => exact ⟨cs, by rw [hcs]; rfl, hw0, by simp⟩
    | true =>
      refine ⟨cs.filter fun c => decide (pr.pruneThreshold ≤ c.1), ?_, ?_, ?_⟩
      · rw [hcs]
        exact prune_ofComps pr cs
      · exact fun c hc => hw0 c (List.mem_filter.1 hc).1
      · exact fun _ c hc => of_decide_eq_true (List.mem_filter.1 hc).2
  obtain ⟨cs1, e1, p1, t1⟩ := h1
  -- after capping
  unfold cleanup at h
  rw [e1] at h
  dsimp only at h
  change (match optStep bc (cap env.argsort pr) (ofComps cs1) with
    | .error e => Except.error e
    | .ok m3 => if false = true then doExtract pr { s with mix := m3 } else .ok { s with mix := m3 }) = .ok s' at h
  have h2 : ∃ cs2, optStep bc (cap env.argsort pr) (ofComps cs1) = .ok (ofComps cs2) ∧
      optStep bc (cap env.argsort pr) (ofComps cs2) = .ok (ofComps cs2) ∧
      (bp = true → ∀ c ∈ cs2, pr.pruneThreshold ≤ c.1) := by
    cases bc with
    | false => exact ⟨cs1, rfl, rfl, t1⟩
    | true =>
      cases hc : cap env.argsort pr (ofComps cs1) with
      | error e =>
        rw [show optStep true (cap env.argsort pr) (ofComps cs1) = cap env.argsort pr (ofComps cs1) from rfl, hc] at h
        exact (nomatch h)
      | ok m =>
        obtain ⟨a, cs2, rfl, b⟩ := pcap_again pr ha p1 hc
        exact ⟨cs2, hc, a, fun hb => b _ (t1 hb)⟩
  obtain ⟨cs2, e2, e3, t2⟩ := h2
  rw [e2] at h
  dsimp only at h
  rw [if_neg (by simp)] at h
  obtain rfl := Except.ok.inj h
  have e4 : optStep bp (prune pr) (ofComps cs2) = .ok (ofComps cs2) := by
    cases bp with
    | false => rfl
    | true => exact pprune_again pr (t2 rfl)
  unfold cleanup
  dsimp only
  rw [e4]
  dsimp only
  change (match optStep bc (cap env.argsort pr) (ofComps cs2) with
    | .error e => Except.error e
    | .ok m3 => if false = true then doExtract pr { s with mix := m3 } else .ok { s with mix := m3 }) = _
  rw [e3]
  dsimp only
  rw [if_neg (by simp)]

/-- **C139 is false of the code** with merging: three components at 0, 2 and 3 with unit covariance and merging threshold
4. The first `cleanup` merges those at 0 and 2 (into one at 1), the second one merges the rest. -/
theorem C139_refuted : (cleanup exEnv exParams true true true false ⟨⟨[2, 2, 1], [0, 2, 3], [1, 1, 1]⟩, []⟩).toOption.bind
    (fun s' => (cleanup exEnv exParams true true true false s').toOption.map fun s'' => (s'.mix.ms, s''.mix.ms)) =
    some ([1, 3], [7 / 5]) := by
  decide +kernel

/-- The hypotheses of the theorem can be met: the same density without merging is capped to two components. -/
example : (cleanup exEnv exParams true false true false ⟨⟨[2, 2, 1], [0, 2, 3], [1, 1, 1]⟩, []⟩).toOption.map
    (fun s' => (s'.mix.ws, s'.mix.ms)) = some ([5 / 2, 5 / 2], [0, 2]) := by
  decide +kernel

end Gasur.Props
