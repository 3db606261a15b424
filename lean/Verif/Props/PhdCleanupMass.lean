import Verif.Props.PhdBound

/-!
# Property C171: what a clean-up of a PHD filter can change
-/

set_option linter.unusedSectionVars false

namespace Gasur.Props

open Gasur.Phd Gasur.Spec

variable {K V P Z : Type*} [Field K] [LinearOrder K] [IsStrictOrderedRing K] [FloorRing K]
  [AddCommGroup V] [Module K V] [AddCommGroup P] [Module K P]

theorem cap_mass_eq {pr : Params K} {env : Env K V P Z} (he : OkEnv env) {m m' : Mix K V P}
    (hm : Good m) (h : cap env.argsort pr m = .ok m') : m'.ws.sum = m.ws.sum := by
  obtain ⟨cs, rfl, hw⟩ := (good_iff m).1 hm
  by_cases hmg : pr.maxGauss = 0
  · rcases cap_zero (argsort := env.argsort) pr cs hmg with h' | h'
    · obtain rfl := Except.ok.inj (h'.symm.trans h)
      rfl
    · rw [h] at h'
      exact (nomatch h')
  · by_cases hgt : pr.maxGauss < cs.length
    · obtain ⟨S, _, _, _, _, h5⟩ := cap_ofComps pr cs (he.argsort _) hgt (Nat.pos_of_ne_zero hmg)
      by_cases h0 : mass (keep S cs) = 0
      · rw [if_pos h0, h] at h5
        exact (nomatch h5)
      · rw [if_neg h0] at h5
        obtain rfl := Except.ok.inj (h.symm.trans h5)
        have : (ofComps ((keep S cs).map fun c => (c.1 * (mass cs / mass (keep S cs)), c.2))).ws.sum =
            mass (keep S cs) * (mass cs / mass (keep S cs)) := by
          unfold ofComps mass
          simp only [List.map_map]
          rw [← List.sum_map_mul_right]
          rfl
        rw [this, mul_div_cancel₀ _ h0]
        rfl
    · unfold cap at h
      rw [if_neg (by simpa [ofComps] using hgt)] at h
      obtain rfl := Except.ok.inj h
      rfl

theorem sum_split (q : K → Bool) (l : List K) : (l.filter fun x => !q x).sum + (l.filter q).sum = l.sum := by
  induction l with
  | nil => simp
  | cons x l ih =>
    rw [List.filter_cons, List.filter_cons, List.sum_cons, ← ih]
    cases q x <;> simp <;> ring

theorem sum_below (t : K) (l : List K) : (l.filter fun x => decide (x < t)).sum ≤ t * (l.filter fun x => decide (x < t)).length := by
  have : ∀ l : List K, (∀ x ∈ l, x < t) → l.sum ≤ t * l.length := by
    intro l
    induction l with
    | nil => simp
    | cons x l ih =>
      intro h
      have h1 := h x List.mem_cons_self
      have h2 := ih fun y hy => h y (List.mem_cons_of_mem _ hy)
      rw [List.sum_cons, List.length_cons]
      push_cast
      linarith
  exact this _ fun x hx => by simpa using (List.mem_filter.1 hx).2

/-- **C171.** What a clean-up of a PHD filter does to the expected number of objects (aligned lists, weights not negative;
any choice of pruning, merging, capping and extraction): it goes down by exactly the sum of the weights below the pruning
threshold, which is at most the threshold for each of them, and by nothing without pruning. Merging, capping (to any number)
and extraction do not change it. -/
theorem C171_cleanup_mass {pr : Params K} (hpr : OkParams pr) {env : Env K V P Z} (he : OkEnv env) {bp bm bc be : Bool}
    {s s' : PState K V P} (hs : Good s.mix) (h : cleanup env pr bp bm bc be s = .ok s') :
    s'.mix.ws.sum = s.mix.ws.sum - (if bp then (s.mix.ws.filter fun w => decide (w < pr.pruneThreshold)).sum else 0) ∧
      (s.mix.ws.filter fun w => decide (w < pr.pruneThreshold)).sum ≤
        pr.pruneThreshold * (s.mix.ws.filter fun w => decide (w < pr.pruneThreshold)).length := by
  refine ⟨?_, sum_below _ _⟩
  unfold cleanup at h
  split at h
  · exact (nomatch h)
  · rename_i m1 h1
    have k1 : Good m1 ∧ m1.ws.sum =
        s.mix.ws.sum - (if bp then (s.mix.ws.filter fun w => decide (w < pr.pruneThreshold)).sum else 0) := by
      unfold optStep at h1
      split at h1
      · rename_i hb
        refine ⟨(prune_mass hs h1).1, ?_⟩
        rw [if_pos hb]
        obtain ⟨cs, e, hw⟩ := (good_iff _).1 hs
        rw [e] at h1 ⊢
        obtain rfl := Except.ok.inj (h1.symm.trans (prune_ofComps pr cs))
        rw [eq_sub_iff_add_eq, ← sum_split (fun w => decide (w < pr.pruneThreshold)) (ofComps cs).ws]
        congr 2
        unfold ofComps
        dsimp only
        rw [List.filter_map]
        congr 1
        refine List.filter_congr fun c _ => ?_
        by_cases hc : c.1 < pr.pruneThreshold
        · simp [Function.comp_def, hc, not_le.2 hc]
        · simp [Function.comp_def, hc, not_lt.1 hc]
      · rename_i hb
        obtain rfl := Except.ok.inj h1
        rw [if_neg hb, sub_zero]
        exact ⟨hs, rfl⟩
    split at h
    · exact (nomatch h)
    · rename_i m2 h2
      have k2 : Good m2 ∧ m2.ws.sum = m1.ws.sum := by
        unfold optStep at h2
        split at h2
        · exact merge_mass hpr he k1.1 h2
        · obtain rfl := Except.ok.inj h2
          exact ⟨k1.1, rfl⟩
      split at h
      · exact (nomatch h)
      · rename_i m3 h3
        have k3 : m3.ws.sum = m2.ws.sum := by
          unfold optStep at h3
          split at h3
          · exact cap_mass_eq he k2.1 h3
          · obtain rfl := Except.ok.inj h3
            rfl
        have : s'.mix = m3 := by
          split at h
          · exact doExtract_mix h
          · obtain rfl := Except.ok.inj h
            rfl
        rw [this, k3, k2.2, k1.2]

/-- A concrete case: four components, pruning at `1/100`, merging, capping to two. -/
example : ∃ s', cleanup exEnv exParams true true true true
      (⟨⟨[1 / 2, 1 / 1000, 1 / 4, 1 / 8], [0, 3, 10, 20], [1, 1, 1, 1]⟩, []⟩ : PState ℚ ℚ ℚ) = .ok s' ∧
    s'.mix.ws.length = 2 ∧ s'.mix.ws.sum = 7 / 8 := by
  have hex : ((cleanup exEnv exParams true true true true
      (⟨⟨[1 / 2, 1 / 1000, 1 / 4, 1 / 8], [0, 3, 10, 20], [1, 1, 1, 1]⟩, []⟩ : PState ℚ ℚ ℚ)).toOption.map
      fun s => s.mix.ws.length) = some 2 := by decide +kernel
  obtain ⟨s', e⟩ : ∃ s', cleanup exEnv exParams true true true true
      (⟨⟨[1 / 2, 1 / 1000, 1 / 4, 1 / 8], [0, 3, 10, 20], [1, 1, 1, 1]⟩, []⟩ : PState ℚ ℚ ℚ) = .ok s' := by
    cases hc : cleanup exEnv exParams true true true true
      (⟨⟨[1 / 2, 1 / 1000, 1 / 4, 1 / 8], [0, 3, 10, 20], [1, 1, 1, 1]⟩, []⟩ : PState ℚ ℚ ℚ) with
    | ok s' => exact ⟨s', rfl⟩
    | error x =>
      rw [hc] at hex
      exact (nomatch hex)
  refine ⟨s', e, by rw [e] at hex; exact Option.some.inj hex, ?_⟩
  rw [(C171_cleanup_mass exParams_ok exEnv_ok ⟨⟨rfl, rfl⟩, by simp⟩ e).1]
  norm_num [exParams]

end Gasur.Props
