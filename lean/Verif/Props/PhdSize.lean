import Verif.Props.PhdBound

/-!
# Property C123 (PHD filter): the number of mixture components stays bounded
-/

set_option linter.unusedSectionVars false

namespace Gasur.Props

open Gasur.Phd Gasur.Spec

variable {K V P Z : Type*} [Field K] [LinearOrder K] [IsStrictOrderedRing K]
  [AddCommGroup V] [Module K V] [AddCommGroup P] [Module K P] [FloorRing K]

/-- Number of components after the calls `ops`, at most, if it was at most `N` before: births are added in the
prediction, the update makes one component for each component and measurement and keeps the old ones, capping leaves
at most `maxGauss`. -/
def compBound (maxGauss : ℕ) : ℕ → List (Op K V P Z) → ℕ
  | N, [] => N
  | N, .predict _ births :: os => compBound maxGauss (N + (births.map fun b => b.ws.length).sum) os
  | N, .correct _ meas :: os => compBound maxGauss (N * (meas.length + 1)) os
  | N, .cleanup _ _ cap _ :: os => compBound maxGauss (if cap then min N maxGauss else N) os
  | N, .extract :: os => compBound maxGauss N os

theorem prune_size {pr : Params K} {m m' : Mix K V P} (hm : Good m) (h : prune pr m = .ok m') :
    m'.ws.length ≤ m.ws.length := by
  obtain ⟨cs, rfl, hw⟩ := (good_iff m).1 hm
  obtain rfl := Except.ok.inj (h.symm.trans (prune_ofComps pr cs))
  simp only [ofComps, List.length_map]
  exact List.length_filter_le _ _

theorem merge_size {pr : Params K} (hpr : OkParams pr) {env : Env K V P Z} (he : OkEnv env) {m m' : Mix K V P}
    (hm : Good m) (h : merge env.quad pr m = .ok m') : m'.ws.length ≤ m.ws.length := by
  obtain ⟨cs, rfl, hw⟩ := (good_iff m).1 hm
  obtain ⟨gs, hg, h1⟩ := merge_spec env.quad pr hpr.thr he.quad cs hw
  split at h1
  · rw [h] at h1
    exact (nomatch h1)
  · obtain rfl := Except.ok.inj (h.symm.trans h1)
    simp only [ofComps, List.length_map]
    exact groups_length hg.perm hg.nonempty

theorem cap_size {pr : Params K} (hmg : 1 ≤ pr.maxGauss) {env : Env K V P Z} (he : OkEnv env) {m m' : Mix K V P}
    (hm : Good m) (h : cap env.argsort pr m = .ok m') : m'.ws.length ≤ min m.ws.length pr.maxGauss := by
  obtain ⟨cs, rfl, hw⟩ := (good_iff m).1 hm
  by_cases hgt : pr.maxGauss < cs.length
  · obtain ⟨S, _, _, h3, _, h5⟩ := cap_ofComps pr cs (he.argsort _) hgt hmg
    split at h5
    · rw [h] at h5
      exact (nomatch h5)
    · obtain rfl := Except.ok.inj (h.symm.trans h5)
      simp only [ofComps, List.length_map, h3]
      omega
  · unfold cap at h
    rw [if_neg (by simpa [ofComps] using hgt)] at h
    obtain rfl := Except.ok.inj h
    simp only [ofComps, List.length_map]
    omega

theorem cleanup_size {pr : Params K} (hpr : OkParams pr) (hmg : 1 ≤ pr.maxGauss) {env : Env K V P Z} (he : OkEnv env)
    {bp bm bc be : Bool} {s s' : PState K V P} (hs : Good s.mix) (h : cleanup env pr bp bm bc be s = .ok s') :
    s'.mix.ws.length ≤ if bc then min s.mix.ws.length pr.maxGauss else s.mix.ws.length := by
  unfold cleanup at h
  split at h
  · exact (nomatch h)
  · rename_i m1 h1
    have k1 : Good m1 ∧ m1.ws.length ≤ s.mix.ws.length := by
      unfold optStep at h1
      split at h1
      · exact ⟨(prune_mass hs h1).1, prune_size hs h1⟩
      · obtain rfl := Except.ok.inj h1
        exact ⟨hs, le_refl _⟩
    split at h
    · exact (nomatch h)
    · rename_i m2 h2
      have k2 : Good m2 ∧ m2.ws.length ≤ m1.ws.length := by
        unfold optStep at h2
        split at h2
        · exact ⟨(merge_mass hpr he k1.1 h2).1, merge_size hpr he k1.1 h2⟩
        · obtain rfl := Except.ok.inj h2
          exact ⟨k1.1, le_refl _⟩
      split at h
      · exact (nomatch h)
      · rename_i m3 h3
        have k3 : m3.ws.length ≤ if bc then min m2.ws.length pr.maxGauss else m2.ws.length := by
          unfold optStep at h3
          split at h3
          · rename_i hbc
            rw [if_pos hbc]
            exact cap_size hmg he k2.1 h3
          · rename_i hbc
            obtain rfl := Except.ok.inj h3
            rw [if_neg hbc]
        have : s'.mix = m3 := by
          split at h
          · exact doExtract_mix h
          · obtain rfl := Except.ok.inj h
            rfl
        rw [this]
        have := k1.2
        have := k2.2
        split at k3 <;> rename_i hbc
        · rw [if_pos hbc]
          omega
        · rw [if_neg hbc]
          omega

theorem correct_size {pr : Params K} (f : Filt K V P Z) (zs : List Z) {m m' : Mix K V P} (hm : Good m)
    (h : correct pr f zs m = .ok m') : m'.ws.length = m.ws.length * (zs.length + 1) := by
  obtain ⟨cs, rfl, hw⟩ := (good_iff m).1 hm
  by_cases hz : ∃ z ∈ zs, cs ≠ [] ∧ denom pr f cs z = 0
  · rw [correct_zeroDiv pr f cs zs hz] at h
    exact (nomatch h)
  · push Not at hz
    rw [correct_ofComps pr f cs zs (fun z hzm => by
      by_cases hn : cs = []
      · exact .inl hn
      · exact .inr (hz z hzm hn))] at h
    obtain rfl := Except.ok.inj h
    simp only [ofComps, List.length_map, List.length_append, List.length_flatMap, List.map_const', List.sum_replicate,
      smul_eq_mul]
    ring

theorem step_size {env : Env K V P Z} (he : OkEnv env) {pr : Params K} (hpr : OkParams pr) (hmg : 1 ≤ pr.maxGauss)
    {s s' : PState K V P} (hs : Good s.mix) {o : Op K V P Z} (ho : OkOp o) (h : step env pr s o = .ok s') {N : ℕ}
    (hN : s.mix.ws.length ≤ N) : Good s'.mix ∧ s'.mix.ws.length ≤ compBound pr.maxGauss N [o] := by
  refine ⟨(step_bound he hpr hs ho h (le_refl _)).1, ?_⟩
  cases o with
  | predict f b =>
    obtain rfl := Except.ok.inj h
    simp only [compBound]
    rw [(C28_predict_mass pr f b s.mix).2.1, List.length_append, List.length_map, List.length_flatMap]
    omega
  | correct f z =>
    simp only [step] at h
    split at h
    · exact (nomatch h)
    · rename_i m hm
      obtain rfl := Except.ok.inj h
      simp only [compBound]
      rw [correct_size f z hs hm]
      exact Nat.mul_le_mul_right _ hN
  | cleanup bp bm bc be =>
    refine (cleanup_size hpr hmg he hs h).trans ?_
    simp only [compBound]
    split <;> omega
  | extract =>
    simp only [compBound]
    rw [doExtract_mix h]
    exact hN

theorem compBound_append (G : ℕ) : ∀ (a b : List (Op K V P Z)) (N : ℕ),
    compBound G N (a ++ b) = compBound G (compBound G N a) b
  | [], b, N => rfl
  | .predict _ _ :: a, b, N => compBound_append G a b _
  | .correct _ _ :: a, b, N => compBound_append G a b _
  | .cleanup _ _ _ _ :: a, b, N => compBound_append G a b _
  | .extract :: a, b, N => compBound_append G a b _

theorem run_size {env : Env K V P Z} (he : OkEnv env) {pr : Params K} (hpr : OkParams pr) (hmg : 1 ≤ pr.maxGauss) :
    ∀ (ops : List (Op K V P Z)) (s s' : PState K V P) (N : ℕ), (∀ o ∈ ops, OkOp o) → Good s.mix →
      s.mix.ws.length ≤ N → run env pr s ops = .ok s' → Good s'.mix ∧ s'.mix.ws.length ≤ compBound pr.maxGauss N ops
  | [], s, s', N, _, hg, hN, h => by
    obtain rfl := Except.ok.inj h
    exact ⟨hg, hN⟩
  | o :: os, s, s', N, ho, hg, hN, h => by
    obtain ⟨s1, h1, h2⟩ := run_cons env pr s o os h
    obtain ⟨g1, b1⟩ := step_size he hpr hmg hg (ho o List.mem_cons_self) h1 hN
    have := run_size he hpr hmg os s1 s' _ (fun x hx => ho x (List.mem_cons_of_mem _ hx)) g1 b1 h2
    rw [← compBound_append] at this
    exact this

/-- **C123, PHD filter.** After any sequence of well-formed calls on a new filter with `max_gauss ≥ 1`, the mixture has
at most `compBound` components: as many weights, means and covariances. -/
theorem C123_phd_components {env : Env K V P Z} (he : OkEnv env) {pr : Params K} (hpr : OkParams pr)
    (hmg : 1 ≤ pr.maxGauss) (ops : List (Op K V P Z)) (hops : ∀ o ∈ ops, OkOp o) (s : PState K V P)
    (h : run env pr init ops = .ok s) :
    s.mix.ws.length ≤ compBound pr.maxGauss 0 ops ∧ s.mix.ms.length = s.mix.ws.length ∧
      s.mix.ps.length = s.mix.ws.length := by
  obtain ⟨h1, h2⟩ := run_size he hpr hmg ops init s 0 hops ⟨by simp [Aligned, init], by simp [init]⟩ (by simp [init]) h
  exact ⟨h2, h1.1.1.symm, by rw [← h1.1.2, h1.1.1]⟩

/-- **C123, PHD filter, time steps.** If every time step has at most `B` birth components and `M` measurements and ends
with capping, the filter never has more than `(max_gauss + B) (M + 1)` components, and never more than `max_gauss` after a
time step, however many time steps there are. `part` are the calls of a time step that is not finished. -/
theorem C123_phd_memory {env : Env K V P Z} (he : OkEnv env) {pr : Params K} (hpr : OkParams pr)
    (hmg : 1 ≤ pr.maxGauss) (B M : ℕ) (rounds : List (PhdRound K V P Z))
    (hr : ∀ r ∈ rounds, (r.births.map fun b => b.ws.length).sum ≤ B ∧ r.meas.length ≤ M ∧ r.flags.2.2.1 = true)
    (now : PhdRound K V P Z) (hnow : (now.births.map fun b => b.ws.length).sum ≤ B ∧ now.meas.length ≤ M)
    (part : List (Op K V P Z)) (hpart : part <+: now.ops)
    (hops : ∀ o ∈ rounds.flatMap PhdRound.ops ++ part, OkOp o) (s : PState K V P)
    (h : run env pr init (rounds.flatMap PhdRound.ops ++ part) = .ok s) :
    s.mix.ws.length ≤ (pr.maxGauss + B) * (M + 1) ∧ (part = [] → s.mix.ws.length ≤ pr.maxGauss) := by
  have key : ∀ (l : List (PhdRound K V P Z)), (∀ r ∈ l, r.flags.2.2.1 = true) → ∀ N, N ≤ pr.maxGauss →
      compBound pr.maxGauss N (l.flatMap PhdRound.ops) ≤ pr.maxGauss := by
    intro l
    induction l with
    | nil => exact fun _ N hN => hN
    | cons r l ih =>
      intro hl N hN
      rw [List.flatMap_cons, compBound_append]
      refine ih (fun x hx => hl x (List.mem_cons_of_mem _ hx)) _ ?_
      simp only [PhdRound.ops, compBound, hl r List.mem_cons_self, if_true]
      omega
  have hle := (C123_phd_components he hpr hmg _ hops s h).1
  rw [compBound_append] at hle
  have h0 := key rounds (fun r hm => (hr r hm).2.2) 0 (Nat.zero_le _)
  generalize compBound pr.maxGauss 0 (rounds.flatMap PhdRound.ops) = N at hle h0
  constructor
  · refine hle.trans ?_
    have e1 : N ≤ (pr.maxGauss + B) * (M + 1) := by nlinarith [Nat.zero_le ((pr.maxGauss + B) * M)]
    have e2 : N + (now.births.map fun b => b.ws.length).sum ≤ pr.maxGauss + B := by omega
    have e3 : (N + (now.births.map fun b => b.ws.length).sum) * (now.meas.length + 1) ≤ (pr.maxGauss + B) * (M + 1) :=
      Nat.mul_le_mul e2 (by omega)
    have e4 : N + (now.births.map fun b => b.ws.length).sum ≤ (pr.maxGauss + B) * (M + 1) := by
      nlinarith [Nat.zero_le ((pr.maxGauss + B) * M)]
    unfold PhdRound.ops at hpart
    rw [List.prefix_cons_iff] at hpart
    rcases hpart with rfl | ⟨t, rfl, ht⟩
    · exact e1
    · rw [List.prefix_cons_iff] at ht
      rcases ht with rfl | ⟨t, rfl, ht⟩
      · exact e4
      · rw [List.prefix_cons_iff] at ht
        rcases ht with rfl | ⟨t, rfl, ht⟩
        · exact e3
        · obtain rfl := List.prefix_nil.1 ht
          simp only [compBound]
          split
          · exact (min_le_left _ _).trans e3
          · exact e3
  · rintro rfl
    exact hle.trans h0

/-! Non-vacuity: three time steps with two birth components and up to two measurements each, in the middle of the
fourth; the bound of `C123_phd_components` is reached after the first update. -/

example : (run exEnv exParams init ((exPhdRound [1, 7]).ops.take 2)).toOption.map (fun s => s.mix.ws.length) = some 6 ∧
    compBound exParams.maxGauss 0 ((exPhdRound [1, 7]).ops.take 2) = 6 ∧ 1 ≤ exParams.maxGauss ∧
    (run exEnv exParams init (([[1, 7], [2], [3, 8]].map exPhdRound).flatMap PhdRound.ops ++
      (exPhdRound [4, 9]).ops.take 2)).toOption.map (fun s => s.mix.ws.length) = some 12 ∧
    (exParams.maxGauss + 2) * (2 + 1) = 12 := by decide +kernel

example : (∀ r ∈ ([[1, 7], [2], [3, 8]].map exPhdRound), (r.births.map fun b => b.ws.length).sum ≤ 2 ∧ r.meas.length ≤ 2 ∧
    r.flags.2.2.1 = true) ∧
    (∀ o ∈ ([[1, 7], [2], [3, 8]].map exPhdRound).flatMap PhdRound.ops ++ (exPhdRound [4, 9]).ops.take 2, OkOp o) := by
  constructor
  · simp [exPhdRound]
  · intro o ho
    rcases List.mem_append.1 ho with ho | ho
    · obtain ⟨r, hr, ho⟩ := List.mem_flatMap.1 ho
      obtain ⟨zs, _, rfl⟩ := List.mem_map.1 hr
      exact exPhdRound_ok zs o ho
    · exact exPhdRound_ok _ o (List.mem_of_mem_take ho)

end Gasur.Props
