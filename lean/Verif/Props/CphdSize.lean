import Verif.Props.PhdSize
import Verif.Props.CphdHistory

/-!
# Property C123 (CPHD filter): the number of mixture components stays bounded, the cardinality distribution has fixed length
-/

set_option linter.unusedSectionVars false

namespace Gasur.Props

open Gasur.Phd Gasur.Spec Gasur.Cphd

variable {V P Z : Type*} [AddCommGroup V] [Module ℝ V] [AddCommGroup P] [Module ℝ P]

/-- Number of components after the calls `ops`, at most, if it was at most `N` before. -/
def cphdBound (maxGauss : ℕ) : ℕ → List (Cphd.Op V P Z) → ℕ
  | N, [] => N
  | N, .predict _ births :: os => cphdBound maxGauss (N + (births.map fun b => b.ws.length).sum) os
  | N, .correct _ meas :: os => cphdBound maxGauss (N * (meas.length + 1)) os
  | N, .cleanup _ _ cap _ :: os => cphdBound maxGauss (if cap then min N maxGauss else N) os
  | N, .extract :: os => cphdBound maxGauss N os
  | N, .setMax _ :: os => cphdBound maxGauss N os

theorem cphdBound_append (G : ℕ) : ∀ (a b : List (Cphd.Op V P Z)) (N : ℕ),
    cphdBound G N (a ++ b) = cphdBound G (cphdBound G N a) b
  | [], b, N => rfl
  | .predict _ _ :: a, b, N => cphdBound_append G a b _
  | .correct _ _ :: a, b, N => cphdBound_append G a b _
  | .cleanup _ _ _ _ :: a, b, N => cphdBound_append G a b _
  | .extract :: a, b, N => cphdBound_append G a b _
  | .setMax _ :: a, b, N => cphdBound_append G a b _

theorem correctComps_size {esf : List ℝ → List ℝ} {pr : Params ℝ} {f : Filt ℝ V P Z} {zs : List Z}
    {cs cs' : List (ℝ × V × P)} {card c' : List ℝ} (h : correctComps esf pr f zs cs card = .ok (cs', c')) :
    cs'.length = cs.length * (zs.length + 1) := by
  unfold correctComps at h
  split at h
  · exact (nomatch h)
  split at h
  · exact (nomatch h)
  dsimp only at h
  split at h
  · exact (nomatch h)
  split at h
  · exact (nomatch h)
  split at h
  · exact (nomatch h)
  · have := congrArg Prod.fst (Except.ok.inj h)
    dsimp only at this
    rw [← this]
    simp only [List.length_append, List.length_zipWith, missWeights, List.length_map, min_self, List.length_flatMap,
      detComps, List.map_const', List.sum_replicate, smul_eq_mul, List.length_zipIdx]
    ring

theorem ccorrect_size {esf : List ℝ → List ℝ} {pr : Params ℝ} {f : Filt ℝ V P Z} {zs : List Z} {s s' : CState V P}
    (h : Cphd.correct esf pr f zs s = .ok s') : s'.mix.ws.length = s.mix.ws.length * (zs.length + 1) := by
  unfold Cphd.correct at h
  split at h
  · rename_i hal
    split at h
    · exact (nomatch h)
    · rename_i cs' c' hc
      obtain rfl := Except.ok.inj h
      have := correctComps_size hc
      simp only [mixOf, List.length_map, this, comps, List.length_zip]
      rw [← hal.2, min_self, ← hal.1, min_self]
  · exact (nomatch h)

theorem cpredict_size {pr : Params ℝ} {f : Filt ℝ V P Z} {births : List (Mix ℝ V P)} {s s' : CState V P}
    (h : Cphd.predict pr f births s = .ok s') :
    s'.mix.ws.length = s.mix.ws.length + (births.map fun b => b.ws.length).sum ∧ s'.card.length = maxCard s + 1 := by
  unfold Cphd.predict at h
  split at h
  · exact (nomatch h)
  split at h
  · exact (nomatch h)
  rename_i c hc
  obtain rfl := Except.ok.inj h
  constructor
  · show (Phd.predict pr f births s.mix).ws.length = _
    rw [(C28_predict_mass pr f births s.mix).2.1, List.length_append, List.length_map, List.length_flatMap]
  · unfold cardPredict at hc
    split at hc
    · exact (nomatch hc)
    unfold Cphd.normalize at hc
    split at hc
    · exact (nomatch hc)
    obtain rfl := Except.ok.inj hc
    simp

theorem ccleanup_size {env : Env ℝ V P Z} (he : OkEnv env) {pr : Params ℝ} (hpr : OkC pr) (hmg : 1 ≤ pr.maxGauss)
    {bp bm bc be : Bool} {s s' : CState V P} (hs : Good s.mix) (h : Cphd.cleanup env pr bp bm bc be s = .ok s') :
    s'.mix.ws.length ≤ if bc then min s.mix.ws.length pr.maxGauss else s.mix.ws.length := by
  unfold Cphd.cleanup at h
  split at h
  · exact (nomatch h)
  · rename_i m1 h1
    rw [liftE_ok] at h1
    have k1 : Good m1 ∧ m1.ws.length ≤ s.mix.ws.length := by
      unfold optStep at h1
      split at h1
      · exact ⟨(prune_mass hs h1).1, prune_size hs h1⟩
      · obtain rfl := Except.ok.inj h1
        exact ⟨hs, le_refl _⟩
    split at h
    · exact (nomatch h)
    · rename_i m2 h2
      rw [liftE_ok] at h2
      have k2 : Good m2 ∧ m2.ws.length ≤ m1.ws.length := by
        unfold optStep at h2
        split at h2
        · exact ⟨(merge_mass hpr.ok he k1.1 h2).1, merge_size hpr.ok he k1.1 h2⟩
        · obtain rfl := Except.ok.inj h2
          exact ⟨k1.1, le_refl _⟩
      split at h
      · exact (nomatch h)
      · rename_i m3 h3
        rw [liftE_ok] at h3
        have k3 : m3.ws.length ≤ if bc then min m2.ws.length pr.maxGauss else m2.ws.length := by
          unfold optStep at h3
          split at h3
          · rename_i hbc
            rw [if_pos hbc]
            exact cap_size hmg he k2.1 h3
          · rename_i hbc
            obtain rfl := Except.ok.inj h3
            rw [if_neg hbc]
        have : s'.mix = m3 := by
          split at h
          · exact (extract_frame h).1
          · obtain rfl := Except.ok.inj h
            rfl
        rw [this]
        have := k1.2
        have := k2.2
        split at k3 <;> rename_i hbc
        · rw [if_pos hbc]
          omega
        · rw [if_neg hbc]
          omega

theorem cstep_size {env : Env ℝ V P Z} (he : OkEnv env) {esf : List ℝ → List ℝ} {pr : Params ℝ}
    (hpr : OkC pr) (hmg : 1 ≤ pr.maxGauss) {s s' : CState V P} (hs : Good s.mix) {o : Cphd.Op V P Z}
    (h : Cphd.step env esf pr s o = .ok s') {N : ℕ} (hN : s.mix.ws.length ≤ N) :
    s'.mix.ws.length ≤ cphdBound pr.maxGauss N [o] := by
  cases o with
  | predict f b =>
    simp only [cphdBound]
    rw [(cpredict_size h).1]
    omega
  | correct f z =>
    simp only [cphdBound]
    rw [ccorrect_size h]
    exact Nat.mul_le_mul_right _ hN
  | cleanup bp bm bc be =>
    refine (ccleanup_size he hpr hmg hs h).trans ?_
    simp only [cphdBound]
    split <;> omega
  | extract =>
    simp only [cphdBound]
    rw [(extract_frame h).1]
    exact hN
  | setMax n =>
    obtain rfl := Except.ok.inj h
    exact hN

theorem crun_size {env : Env ℝ V P Z} (he : OkEnv env) {esf : List ℝ → List ℝ} (hesf : IsEsf esf) {pr : Params ℝ}
    (hpr : OkC pr) (hmg : 1 ≤ pr.maxGauss) : ∀ (ops : List (Cphd.Op V P Z)) (s s' : CState V P) (N : ℕ),
      (∀ o ∈ ops, OkCOp o) → CInv s → s.mix.ws.length ≤ N → Cphd.run env esf pr s ops = .ok s' →
        CInv s' ∧ s'.mix.ws.length ≤ cphdBound pr.maxGauss N ops
  | [], s, s', N, _, hg, hN, h => by
    obtain rfl := Except.ok.inj h
    exact ⟨hg, hN⟩
  | o :: os, s, s', N, ho, hg, hN, h => by
    obtain ⟨s1, h1, h2⟩ := crun_cons env esf pr s o os h
    have b1 := cstep_size he hpr hmg hg.2 h1 hN
    have g1 := step_inv he hesf hpr hg o (ho o List.mem_cons_self) h1
    have := crun_size he hesf hpr hmg os s1 s' _ (fun x hx => ho x (List.mem_cons_of_mem _ hx)) g1 b1 h2
    rw [← cphdBound_append] at this
    exact this

/-- **C123, CPHD filter.** After any sequence of well-formed calls on a new filter with `max_gauss ≥ 1`, the mixture has
at most `cphdBound` components: as many weights, means and covariances. The cardinality distribution has one entry more
than the value that was last set as `max_expected_card`. -/
theorem C123_cphd_components {env : Env ℝ V P Z} (he : OkEnv env) {esf : List ℝ → List ℝ} (hesf : IsEsf esf)
    {pr : Params ℝ} (hpr : OkC pr) (hmg : 1 ≤ pr.maxGauss) (N : ℕ) (ops : List (Cphd.Op V P Z))
    (hops : ∀ o ∈ ops, OkCOp o) (s : CState V P) (h : Cphd.run env esf pr (Cphd.init N) ops = .ok s) :
    s.mix.ws.length ≤ cphdBound pr.maxGauss 0 ops ∧ s.mix.ms.length = s.mix.ws.length ∧
      s.mix.ps.length = s.mix.ws.length ∧ s.card.length = lastMax N ops + 1 := by
  obtain ⟨h1, h2⟩ := crun_size he hesf hpr hmg ops (Cphd.init N) s 0 hops (init_inv N) (by simp [Cphd.init]) h
  exact ⟨h2, h1.2.1.1.symm, by rw [← h1.2.1.2, h1.2.1.1], (C36_distribution he hesf hpr N ops hops s h).length⟩

/-- One time step. -/
structure CphdRound (V P Z : Type*) where
  fp : Filt ℝ V P Z
  births : List (Mix ℝ V P)
  fc : Filt ℝ V P Z
  meas : List Z
  flags : Bool × Bool × Bool × Bool

/-- The calls of a time step: `predict`, `correct`, `cleanup`. -/
def CphdRound.ops (r : CphdRound V P Z) : List (Cphd.Op V P Z) :=
  [.predict r.fp r.births, .correct r.fc r.meas, .cleanup r.flags.1 r.flags.2.1 r.flags.2.2.1 r.flags.2.2.2]

/-- **C123, CPHD filter, time steps.** If every time step has at most `B` birth components and `M` measurements and ends
with capping, the filter never has more than `(max_gauss + B) (M + 1)` components, and never more than `max_gauss` after a
time step, however many time steps there are; the cardinality distribution always has `N + 1` entries. `part` are the calls
of a time step that is not finished. -/
theorem C123_cphd_memory {env : Env ℝ V P Z} (he : OkEnv env) {esf : List ℝ → List ℝ} (hesf : IsEsf esf) {pr : Params ℝ}
    (hpr : OkC pr) (hmg : 1 ≤ pr.maxGauss) (N B M : ℕ) (rounds : List (CphdRound V P Z))
    (hr : ∀ r ∈ rounds, (r.births.map fun b => b.ws.length).sum ≤ B ∧ r.meas.length ≤ M ∧ r.flags.2.2.1 = true)
    (now : CphdRound V P Z) (hnow : (now.births.map fun b => b.ws.length).sum ≤ B ∧ now.meas.length ≤ M)
    (part : List (Cphd.Op V P Z)) (hpart : part <+: now.ops)
    (hops : ∀ o ∈ rounds.flatMap CphdRound.ops ++ part, OkCOp o) (s : CState V P)
    (h : Cphd.run env esf pr (Cphd.init N) (rounds.flatMap CphdRound.ops ++ part) = .ok s) :
    s.mix.ws.length ≤ (pr.maxGauss + B) * (M + 1) ∧ (part = [] → s.mix.ws.length ≤ pr.maxGauss) ∧
      s.card.length = N + 1 := by
  have key : ∀ (l : List (CphdRound V P Z)), (∀ r ∈ l, r.flags.2.2.1 = true) → ∀ N, N ≤ pr.maxGauss →
      cphdBound pr.maxGauss N (l.flatMap CphdRound.ops) ≤ pr.maxGauss := by
    intro l
    induction l with
    | nil => exact fun _ N hN => hN
    | cons r l ih =>
      intro hl N hN
      rw [List.flatMap_cons, cphdBound_append]
      refine ih (fun x hx => hl x (List.mem_cons_of_mem _ hx)) _ ?_
      simp only [CphdRound.ops, cphdBound, hl r List.mem_cons_self, if_true]
      omega
  have hlen : s.card.length = N + 1 := by
    rw [(C123_cphd_components he hesf hpr hmg N _ hops s h).2.2.2]
    have h1 : ∀ (l : List (CphdRound V P Z)) (t : List (Cphd.Op V P Z)),
        lastMax N (l.flatMap CphdRound.ops ++ t) = lastMax N t := by
      intro l
      induction l with
      | nil => exact fun _ => rfl
      | cons r l ih =>
        intro t
        simp only [List.flatMap_cons, CphdRound.ops, List.cons_append, List.nil_append, lastMax]
        exact ih t
    rw [h1]
    unfold CphdRound.ops at hpart
    rw [List.prefix_cons_iff] at hpart
    rcases hpart with rfl | ⟨t, rfl, ht⟩
    · rfl
    · rw [List.prefix_cons_iff] at ht
      rcases ht with rfl | ⟨t, rfl, ht⟩
      · rfl
      · rw [List.prefix_cons_iff] at ht
        rcases ht with rfl | ⟨t, rfl, ht⟩
        · rfl
        · obtain rfl := List.prefix_nil.1 ht
          rfl
  have hle := (C123_cphd_components he hesf hpr hmg N _ hops s h).1
  rw [cphdBound_append] at hle
  have h0 := key rounds (fun r hm => (hr r hm).2.2) 0 (Nat.zero_le _)
  generalize cphdBound pr.maxGauss 0 (rounds.flatMap CphdRound.ops) = L at hle h0
  refine ⟨?_, ?_, hlen⟩
  · refine hle.trans ?_
    have e1 : L ≤ (pr.maxGauss + B) * (M + 1) := by nlinarith [Nat.zero_le ((pr.maxGauss + B) * M)]
    have e2 : L + (now.births.map fun b => b.ws.length).sum ≤ pr.maxGauss + B := by omega
    have e3 : (L + (now.births.map fun b => b.ws.length).sum) * (now.meas.length + 1) ≤ (pr.maxGauss + B) * (M + 1) :=
      Nat.mul_le_mul e2 (by omega)
    have e4 : L + (now.births.map fun b => b.ws.length).sum ≤ (pr.maxGauss + B) * (M + 1) := by
      nlinarith [Nat.zero_le ((pr.maxGauss + B) * M)]
    unfold CphdRound.ops at hpart
    rw [List.prefix_cons_iff] at hpart
    rcases hpart with rfl | ⟨t, rfl, ht⟩
    · exact e1
    · rw [List.prefix_cons_iff] at ht
      rcases ht with rfl | ⟨t, rfl, ht⟩
      · exact e4
      · rw [List.prefix_cons_iff] at ht
        rcases ht with rfl | ⟨t, rfl, ht⟩
        · exact e3
        · obtain rfl := List.prefix_nil.1 ht
          simp only [cphdBound]
          split
          · exact (min_le_left _ _).trans e3
          · exact e3
  · rintro rfl
    exact hle.trans h0

/-! Non-vacuity: a birth, one measurement, extraction: the run exists, and the bound is 2. -/

example : (∃ (env : Env ℝ ℝ ℝ ℝ) (s : CState ℝ ℝ), OkEnv env ∧ IsEsf exEsf ∧ OkC exCp ∧ 1 ≤ exCp.maxGauss ∧
    (∀ o ∈ ([.predict exCF [exBirth], .correct exCF [0], .extract] : List (Cphd.Op ℝ ℝ ℝ)), OkCOp o) ∧
    Cphd.run env exEsf exCp (Cphd.init 2) [.predict exCF [exBirth], .correct exCF [0], .extract] = .ok s) ∧
    cphdBound exCp.maxGauss 0 ([.predict exCF [exBirth], .correct exCF [0], .extract] : List (Cphd.Op ℝ ℝ ℝ)) = 2 := by
  obtain ⟨env, s, henv, hr, _, _⟩ := cphdExRun
  refine ⟨⟨env, s, henv, exEsf_ok, exCp_ok, by simp [exCp], ?_, hr⟩, by simp [cphdBound, exBirth]⟩
  intro o ho
  simp only [List.mem_cons, List.not_mem_nil, or_false] at ho
  rcases ho with rfl | rfl | rfl <;> simp [OkCOp, exBirth, Aligned, exCF]

/-! Two calls of the first time step meet the conditions of `C123_cphd_memory`. -/

example : ∃ (env : Env ℝ ℝ ℝ ℝ) (s : CState ℝ ℝ), OkEnv env ∧
    [.predict exCF [exBirth], .correct exCF [0]] <+: (⟨exCF, [exBirth], exCF, [0], true, true, true, true⟩ : CphdRound ℝ ℝ ℝ).ops ∧
    Cphd.run env exEsf exCp (Cphd.init 2) (([] : List (CphdRound ℝ ℝ ℝ)).flatMap CphdRound.ops ++
      [.predict exCF [exBirth], .correct exCF [0]]) = .ok s := by
  obtain ⟨env, s, henv, hr, _, _⟩ := cphdExRun
  obtain ⟨s1, h1, _⟩ := crun_split env exEsf exCp [.predict exCF [exBirth], .correct exCF [0]] [.extract] _ _ hr
  exact ⟨env, s1, henv, ⟨[.cleanup true true true true], rfl⟩, h1⟩

end Gasur.Props
