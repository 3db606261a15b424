import Verif.Props.GlmbReport
import Verif.Props.JglmbReport
import Verif.Props.PhdHistory
import Verif.Props.CphdHistory

/-!
# C143: extracting states does not influence the filters

`extract_states` (and the extraction flag of `cleanup`) only writes the lists of results. A run in which some extractions are left
out succeeds and ends with the same density, tracks, hypotheses and cardinality distribution.
-/

namespace Gasur.Props

/-! ### PHD -/

namespace PhdTrace

open Gasur.Phd

variable {K V P Z : Type*} [Field K] [LinearOrder K] [AddCommGroup V] [Module K V] [AddCommGroup P] [Module K P] [FloorRing K]

/-- Some extractions are left out. -/
inductive Fewer : List (Op K V P Z) → List (Op K V P Z) → Prop
  | nil : Fewer [] []
  | same (o : Op K V P Z) {l l' : List (Op K V P Z)} : Fewer l l' → Fewer (o :: l) (o :: l')
  | drop {l l' : List (Op K V P Z)} : Fewer l l' → Fewer (.extract :: l) l'
  | unflag (bp bm bc : Bool) {l l' : List (Op K V P Z)} : Fewer l l' →
      Fewer (.cleanup bp bm bc true :: l) (.cleanup bp bm bc false :: l')

theorem doExtract_mix {pr : Params K} {s s' : PState K V P} (h : doExtract pr s = .ok s') :
    s'.mix = s.mix ∧ ∃ x, s'.states = s.states ++ [x] ∧ extract pr s.mix = .ok x := by
  unfold doExtract at h
  split at h
  · exact (nomatch h)
  · rename_i x hx
    obtain rfl := Except.ok.inj h
    exact ⟨rfl, x, rfl, hx⟩

theorem cleanup_mix {env : Env K V P Z} {pr : Params K} {bp bm bc be : Bool} {s s' : PState K V P}
    (h : cleanup env pr bp bm bc be s = .ok s') :
    ∃ m1 m2, optStep bp (prune pr) s.mix = .ok m1 ∧ optStep bm (merge env.quad pr) m1 = .ok m2 ∧
      optStep bc (cap env.argsort pr) m2 = .ok s'.mix ∧
      (be = false → s' = { s with mix := s'.mix }) ∧ (be = true → doExtract pr { s with mix := s'.mix } = .ok s') := by
  unfold cleanup at h
  split at h
  · exact (nomatch h)
  rename_i m1 h1
  split at h
  · exact (nomatch h)
  rename_i m2 h2
  split at h
  · exact (nomatch h)
  rename_i m3 h3
  cases be with
  | false =>
    obtain rfl := Except.ok.inj h
    exact ⟨m1, m2, h1, h2, h3, fun _ => rfl, fun h => (nomatch h)⟩
  | true =>
    have e : s'.mix = m3 := (doExtract_mix h).1
    refine ⟨m1, m2, h1, h2, by rw [e]; exact h3, fun h => (nomatch h), fun _ => by rw [e]; exact h⟩

theorem cleanup_of {env : Env K V P Z} {pr : Params K} {bp bm bc be : Bool} {s : PState K V P} {m1 m2 m3 : Mix K V P}
    (h1 : optStep bp (prune pr) s.mix = .ok m1) (h2 : optStep bm (merge env.quad pr) m1 = .ok m2)
    (h3 : optStep bc (cap env.argsort pr) m2 = .ok m3) :
    cleanup env pr bp bm bc be s = if be then doExtract pr { s with mix := m3 } else .ok { s with mix := m3 } := by
  unfold cleanup
  rw [h1]
  dsimp only
  rw [h2]
  dsimp only
  rw [h3]

/-- One call from states with the same density: the same density, and the same results are added. -/
theorem step_same {env : Env K V P Z} {pr : Params K} {s s' t : PState K V P} (o : Op K V P Z) (h : step env pr s o = .ok s')
    (he : t.mix = s.mix) (hs : t.states.Sublist s.states) :
    ∃ t', step env pr t o = .ok t' ∧ t'.mix = s'.mix ∧ t'.states.Sublist s'.states := by
  have ext : ∀ {s s' t : PState K V P}, doExtract pr s = .ok s' → t.mix = s.mix → t.states.Sublist s.states →
      ∃ t', doExtract pr t = .ok t' ∧ t'.mix = s'.mix ∧ t'.states.Sublist s'.states := by
    intro s s' t h he hs
    obtain ⟨h1, x, h2, h3⟩ := doExtract_mix h
    refine ⟨{ t with states := t.states ++ [x] }, ?_, he.trans h1.symm, ?_⟩
    · unfold doExtract
      rw [he, h3]
    · rw [h2]
      exact hs.append (List.Sublist.refl _)
  cases o with
  | predict f b =>
    obtain rfl := Except.ok.inj h
    exact ⟨_, rfl, by simp only [he], hs⟩
  | correct f z =>
    simp only [step] at h ⊢
    rw [he]
    split at h
    · exact (nomatch h)
    · rename_i m hm
      obtain rfl := Except.ok.inj h
      exact ⟨_, rfl, rfl, hs⟩
  | cleanup bp bm bc be =>
    obtain ⟨m1, m2, h1, h2, h3, h4, h5⟩ := cleanup_mix h
    rw [← he] at h1
    simp only [step]
    rw [cleanup_of h1 h2 h3]
    cases be with
    | false =>
      refine ⟨_, rfl, rfl, ?_⟩
      rw [h4 rfl]
      exact hs
    | true => exact ext (h5 rfl) rfl hs
  | extract => exact ext h he hs

theorem run_fewer {env : Env K V P Z} {pr : Params K} {ops ops' : List (Op K V P Z)} (hf : Fewer ops ops') :
    ∀ {s s' t : PState K V P}, run env pr s ops = .ok s' → t.mix = s.mix → t.states.Sublist s.states →
      ∃ t', run env pr t ops' = .ok t' ∧ t'.mix = s'.mix ∧ t'.states.Sublist s'.states := by
  induction hf with
  | nil =>
    intro s s' t h he hs
    obtain rfl := Except.ok.inj h
    exact ⟨t, rfl, he, hs⟩
  | same o _ ih =>
    intro s s' t h he hs
    unfold run at h
    split at h
    · exact (nomatch h)
    rename_i s1 h1
    obtain ⟨t1, g1, g2, g3⟩ := step_same o h1 he hs
    unfold run
    rw [g1]
    exact ih h g2 g3
  | drop _ ih =>
    intro s s' t h he hs
    unfold run at h
    split at h
    · exact (nomatch h)
    rename_i s1 h1
    obtain ⟨g1, x, g2, _⟩ := doExtract_mix h1
    exact ih h (he.trans g1.symm) (by rw [g2]; exact hs.trans (List.sublist_append_left _ _))
  | unflag bp bm bc _ ih =>
    intro s s' t h he hs
    unfold run at h
    split at h
    · exact (nomatch h)
    rename_i s1 h1
    obtain ⟨m1, m2, k1, k2, k3, _, k5⟩ := cleanup_mix h1
    obtain ⟨g1, x, g2, _⟩ := doExtract_mix (k5 rfl)
    rw [← he] at k1
    unfold run
    simp only [step]
    rw [cleanup_of k1 k2 k3]
    exact ih h rfl (by rw [g2]; exact hs.trans (List.sublist_append_left _ _))

end PhdTrace

/-- **C143, PHD.** If a sequence of calls succeeds and some extractions are left out, the shorter sequence succeeds, ends with
the same mixture, and its results are among those of the longer sequence, in the same order. -/
theorem C143_phd {K V P Z : Type*} [Field K] [LinearOrder K] [AddCommGroup V] [Module K V] [AddCommGroup P]
    [Module K P] [FloorRing K] (env : Phd.Env K V P Z) (pr : Phd.Params K) {ops ops' : List (Phd.Op K V P Z)}
    (hf : PhdTrace.Fewer ops ops') {s : Phd.PState K V P} (h : Phd.run env pr Phd.init ops = .ok s) :
    ∃ t, Phd.run env pr Phd.init ops' = .ok t ∧ t.mix = s.mix ∧ t.states.Sublist s.states :=
  PhdTrace.run_fewer hf h rfl (List.Sublist.refl _)

/-! ### CPHD -/

namespace CphdTrace

open Gasur.Phd Gasur.Cphd

variable {V P Z : Type*} [AddCommGroup V] [Module ℝ V] [AddCommGroup P] [Module ℝ P]

/-- Some extractions are left out. -/
inductive Fewer : List (Cphd.Op V P Z) → List (Cphd.Op V P Z) → Prop
  | nil : Fewer [] []
  | same (o : Cphd.Op V P Z) {l l' : List (Cphd.Op V P Z)} : Fewer l l' → Fewer (o :: l) (o :: l')
  | drop {l l' : List (Cphd.Op V P Z)} : Fewer l l' → Fewer (.extract :: l) l'
  | unflag (bp bm bc : Bool) {l l' : List (Cphd.Op V P Z)} : Fewer l l' →
      Fewer (.cleanup bp bm bc true :: l) (.cleanup bp bm bc false :: l')

/-- Same density, cardinality distribution and history of cardinalities; the results of `t` are among those of `s`. -/
def Rel (t s : CState V P) : Prop := t.mix = s.mix ∧ t.card = s.card ∧ t.hist = s.hist ∧ t.states.Sublist s.states

omit [AddCommGroup V] [Module ℝ V] [AddCommGroup P] [Module ℝ P] in
theorem extract_frame {a : List ℝ → List ℕ} {s s' : CState V P} (h : Cphd.extract a s = .ok s') :
    s'.mix = s.mix ∧ s'.card = s.card ∧ s'.hist = s.hist ∧ ∃ x, s'.states = s.states ++ [x] := by
  unfold Cphd.extract at h
  split at h
  · exact (nomatch h)
  · obtain rfl := Except.ok.inj h
    exact ⟨rfl, rfl, rfl, _, rfl⟩

omit [AddCommGroup V] [Module ℝ V] [AddCommGroup P] [Module ℝ P] in
theorem extract_same {a : List ℝ → List ℕ} {s s' t : CState V P} (h : Cphd.extract a s = .ok s') (hR : Rel t s) :
    ∃ t', Cphd.extract a t = .ok t' ∧ Rel t' s' := by
  obtain ⟨h1, h2, h3, h4⟩ := hR
  unfold Cphd.extract Cphd.cardinality at h ⊢
  rw [h1, h2]
  split at h
  · exact (nomatch h)
  · obtain rfl := Except.ok.inj h
    exact ⟨_, rfl, rfl, rfl, h3, h4.append (List.Sublist.refl _)⟩

theorem cleanup_mix {env : Env ℝ V P Z} {pr : Params ℝ} {bp bm bc be : Bool} {s s' : CState V P}
    (h : Cphd.cleanup env pr bp bm bc be s = .ok s') :
    ∃ m1 m2 m3, liftE (optStep bp (prune pr) s.mix) = .ok m1 ∧ liftE (optStep bm (merge env.quad pr) m1) = .ok m2 ∧
      liftE (optStep bc (cap env.argsort pr) m2) = .ok m3 ∧
      (if be then Cphd.extract env.argsort { s with mix := m3 } else .ok { s with mix := m3 }) = .ok s' := by
  unfold Cphd.cleanup at h
  split at h
  · exact (nomatch h)
  rename_i m1 h1
  split at h
  · exact (nomatch h)
  rename_i m2 h2
  split at h
  · exact (nomatch h)
  rename_i m3 h3
  exact ⟨m1, m2, m3, h1, h2, h3, h⟩

theorem cleanup_of {env : Env ℝ V P Z} {pr : Params ℝ} {bp bm bc be : Bool} {s : CState V P} {m1 m2 m3 : Mix ℝ V P}
    (h1 : liftE (optStep bp (prune pr) s.mix) = .ok m1) (h2 : liftE (optStep bm (merge env.quad pr) m1) = .ok m2)
    (h3 : liftE (optStep bc (cap env.argsort pr) m2) = .ok m3) :
    Cphd.cleanup env pr bp bm bc be s =
      if be then Cphd.extract env.argsort { s with mix := m3 } else .ok { s with mix := m3 } := by
  unfold Cphd.cleanup
  rw [h1]
  dsimp only
  rw [h2]
  dsimp only
  rw [h3]

theorem step_same {env : Env ℝ V P Z} {esf : List ℝ → List ℝ} {pr : Params ℝ} {s s' t : CState V P} (o : Cphd.Op V P Z)
    (h : Cphd.step env esf pr s o = .ok s') (hR : Rel t s) : ∃ t', Cphd.step env esf pr t o = .ok t' ∧ Rel t' s' := by
  have hR' := hR
  obtain ⟨e1, e2, e3, e4⟩ := hR
  cases o with
  | predict f b =>
    simp only [Cphd.step, Cphd.predict, Cphd.maxCard] at h ⊢
    rw [e1, e2]
    split at h
    · exact (nomatch h)
    rename_i l hl
    split at h
    · exact (nomatch h)
    rename_i c hc
    obtain rfl := Except.ok.inj h
    exact ⟨_, rfl, rfl, rfl, e3, e4⟩
  | correct f z =>
    simp only [Cphd.step, Cphd.correct] at h ⊢
    rw [e1, e2]
    split at h
    · rename_i hc
      rw [if_pos hc]
      split at h
      · exact (nomatch h)
      · obtain rfl := Except.ok.inj h
        exact ⟨_, rfl, rfl, rfl, by simp only [e3], e4⟩
    · exact (nomatch h)
  | cleanup bp bm bc be =>
    obtain ⟨m1, m2, m3, h1, h2, h3, h4⟩ := cleanup_mix h
    rw [← e1] at h1
    simp only [Cphd.step]
    rw [cleanup_of h1 h2 h3]
    cases be with
    | false =>
      obtain rfl := Except.ok.inj h4
      exact ⟨_, rfl, rfl, e2, e3, e4⟩
    | true => exact extract_same h4 ⟨rfl, e2, e3, e4⟩
  | extract => exact extract_same h hR'
  | setMax n =>
    obtain rfl := Except.ok.inj h
    exact ⟨_, rfl, e1, rfl, e3, e4⟩

theorem run_fewer {env : Env ℝ V P Z} {esf : List ℝ → List ℝ} {pr : Params ℝ} {ops ops' : List (Cphd.Op V P Z)}
    (hf : Fewer ops ops') : ∀ {s s' t : CState V P}, Cphd.run env esf pr s ops = .ok s' → Rel t s →
      ∃ t', Cphd.run env esf pr t ops' = .ok t' ∧ Rel t' s' := by
  induction hf with
  | nil =>
    intro s s' t h hR
    obtain rfl := Except.ok.inj h
    exact ⟨t, rfl, hR⟩
  | same o _ ih =>
    intro s s' t h hR
    unfold Cphd.run at h
    split at h
    · exact (nomatch h)
    rename_i s1 h1
    obtain ⟨t1, g1, g2⟩ := step_same o h1 hR
    unfold Cphd.run
    rw [g1]
    exact ih h g2
  | drop _ ih =>
    intro s s' t h hR
    unfold Cphd.run at h
    split at h
    · exact (nomatch h)
    rename_i s1 h1
    obtain ⟨g1, g2, g3, x, g4⟩ := extract_frame h1
    exact ih h ⟨hR.1.trans g1.symm, hR.2.1.trans g2.symm, hR.2.2.1.trans g3.symm,
      by rw [g4]; exact hR.2.2.2.trans (List.sublist_append_left _ _)⟩
  | unflag bp bm bc _ ih =>
    intro s s' t h hR
    unfold Cphd.run at h
    split at h
    · exact (nomatch h)
    rename_i s1 h1
    obtain ⟨m1, m2, m3, k1, k2, k3, k4⟩ := cleanup_mix h1
    obtain ⟨g1, g2, g3, x, g4⟩ := extract_frame k4
    rw [← hR.1] at k1
    unfold Cphd.run
    simp only [Cphd.step]
    rw [cleanup_of k1 k2 k3]
    exact ih h ⟨g1.symm, hR.2.1.trans g2.symm, hR.2.2.1.trans g3.symm,
      by rw [g4]; exact hR.2.2.2.trans (List.sublist_append_left _ _)⟩

end CphdTrace

/-- **C143, CPHD.** The same for the CPHD filter, with the cardinality distribution and its history. -/
theorem C143_cphd {V P Z : Type*} [AddCommGroup V] [Module ℝ V] [AddCommGroup P] [Module ℝ P] (env : Phd.Env ℝ V P Z)
    (esf : List ℝ → List ℝ) (pr : Phd.Params ℝ) (N : ℕ) {ops ops' : List (Cphd.Op V P Z)} (hf : CphdTrace.Fewer ops ops')
    {s : Cphd.CState V P} (h : Cphd.run env esf pr (Cphd.init N) ops = .ok s) :
    ∃ t, Cphd.run env esf pr (Cphd.init N) ops' = .ok t ∧ t.mix = s.mix ∧ t.card = s.card ∧ t.hist = s.hist ∧
      t.states.Sublist s.states :=
  CphdTrace.run_fewer hf h ⟨rfl, rfl, rfl, List.Sublist.refl _⟩

/-! ### GLMB -/

namespace GlmbTrace

open Gasur.Glmb

variable {K τ F S C Z : Type*} [Field K] [LinearOrder K] [IsStrictOrderedRing K] [FloorRing K] [DecidableEq τ]

/-- The sequence of calls without its extractions. -/
def bare : List (Op K τ F S C Z) → List (Op K τ F S C Z)
  | [] => []
  | .extract _ _ :: l => bare l
  | .cleanup env bp bc _ _ _ :: l => .cleanup env bp bc false false false :: bare l
  | o :: l => o :: bare l

/-- Same tracks, hypotheses, cardinality distribution and time step counter. -/
def Core (t s : St K τ F S C) : Prop := t.tab = s.tab ∧ t.hyps = s.hyps ∧ t.card = s.card ∧ t.cntr = s.cntr

omit [LinearOrder K] [FloorRing K] [DecidableEq τ] [Field K] [IsStrictOrderedRing K] in
theorem Core.trans {a b c : St K τ F S C} (h : Core a b) (h' : Core b c) : Core a c :=
  ⟨h.1.trans h'.1, h.2.1.trans h'.2.1, h.2.2.1.trans h'.2.2.1, h.2.2.2.trans h'.2.2.2⟩

theorem predict_core {env : Env K τ F S C Z} {pr : Params K} {lab : τ} {births : List (Birth K F S C)}
    {s s' t : St K τ F S C} (h : predict env pr lab births s = .ok s') (hR : Core t s) :
    ∃ t', predict env pr lab births t = .ok t' ∧ Core t' s' := by
  obtain ⟨e1, e2, e3, e4⟩ := hR
  unfold predict at h ⊢
  rw [e1, e2]
  split at h
  · exact (nomatch h)
  split at h
  · exact (nomatch h)
  split at h
  · exact (nomatch h)
  split at h
  · exact (nomatch h)
  try dsimp only
  split at h
  · exact (nomatch h)
  try dsimp only
  split at h
  · exact (nomatch h)
  obtain rfl := Except.ok.inj h
  exact ⟨_, rfl, by simp only [e4], rfl, rfl, e4⟩

theorem correct_core {env : Env K τ F S C Z} {pr : Params K} {meas : List Z}
    {s s' t : St K τ F S C} (h : correct env pr meas s = .ok s') (hR : Core t s) :
    ∃ t', correct env pr meas t = .ok t' ∧ Core t' s' := by
  obtain ⟨e1, e2, e3, e4⟩ := hR
  unfold correct at h ⊢
  rw [e1, e2]
  split at h
  · exact (nomatch h)
  split at h
  · exact (nomatch h)
  split at h
  · exact (nomatch h)
  obtain rfl := Except.ok.inj h
  exact ⟨_, rfl, rfl, rfl, rfl, e4⟩

omit [FloorRing K] [DecidableEq τ] [IsStrictOrderedRing K] in
theorem prune_core {pr : Params K} {s s' t : St K τ F S C} (h : prune pr s = .ok s') (hR : Core t s) :
    ∃ t', prune pr t = .ok t' ∧ Core t' s' := by
  obtain ⟨e1, e2, e3, e4⟩ := hR
  unfold prune at h ⊢
  rw [e2]
  split at h
  · exact (nomatch h)
  obtain rfl := Except.ok.inj h
  exact ⟨_, rfl, e1, rfl, rfl, e4⟩

omit [FloorRing K] [DecidableEq τ] [IsStrictOrderedRing K] in
theorem cap_core {env : Env K τ F S C Z} {pr : Params K} {s s' t : St K τ F S C} (h : cap env pr s = .ok s') (hR : Core t s) :
    ∃ t', cap env pr t = .ok t' ∧ Core t' s' := by
  have hR' := hR
  obtain ⟨e1, e2, e3, e4⟩ := hR
  unfold cap at h ⊢
  rw [e2]
  split at h
  · rename_i hc
    rw [if_pos hc]
    split at h
    · exact (nomatch h)
    split at h
    · exact (nomatch h)
    obtain rfl := Except.ok.inj h
    exact ⟨_, rfl, e1, rfl, rfl, e4⟩
  · rename_i hc
    rw [if_neg hc]
    obtain rfl := Except.ok.inj h
    exact ⟨_, rfl, hR'⟩

theorem cleanup_core {env : Env K τ F S C Z} {pr : Params K} {bp bc be u c : Bool} {s s' t : St K τ F S C}
    (h : cleanup env pr bp bc be u c s = .ok s') (hR : Core t s) :
    ∃ t', cleanup env pr bp bc false false false t = .ok t' ∧ Core t' s' := by
  obtain ⟨s1, s2, h1, h2, h3⟩ := cleanup_ok h
  have hR1 : Core { t with cntr := t.cntr + 1 } { s with cntr := s.cntr + 1 } :=
    ⟨hR.1, hR.2.1, hR.2.2.1, by simp only [hR.2.2.2]⟩
  have k1 : ∃ t1, (if bp then prune pr { t with cntr := t.cntr + 1 } else .ok { t with cntr := t.cntr + 1 }) = .ok t1 ∧
      Core t1 s1 := by
    cases bp with
    | false =>
      obtain rfl := Except.ok.inj h1
      exact ⟨_, rfl, hR1⟩
    | true => exact prune_core h1 hR1
  obtain ⟨t1, g1, r1⟩ := k1
  have k2 : ∃ t2, (if bc then cap env pr t1 else .ok t1) = .ok t2 ∧ Core t2 s2 := by
    cases bc with
    | false =>
      obtain rfl := Except.ok.inj h2
      exact ⟨_, rfl, r1⟩
    | true => exact cap_core h2 r1
  obtain ⟨t2, g2, r2⟩ := k2
  refine ⟨t2, ?_, ?_⟩
  · unfold cleanup
    rw [g1]
    dsimp only
    rw [g2]
    rfl
  · rcases h3 with ⟨_, rfl⟩ | ⟨_, o, h3⟩
    · exact r2
    · obtain ⟨f1, f2, f3, f4⟩ := Glmb.extract_frame h3
      exact ⟨r2.1.trans f1.symm, r2.2.1.trans f2.symm, r2.2.2.1.trans f3.symm, r2.2.2.2.trans f4.symm⟩

theorem run_bare {pr : Params K} : ∀ (ops : List (Op K τ F S C Z)) {s s' t : St K τ F S C},
    run pr s ops = .ok s' → Core t s → ∃ t', run pr t (bare ops) = .ok t' ∧ Core t' s'
  | [], s, s', t, h, hR => by
    obtain rfl := Except.ok.inj h
    exact ⟨t, rfl, hR⟩
  | o :: os, s, s', t, h, hR => by
    unfold run at h
    split at h
    · exact (nomatch h)
    rename_i s1 h1
    cases o with
    | predict env lab births =>
      obtain ⟨t1, g1, r1⟩ := predict_core h1 hR
      obtain ⟨t', g2, r2⟩ := run_bare os h r1
      refine ⟨t', ?_, r2⟩
      simp only [bare, run, step]
      rw [g1]
      exact g2
    | correct env meas =>
      obtain ⟨t1, g1, r1⟩ := correct_core h1 hR
      obtain ⟨t', g2, r2⟩ := run_bare os h r1
      refine ⟨t', ?_, r2⟩
      simp only [bare, run, step]
      rw [g1]
      exact g2
    | cleanup env bp bc be u c =>
      obtain ⟨t1, g1, r1⟩ := cleanup_core h1 hR
      obtain ⟨t', g2, r2⟩ := run_bare os h r1
      refine ⟨t', ?_, r2⟩
      simp only [bare, run, step]
      rw [g1]
      exact g2
    | extract u c =>
      simp only [step] at h1
      split at h1
      · exact (nomatch h1)
      rename_i x o hx
      obtain rfl := Except.ok.inj h1
      obtain ⟨f1, f2, f3, f4⟩ := Glmb.extract_frame hx
      exact run_bare os h ⟨hR.1.trans f1.symm, hR.2.1.trans f2.symm, hR.2.2.1.trans f3.symm, hR.2.2.2.trans f4.symm⟩

end GlmbTrace

/-- **C143, GLMB.** If a sequence of calls succeeds, so does the sequence with every extraction left out, and it ends with the
same track table, the same hypotheses, the same cardinality distribution and the same step counter. -/
theorem C143_glmb {K τ F S C Z : Type*} [Field K] [LinearOrder K] [IsStrictOrderedRing K] [FloorRing K] [DecidableEq τ]
    (pr : Glmb.Params K) (ops : List (Glmb.Op K τ F S C Z)) {s : Glmb.St K τ F S C}
    (h : Glmb.run pr Glmb.init ops = .ok s) :
    ∃ t, Glmb.run pr Glmb.init (GlmbTrace.bare ops) = .ok t ∧ t.tab = s.tab ∧ t.hyps = s.hyps ∧ t.card = s.card ∧
      t.cntr = s.cntr :=
  GlmbTrace.run_bare ops h ⟨rfl, rfl, rfl, rfl⟩

/-- **C143, GLMB, two runs.** Two successful sequences of calls that differ only in their extractions (which are made, when, and
with which flags) end with the same tracks, hypotheses, cardinality distribution and step counter. -/
theorem C143_glmb_two {K τ F S C Z : Type*} [Field K] [LinearOrder K] [IsStrictOrderedRing K] [FloorRing K] [DecidableEq τ]
    (pr : Glmb.Params K) (ops ops' : List (Glmb.Op K τ F S C Z)) (heq : GlmbTrace.bare ops = GlmbTrace.bare ops')
    {s s' : Glmb.St K τ F S C} (h : Glmb.run pr Glmb.init ops = .ok s) (h' : Glmb.run pr Glmb.init ops' = .ok s') :
    s.tab = s'.tab ∧ s.hyps = s'.hyps ∧ s.card = s'.card ∧ s.cntr = s'.cntr := by
  obtain ⟨t, g, r1, r2, r3, r4⟩ := C143_glmb pr ops h
  obtain ⟨t', g', r1', r2', r3', r4'⟩ := C143_glmb pr ops' h'
  rw [heq] at g
  obtain rfl := Except.ok.inj (g.symm.trans g')
  exact ⟨r1.symm.trans r1', r2.symm.trans r2', r3.symm.trans r3', r4.symm.trans r4'⟩

/-! ### Joint GLMB -/

namespace JglmbTrace

open Gasur.Glmb Gasur.Jglmb GlmbTrace

variable {K τ F S C Z : Type*} [Field K] [LinearOrder K] [IsStrictOrderedRing K] [FloorRing K] [DecidableEq τ]

/-- The sequence of calls without its extractions. -/
def bare : List (JOp K τ F S C Z) → List (JOp K τ F S C Z)
  | [] => []
  | .extract _ _ :: l => bare l
  | .cleanup env bp bc _ _ _ :: l => .cleanup env bp bc false false false :: bare l
  | o :: l => o :: bare l

omit [FloorRing K] [DecidableEq τ] [IsStrictOrderedRing K] in
theorem predict_core {env : Env K τ F S C Z} {lab : τ} {births : List (Birth K F S C)}
    {s s' t : JSt K τ F S C} (h : Jglmb.predict env lab births s = .ok s') (hR : Core t.g s.g) (ho : t.oldLen = s.oldLen) :
    ∃ t', Jglmb.predict env lab births t = .ok t' ∧ Core t'.g s'.g ∧ t'.oldLen = s'.oldLen := by
  obtain ⟨e1, e2, e3, e4⟩ := hR
  unfold Jglmb.predict at h ⊢
  rw [e1]
  split at h
  · exact (nomatch h)
  rename_i hb
  rw [if_neg hb]
  split at h
  · exact (nomatch h)
  obtain rfl := Except.ok.inj h
  exact ⟨_, rfl, ⟨by simp only [e4], e2, e3, e4⟩, ho⟩

omit [DecidableEq τ] [IsStrictOrderedRing K] in
theorem correct_core {env : Env K τ F S C Z} {jp : JParams K} {births : List (Birth K F S C)} {draws : ℕ → ℕ → ℕ → K}
    {meas : List Z} {s s' t : JSt K τ F S C} (h : Jglmb.correct env jp births draws meas s = .ok s') (hR : Core t.g s.g)
    (ho : t.oldLen = s.oldLen) :
    ∃ t', Jglmb.correct env jp births draws meas t = .ok t' ∧ Core t'.g s'.g ∧ t'.oldLen = s'.oldLen := by
  obtain ⟨e1, e2, e3, e4⟩ := hR
  unfold Jglmb.correct at h ⊢
  rw [e1, e2, ho]
  split at h
  · exact (nomatch h)
  try dsimp only
  split at h
  · exact (nomatch h)
  rename_i hb
  rw [if_neg hb]
  split at h
  · exact (nomatch h)
  split at h
  · exact (nomatch h)
  try dsimp only
  split at h
  · exact (nomatch h)
  obtain rfl := Except.ok.inj h
  exact ⟨_, rfl, ⟨rfl, rfl, rfl, e4⟩, rfl⟩

theorem run_bare {jp : JParams K} : ∀ (ops : List (JOp K τ F S C Z)) {s s' t : JSt K τ F S C},
    Jglmb.run jp s ops = .ok s' → Core t.g s.g → t.oldLen = s.oldLen →
      ∃ t', Jglmb.run jp t (bare ops) = .ok t' ∧ Core t'.g s'.g ∧ t'.oldLen = s'.oldLen
  | [], s, s', t, h, hR, ho => by
    obtain rfl := Except.ok.inj h
    exact ⟨t, rfl, hR, ho⟩
  | o :: os, s, s', t, h, hR, ho => by
    unfold Jglmb.run at h
    split at h
    · exact (nomatch h)
    rename_i s1 h1
    cases o with
    | predict env lab births =>
      obtain ⟨t1, g1, r1, o1⟩ := predict_core h1 hR ho
      obtain ⟨t', g2, r2⟩ := run_bare os h r1 o1
      refine ⟨t', ?_, r2⟩
      simp only [bare, Jglmb.run, Jglmb.step]
      rw [g1]
      exact g2
    | correct env births draws meas =>
      obtain ⟨t1, g1, r1, o1⟩ := correct_core h1 hR ho
      obtain ⟨t', g2, r2⟩ := run_bare os h r1 o1
      refine ⟨t', ?_, r2⟩
      simp only [bare, Jglmb.run, Jglmb.step]
      rw [g1]
      exact g2
    | cleanup env bp bc be u c =>
      simp only [Jglmb.step] at h1
      split at h1
      · exact (nomatch h1)
      rename_i g hg
      obtain rfl := Except.ok.inj h1
      obtain ⟨t1, g1, r1⟩ := cleanup_core hg hR
      obtain ⟨t', g2, r2⟩ := run_bare os (t := { t with g := t1 }) h r1 ho
      refine ⟨t', ?_, r2⟩
      simp only [bare, Jglmb.run, Jglmb.step]
      rw [g1]
      exact g2
    | extract u c =>
      simp only [Jglmb.step] at h1
      split at h1
      · exact (nomatch h1)
      rename_i x o hx
      obtain rfl := Except.ok.inj h1
      obtain ⟨f1, f2, f3, f4⟩ := Glmb.extract_frame hx
      exact run_bare os h ⟨hR.1.trans f1.symm, hR.2.1.trans f2.symm, hR.2.2.1.trans f3.symm, hR.2.2.2.trans f4.symm⟩ ho

end JglmbTrace

/-- **C143, joint GLMB.** The same for the joint filter. -/
theorem C143_joint {K τ F S C Z : Type*} [Field K] [LinearOrder K] [IsStrictOrderedRing K] [FloorRing K] [DecidableEq τ]
    (jp : Jglmb.JParams K) (ops : List (Jglmb.JOp K τ F S C Z)) {s : Jglmb.JSt K τ F S C}
    (h : Jglmb.run jp Jglmb.init ops = .ok s) :
    ∃ t, Jglmb.run jp Jglmb.init (JglmbTrace.bare ops) = .ok t ∧ t.g.tab = s.g.tab ∧ t.g.hyps = s.g.hyps ∧
      t.g.card = s.g.card ∧ t.g.cntr = s.g.cntr := by
  obtain ⟨t, g, r, _⟩ := JglmbTrace.run_bare ops h (t := Jglmb.init) ⟨rfl, rfl, rfl, rfl⟩ rfl
  exact ⟨t, g, r⟩

/-- PHD: of three extractions two are left out; one result remains. -/
example : PhdTrace.Fewer
      [.predict exFilt [⟨[1, 1 / 2], [0, 5], [1, 1]⟩], .correct exFilt [1, 7], .cleanup true true true true, .extract,
        .predict exFilt [], .extract]
      [.predict exFilt [⟨[1, 1 / 2], [0, 5], [1, 1]⟩], .correct exFilt [1, 7], .cleanup true true true false,
        .predict exFilt [], .extract] ∧
    (Phd.run exEnv exParams Phd.init
      [.predict exFilt [⟨[1, 1 / 2], [0, 5], [1, 1]⟩], .correct exFilt [1, 7], .cleanup true true true true, .extract,
        .predict exFilt [], .extract]).toOption.map (fun s => (s.states.length, decide (1 ≤ s.mix.ws.length))) =
      some (3, true) ∧
    (Phd.run exEnv exParams Phd.init
      [.predict exFilt [⟨[1, 1 / 2], [0, 5], [1, 1]⟩], .correct exFilt [1, 7], .cleanup true true true false,
        .predict exFilt [], .extract]).toOption.map (fun s => (s.states.length, decide (1 ≤ s.mix.ws.length))) =
      some (1, true) :=
  ⟨.same _ (.same _ (.unflag _ _ _ (.drop (.same _ (.same _ .nil))))), by decide +kernel, by decide +kernel⟩

/-- CPHD: the run of the example of C113 (`predict`, `correct`, `extract`, which succeeds) without its extraction. -/
example : CphdTrace.Fewer [.predict exCF [exBirth], .correct exCF [0], .extract]
    [.predict exCF [exBirth], .correct exCF [(0 : ℝ)]] :=
  .same _ (.same _ (.drop .nil))

/-- GLMB: `exTrackOps` extracts after the first step; without it the run ends with the same three hypotheses. -/
example : (Glmb.run exTrackPr Glmb.init exTrackOps).toOption.isSome = true ∧
    (Glmb.run exTrackPr Glmb.init exTrackOps).toOption.map (fun s => (s.hyps.length, s.labels.length)) = some (3, 1) ∧
    (Glmb.run exTrackPr Glmb.init (GlmbTrace.bare exTrackOps)).toOption.map (fun s => (s.hyps.length, s.labels.length)) =
      some (3, 0) :=
  ⟨by decide +kernel, by decide +kernel, by decide +kernel⟩

/-- Joint GLMB: likewise. -/
example : (Jglmb.run exJPr Jglmb.init (exJOps ++ [.cleanup exTrackEnv true true true true true])).toOption.map
      (fun s => (decide (1 ≤ s.g.hyps.length), s.g.labels.length)) = some (true, 2) ∧
    (Jglmb.run exJPr Jglmb.init (JglmbTrace.bare (exJOps ++ [.cleanup exTrackEnv true true true true true]))).toOption.map
      (fun s => (decide (1 ≤ s.g.hyps.length), s.g.labels.length)) = some (true, 0) :=
  ⟨by decide +kernel, by decide +kernel⟩

end Gasur.Props
