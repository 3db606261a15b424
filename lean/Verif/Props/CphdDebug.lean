import Verif.Model.CphdDebug
import Verif.Props.Cphd

/-!
# Property C137: the plot of the number of states per time step
-/

set_option linter.unusedSectionVars false

namespace Gasur.Props

open Gasur.Phd Gasur.Cphd Gasur.Plot

variable {V P Z : Type*}

theorem loopCount_len (m : Mix ℝ V P) (card : ℤ) : ∀ (is : List ℕ) (tot : ℤ) (ii : ℕ) (l : List (V × P × ℤ)),
    Cphd.extractLoop m card is tot = .ok l → loopCount m card is tot ii = .ok (ii + l.length)
  | [], tot, ii, l, h => by
    obtain rfl := Except.ok.inj h
    rfl
  | i :: is, tot, ii, l, h => by
    unfold Cphd.extractLoop at h
    unfold loopCount
    by_cases ht : tot < card
    · rw [if_pos ht] at h ⊢
      cases hw : m.ws[i]? with
      | none =>
        rw [hw] at h
        exact (nomatch h)
      | some w =>
        rw [hw] at h
        dsimp only at h ⊢
        by_cases h0 : pyRound w ≤ 0
        · rw [if_pos h0] at h ⊢
          obtain rfl := Except.ok.inj h
          rfl
        · rw [if_neg h0] at h ⊢
          cases hv : m.ms[i]? with
          | none =>
            rw [hv] at h
            exact (nomatch h)
          | some v =>
            cases hp : m.ps[i]? with
            | none =>
              rw [hv, hp] at h
              exact (nomatch h)
            | some p =>
              rw [hv, hp] at h
              dsimp only at h
              cases hr : Cphd.extractLoop m card is (tot + pyRound w) with
              | error e =>
                rw [hr] at h
                exact (nomatch h)
              | ok l' =>
                rw [hr] at h
                obtain rfl := Except.ok.inj h
                rw [loopCount_len m card is _ (ii + 1) l' hr, List.length_cons]
                congr 1
                omega
    · rw [if_neg ht] at h ⊢
      obtain rfl := Except.ok.inj h
      rfl

/-- What the record of a filter should be. -/
def Recorded (debug : Bool) (s : DState V P) : Prop :=
  s.counts = if debug then s.st.states.map fun x => x.1.length else []

theorem extractD_rec {debug : Bool} {argsort : List ℝ → List ℕ} {s : DState V P} (hs : Recorded debug s) :
    (∀ s', extractD debug argsort s = .ok s' → Cphd.extract argsort s.st = .ok s'.st ∧ Recorded debug s') ∧
    ∀ st', Cphd.extract argsort s.st = .ok st' → ∃ s', extractD debug argsort s = .ok s' ∧ s'.st = st' := by
  unfold extractD Cphd.extract
  cases hl : Cphd.extractLoop s.st.mix (cardinality s.st) (argsort s.st.mix.ws).reverse 0 with
  | error e => exact ⟨fun s' h => (nomatch h), fun st' h => (nomatch h)⟩
  | ok l =>
    dsimp only
    rw [loopCount_len _ _ _ _ 0 l hl]
    refine ⟨fun s' h => ?_, fun st' h => ?_⟩
    · obtain rfl := Except.ok.inj h
      refine ⟨rfl, ?_⟩
      unfold Recorded at hs ⊢
      cases debug with
      | false => exact hs
      | true =>
        simp only [if_true] at hs ⊢
        rw [hs, List.map_append]
        simp
    · obtain rfl := Except.ok.inj h
      exact ⟨_, rfl, rfl⟩

variable [AddCommGroup V] [Module ℝ V] [AddCommGroup P] [Module ℝ P]

theorem cdbg_cleanup_states {env : Env ℝ V P Z} {pr : Params ℝ} {bp bm bc : Bool} {s s' : CState V P}
    (h : Cphd.cleanup env pr bp bm bc false s = .ok s') : s'.states = s.states := by
  unfold Cphd.cleanup at h
  cases h1 : liftE (optStep bp (prune pr) s.mix) with
  | error e => rw [h1] at h; exact (nomatch h)
  | ok m1 =>
    rw [h1] at h
    dsimp only at h
    cases h2 : liftE (optStep bm (merge env.quad pr) m1) with
    | error e => rw [h2] at h; exact (nomatch h)
    | ok m2 =>
      rw [h2] at h
      dsimp only at h
      cases h3 : liftE (optStep bc (cap env.argsort pr) m2) with
      | error e => rw [h3] at h; exact (nomatch h)
      | ok m3 =>
        rw [h3] at h
        dsimp only at h
        rw [if_neg (by simp)] at h
        obtain rfl := Except.ok.inj h
        rfl

theorem cdbg_cleanup_split (env : Env ℝ V P Z) (pr : Params ℝ) (bp bm bc : Bool) (s : CState V P) :
    Cphd.cleanup env pr bp bm bc true s =
      match Cphd.cleanup env pr bp bm bc false s with
      | .error e => .error e
      | .ok s' => Cphd.extract env.argsort s' := by
  unfold Cphd.cleanup
  cases liftE (optStep bp (prune pr) s.mix) with
  | error e => rfl
  | ok m1 =>
    dsimp only
    cases liftE (optStep bm (merge env.quad pr) m1) with
    | error e => rfl
    | ok m2 =>
      dsimp only
      cases liftE (optStep bc (cap env.argsort pr) m2) with
      | error e => rfl
      | ok m3 => rfl

/-- Calls without extraction leave the reported states alone. -/
theorem cdbg_states {env : Env ℝ V P Z} {esf : List ℝ → List ℝ} {pr : Params ℝ} {s s' : CState V P} {o : Op V P Z}
    (ho : o ≠ .extract) (ho' : ∀ bp bm bc, o ≠ .cleanup bp bm bc true) (h : Cphd.step env esf pr s o = .ok s') :
    s'.states = s.states := by
  cases o with
  | predict f b =>
    change Cphd.predict pr f b s = .ok s' at h
    unfold Cphd.predict at h
    cases h1 : firstWeights b with
    | error e => rw [h1] at h; exact (nomatch h)
    | ok l =>
      rw [h1] at h
      dsimp only at h
      cases h2 : cardPredict (maxCard s) pr.probSurvive (probDeath pr) l.sum s.card with
      | error e => rw [h2] at h; exact (nomatch h)
      | ok c =>
        rw [h2] at h
        obtain rfl := Except.ok.inj h
        rfl
  | correct f z =>
    change Cphd.correct esf pr f z s = .ok s' at h
    unfold Cphd.correct at h
    split at h
    · cases h2 : correctComps esf pr f z (comps s.mix) s.card with
      | error e => rw [h2] at h; exact (nomatch h)
      | ok c =>
        rw [h2] at h
        obtain rfl := Except.ok.inj h
        rfl
    · exact (nomatch h)
  | cleanup bp bm bc be =>
    cases be with
    | true => exact absurd rfl (ho' bp bm bc)
    | false => exact cdbg_cleanup_states h
  | extract => exact absurd rfl ho
  | setMax n =>
    obtain rfl := Except.ok.inj h
    rfl

theorem stepD_rec {env : Env ℝ V P Z} {esf : List ℝ → List ℝ} {pr : Params ℝ} {debug : Bool} {s : DState V P}
    {o : Op V P Z} (hs : Recorded debug s) :
    (∀ s', stepD env esf pr debug s o = .ok s' → Cphd.step env esf pr s.st o = .ok s'.st ∧ Recorded debug s') ∧
    ∀ st', Cphd.step env esf pr s.st o = .ok st' → ∃ s', stepD env esf pr debug s o = .ok s' ∧ s'.st = st' := by
  have other : o ≠ .extract → (∀ bp bm bc, o ≠ .cleanup bp bm bc true) →
      (stepD env esf pr debug s o = match Cphd.step env esf pr s.st o with
        | .error e => .error e
        | .ok st' => .ok { s with st := st' }) →
      (∀ s', stepD env esf pr debug s o = .ok s' → Cphd.step env esf pr s.st o = .ok s'.st ∧ Recorded debug s') ∧
      ∀ st', Cphd.step env esf pr s.st o = .ok st' → ∃ s', stepD env esf pr debug s o = .ok s' ∧ s'.st = st' := by
    intro ho ho' he
    rw [he]
    cases hst : Cphd.step env esf pr s.st o with
    | error e => exact ⟨fun s' h => (nomatch h), fun st' h => (nomatch h)⟩
    | ok st' =>
      refine ⟨fun s' h => ?_, fun st'' h => ?_⟩
      · obtain rfl := Except.ok.inj h
        refine ⟨rfl, ?_⟩
        unfold Recorded at hs ⊢
        dsimp only
        rw [cdbg_states ho ho' hst]
        exact hs
      · obtain rfl := Except.ok.inj h
        exact ⟨_, rfl, rfl⟩
  cases o with
  | predict f b => exact other (by simp) (by simp) rfl
  | correct f z => exact other (by simp) (by simp) rfl
  | setMax n => exact other (by simp) (by simp) rfl
  | extract => exact extractD_rec hs
  | cleanup bp bm bc be =>
    cases be with
    | false => exact other (by simp) (by simp) rfl
    | true =>
      change (∀ s', (match Cphd.cleanup env pr bp bm bc false s.st with
          | .error e => Except.error e
          | .ok st' => extractD debug env.argsort { s with st := st' }) = .ok s' →
          Cphd.cleanup env pr bp bm bc true s.st = .ok s'.st ∧ Recorded debug s') ∧
        ∀ st', Cphd.cleanup env pr bp bm bc true s.st = .ok st' → ∃ s', (match Cphd.cleanup env pr bp bm bc false s.st with
          | .error e => Except.error e
          | .ok st' => extractD debug env.argsort { s with st := st' }) = .ok s' ∧ s'.st = st'
      rw [cdbg_cleanup_split]
      cases hc : Cphd.cleanup env pr bp bm bc false s.st with
      | error e => exact ⟨fun s' h => (nomatch h), fun st' h => (nomatch h)⟩
      | ok st1 =>
        dsimp only
        refine extractD_rec (s := { s with st := st1 }) ?_
        unfold Recorded at hs ⊢
        dsimp only
        rw [cdbg_cleanup_states hc]
        exact hs

/-- **C137.** For any sequence of calls on a new CPHD filter, recording the number of states changes no outcome: the filter
with the record returns normally exactly if the one without does, with the same densities, cardinalities and states. If
`debug_plots` is set, `plot_number_states_per_time` then draws, against 0, 1, 2, …, the number of states reported by each
extraction; otherwise it draws nothing. -/
theorem C137_states_per_time (env : Env ℝ V P Z) (esf : List ℝ → List ℝ) (pr : Params ℝ) (debug : Bool) (N : ℕ)
    (ops : List (Op V P Z)) :
    (∀ st, Cphd.run env esf pr (Cphd.init N) ops = .ok st ↔
      ∃ s, runD env esf pr debug ⟨Cphd.init N, []⟩ ops = .ok s ∧ s.st = st) ∧
    ∀ (L : Type) (s : DState V P), runD env esf pr debug ⟨Cphd.init N, []⟩ ops = .ok s →
      (plotNumStates debug s.counts : List (Prim ℝ L)) = if debug then
        [.graph ((List.range s.st.states.length).map fun k : ℕ => (k : ℝ)) (s.st.states.map fun x => (x.1.length : ℝ)) none]
      else [] := by
  have key : ∀ (ops : List (Op V P Z)) (s : DState V P), Recorded debug s →
      (∀ s', runD env esf pr debug s ops = .ok s' → Cphd.run env esf pr s.st ops = .ok s'.st ∧ Recorded debug s') ∧
      ∀ st', Cphd.run env esf pr s.st ops = .ok st' → ∃ s', runD env esf pr debug s ops = .ok s' ∧ s'.st = st' := by
    intro ops
    induction ops with
    | nil =>
      intro s hs
      refine ⟨fun s' h => ?_, fun st' h => ?_⟩
      · obtain rfl := Except.ok.inj h
        exact ⟨rfl, hs⟩
      · obtain rfl := Except.ok.inj h
        exact ⟨_, rfl, rfl⟩
    | cons o os ih =>
      intro s hs
      obtain ⟨h1, h2⟩ := stepD_rec (env := env) (esf := esf) (pr := pr) (o := o) hs
      unfold runD Cphd.run
      refine ⟨fun s' h => ?_, fun st' h => ?_⟩
      · cases hd : stepD env esf pr debug s o with
        | error e => rw [hd] at h; exact (nomatch h)
        | ok s1 =>
          rw [hd] at h
          dsimp only at h
          obtain ⟨a, b⟩ := h1 s1 hd
          rw [a]
          exact (ih s1 b).1 s' h
      · cases hd : Cphd.step env esf pr s.st o with
        | error e => rw [hd] at h; exact (nomatch h)
        | ok s1 =>
          rw [hd] at h
          dsimp only at h
          obtain ⟨s2, a, rfl⟩ := h2 s1 hd
          rw [a]
          exact (ih s2 (h1 s2 a).2).2 st' h
  have h0 : Recorded debug (⟨Cphd.init N, []⟩ : DState V P) := by
    unfold Recorded
    cases debug <;> rfl
  refine ⟨fun st => ⟨(key ops _ h0).2 st, fun ⟨s, a, b⟩ => b ▸ ((key ops _ h0).1 s a).1⟩, fun L s h => ?_⟩
  have hr := ((key ops _ h0).1 s h).2
  unfold Recorded at hr
  unfold plotNumStates
  cases debug with
  | false => rfl
  | true =>
    simp only [if_true] at hr ⊢
    rw [hr, List.length_map, List.map_map]
    rfl

end Gasur.Props
