import Verif.Model.CphdCrash
import Verif.Props.PhdCrash
import Verif.Props.CphdMore

/-!
# C146: CPHD filter calls that raise
-/

namespace Gasur.Props.CphdCrash

open Gasur.Crash Gasur.CphdCrash Gasur.Phd Gasur.Cphd Gasur.Spec Gasur.Props.PhdCrash

variable {V P Z : Type*}

/-! ### Vocabulary -/

/-- The state of `Verif/Model/Cphd.lean`. -/
def stateOf (s : XObj V P Z) : CState V P := ⟨s.ph.mix, s.card, s.hist, s.ph.states, s.agents⟩

/-- The call of `Verif/Model/Cphd.lean`. -/
def plainX [Zero V] [Zero P] : XOp V P Z → Cphd.Op V P Z
  | .predict f b => .predict (totalFilt f) b
  | .correct f z => .correct (totalFilt f) z
  | .cleanup a b c d => .cleanup a b c d
  | .extract => .extract
  | .setMax n => .setMax n

/-- The calls that ended normally. -/
def normalX (ops : List (XOp V P Z)) (flags : List Bool) : List (XOp V P Z) :=
  ((ops.zip flags).filter fun x => x.2).map fun x => x.1

/-- Whether a call is a clean-up. -/
def isCleanupX : XOp V P Z → Bool
  | .cleanup _ _ _ _ => true
  | _ => false

/-- No clean-up raised. -/
def CleanupsEndedX (ops : List (XOp V P Z)) (flags : List Bool) : Prop :=
  ∀ x ∈ ops.zip flags, isCleanupX x.1 = true → x.2 = true

/-- The birth terms of a call have parallel lists and at least one component each. -/
def BirthsGood : XOp V P Z → Prop
  | .predict _ b => ∀ m ∈ b, Aligned m ∧ m.ws ≠ []
  | _ => True

/-- The measurements of a call. -/
def scanX : XOp V P Z → List (List Z)
  | .correct _ z => [z]
  | _ => []

/-! ### Pieces -/

theorem onPhd_ok {α : Type*} {x : M (Crash.Obj ℝ V P Z) α} {s s' : XObj V P Z} {a : α} (h : onPhd x s = (s', .ok a)) :
    ∃ o, x s.ph = (o, .ok a) ∧ s' = { s with ph := o } := by
  unfold onPhd at h
  obtain ⟨h1, h2⟩ := Prod.mk.inj h
  exact ⟨(x s.ph).1, by rw [← h2], h1.symm⟩

theorem onPhd_raised {α : Type*} {x : M (Crash.Obj ℝ V P Z) α} {s s' : XObj V P Z} (h : onPhd x s = (s', .raised)) :
    ∃ o, x s.ph = (o, .raised) ∧ s' = { s with ph := o } := by
  unfold onPhd at h
  obtain ⟨h1, h2⟩ := Prod.mk.inj h
  exact ⟨(x s.ph).1, by rw [← h2], h1.symm⟩

theorem evalX_ok {σ α β : Type*} {r : Res α} {f : α → M σ β} {s s' : σ} {b : β}
    (h : andThen (eval r) f s = (s', .ok b)) : ∃ a, r = .ok a ∧ f a s = (s', .ok b) := by
  obtain ⟨s1, a, h1, h2⟩ := andThen_ok h
  obtain ⟨rfl, rfl⟩ := Prod.mk.inj h1
  exact ⟨a, rfl, h2⟩

theorem evalX_raised {σ α β : Type*} {r : Res α} {f : α → M σ β} {s s' : σ}
    (h : andThen (eval r) f s = (s', .raised)) : (r = .raised ∧ s' = s) ∨ ∃ a, r = .ok a ∧ f a s = (s', .raised) := by
  rcases andThen_raised h with h1 | ⟨s1, a, h1, h2⟩
  · obtain ⟨rfl, rfl⟩ := Prod.mk.inj h1
    exact .inl ⟨rfl, rfl⟩
  · obtain ⟨rfl, rfl⟩ := Prod.mk.inj h1
    exact .inr ⟨a, rfl, h2⟩

theorem ofC_ok {α : Type*} {x : Except CErr α} {a : α} (h : ofC x = .ok a) : x = .ok a := by
  unfold ofC at h
  split at h <;> cases h
  rfl

theorem cardPredict_not_raised {N : ℕ} {ps pd b : ℝ} {c : List ℝ} (h : ofC (cardPredict N ps pd b c) = .raised) :
    False := by
  unfold cardPredict at h
  split at h
  · cases h
  · unfold Cphd.normalize at h
    split at h <;> cases h

theorem firstWeights_raised : ∀ {bs : List (Mix ℝ V P)}, ofC (firstWeights bs) = .raised → ∃ b ∈ bs, b.ws = []
  | [], h => by cases h
  | b :: bs, h => by
    cases hb : b.ws with
    | nil => exact ⟨b, List.mem_cons_self, hb⟩
    | cons w l =>
      cases hf : firstWeights bs with
      | ok r =>
        simp only [firstWeights] at h
        rw [hb] at h
        dsimp only at h
        rw [hf] at h
        cases h
      | error e =>
        simp only [firstWeights] at h
        rw [hb] at h
        dsimp only at h
        rw [hf] at h
        obtain ⟨x, hx, hx'⟩ := firstWeights_raised (bs := bs) (by rw [hf]; exact h)
        exact ⟨x, List.mem_cons_of_mem _ hx, hx'⟩

section basic
variable [Zero V] [Zero P]

theorem xPredict_ok {pr : Params ℝ} {f : PFilt ℝ V P Z} {b : List (Mix ℝ V P)} {s s' : XObj V P Z}
    (h : xPredict pr f b s = (s', .ok ())) :
    Cphd.predict pr (totalFilt f) b (stateOf s) = .ok (stateOf s') ∧ s'.ph.meas = s.ph.meas := by
  unfold xPredict at h
  obtain ⟨s1, u, h1, h⟩ := andThen_ok h
  obtain ⟨o, g1, rfl⟩ := onPhd_ok h1
  have := cPredict_ok g1
  subst this
  obtain ⟨s2, c, h2, h⟩ := andThen_ok h
  cases h2
  obtain ⟨l, h3, h⟩ := evalX_ok h
  obtain ⟨c', h4, h⟩ := evalX_ok h
  cases h
  unfold Cphd.predict
  rw [ofC_ok h3]
  dsimp only [stateOf, maxCard]
  rw [ofC_ok h4]
  exact ⟨rfl, rfl⟩

theorem xPredict_raised {pr : Params ℝ} {f : PFilt ℝ V P Z} {b : List (Mix ℝ V P)} {s s' : XObj V P Z}
    (h : xPredict pr f b s = (s', .raised)) :
    s' = s ∨ (∃ x ∈ b, x.ws = []) ∧ s' = { s with ph := { s.ph with mix := Phd.predict pr (totalFilt f) b s.ph.mix } } := by
  unfold xPredict at h
  rcases andThen_raised h with h1 | ⟨s1, u, h1, h⟩
  · obtain ⟨o, g1, rfl⟩ := onPhd_raised h1
    rw [cPredict_raised g1]
    exact .inl rfl
  obtain ⟨o, g1, rfl⟩ := onPhd_ok h1
  have := cPredict_ok g1
  subst this
  rcases andThen_raised h with h1 | ⟨s1, u, h1, h⟩
  · cases h1
  cases h1
  rcases evalX_raised h with ⟨h1, rfl⟩ | ⟨l, -, h⟩
  · exact .inr ⟨firstWeights_raised h1, rfl⟩
  rcases evalX_raised h with ⟨h1, rfl⟩ | ⟨c', -, h⟩
  · exact (cardPredict_not_raised h1).elim
  · cases h

theorem xCorrect_ok {esf : List ℝ → List ℝ} {pr : Params ℝ} {f : PFilt ℝ V P Z} {zs : List Z} {s s' : XObj V P Z}
    (h : xCorrect esf pr f zs s = (s', .ok ())) :
    Cphd.correct esf pr (totalFilt f) zs (stateOf s) = .ok (stateOf s') ∧ s'.ph.meas = s.ph.meas ++ [zs] := by
  unfold xCorrect at h
  rw [andThen_of_ok (s1 := ({ s with ph := { s.ph with meas := s.ph.meas ++ [zs] } } : XObj V P Z)) (a := ()) rfl] at h
  rw [andThen_of_ok (s1 := ({ s with ph := { s.ph with meas := s.ph.meas ++ [zs] } } : XObj V P Z))
    (a := ({ s with ph := { s.ph with meas := s.ph.meas ++ [zs] } } : XObj V P Z)) rfl] at h
  dsimp only at h
  unfold Cphd.correct
  split at h
  · rename_i hal
    rw [if_pos (show (stateOf s).mix.ws.length = (stateOf s).mix.ms.length ∧
      (stateOf s).mix.ms.length = (stateOf s).mix.ps.length from hal)]
    obtain ⟨r, h1, h⟩ := evalX_ok h
    split at h1
    · cases h1
    · have h2 : correctComps esf pr (totalFilt f) zs (comps (stateOf s).mix) (stateOf s).card = .ok r := ofC_ok h1
      rw [h2]
      cases h
      exact ⟨rfl, rfl⟩
  · cases h

theorem xCorrect_raised {esf : List ℝ → List ℝ} {pr : Params ℝ} {f : PFilt ℝ V P Z} {zs : List Z} {s s' : XObj V P Z}
    (h : xCorrect esf pr f zs s = (s', .raised)) :
    s' = { s with ph := { s.ph with meas := s.ph.meas ++ [zs] } } := by
  unfold xCorrect at h
  rw [andThen_of_ok (s1 := ({ s with ph := { s.ph with meas := s.ph.meas ++ [zs] } } : XObj V P Z)) (a := ()) rfl] at h
  rw [andThen_of_ok (s1 := ({ s with ph := { s.ph with meas := s.ph.meas ++ [zs] } } : XObj V P Z))
    (a := ({ s with ph := { s.ph with meas := s.ph.meas ++ [zs] } } : XObj V P Z)) rfl] at h
  dsimp only at h
  split at h
  · rcases evalX_raised h with ⟨-, rfl⟩ | ⟨r, -, h⟩
    · rfl
    · cases h
  · cases h

end basic

/-! ### Extraction -/

theorem xExtLoop_eq (card : ℤ) : ∀ (is : List ℕ) (tot : ℤ) (s : XObj V P Z),
    (∃ l, Cphd.extractLoop s.ph.mix card is tot = .ok l ∧
      xExtLoop card is tot s = ({ s with agents := s.agents ++ l.map fun x => x.2.2 }, .ok (l.map fun x => (x.1, x.2.1)))) ∨
    (∃ e, Cphd.extractLoop s.ph.mix card is tot = .error e) ∧ ∃ ag, xExtLoop card is tot s = ({ s with agents := ag }, .raised)
  | [], tot, s => .inl ⟨[], rfl, by simp [xExtLoop, done]⟩
  | i :: is, tot, s => by
    unfold Cphd.extractLoop xExtLoop
    by_cases ht : tot < card
    · rw [if_pos ht, if_pos ht, andThen_of_ok (s1 := s) (a := s.ph.mix) rfl]
      cases hw : s.ph.mix.ws[i]? with
      | none => exact .inr ⟨⟨_, rfl⟩, s.agents, rfl⟩
      | some w =>
        dsimp only
        by_cases hr : pyRound w ≤ 0
        · rw [if_pos hr, if_pos hr]
          exact .inl ⟨[], rfl, by simp [done]⟩
        · rw [if_neg hr, if_neg hr]
          rw [andThen_of_ok (s1 := ({ s with agents := s.agents ++ [pyRound w] } : XObj V P Z)) (a := ()) rfl]
          cases hm : s.ph.mix.ms[i]? with
          | none => exact .inr ⟨⟨_, rfl⟩, s.agents ++ [pyRound w], rfl⟩
          | some v =>
            cases hp : s.ph.mix.ps[i]? with
            | none => exact .inr ⟨⟨_, rfl⟩, s.agents ++ [pyRound w], rfl⟩
            | some p =>
              dsimp only
              rcases xExtLoop_eq card is (tot + pyRound w) ({ s with agents := s.agents ++ [pyRound w] } : XObj V P Z)
                with ⟨l, h1, h2⟩ | ⟨⟨e, h1⟩, ag, h2⟩
              · refine .inl ⟨(v, p, pyRound w) :: l, ?_, ?_⟩
                · have h1' : Cphd.extractLoop s.ph.mix card is (tot + pyRound w) = .ok l := h1
                  rw [h1']
                · rw [andThen_of_ok h2]
                  simp [done]
              · refine .inr ⟨⟨e, ?_⟩, ag, ?_⟩
                · have h1' : Cphd.extractLoop s.ph.mix card is (tot + pyRound w) = .error e := h1
                  rw [h1']
                · unfold andThen
                  rw [h2]
    · rw [if_neg ht, if_neg ht]
      exact .inl ⟨[], rfl, by simp [done]⟩

theorem xExtract_eq (argsort : List ℝ → List ℕ) (s : XObj V P Z) :
    (∃ s', xExtract argsort s = (s', .ok ()) ∧ Cphd.extract argsort (stateOf s) = .ok (stateOf s') ∧
      s'.ph.meas = s.ph.meas ∧ s'.ph.mix = s.ph.mix ∧ s'.card = s.card) ∨
    (∃ e, Cphd.extract argsort (stateOf s) = .error e) ∧ ∃ ag, xExtract argsort s = ({ s with agents := ag }, .raised) := by
  unfold xExtract Cphd.extract
  rw [andThen_of_ok (s1 := ({ s with agents := [] } : XObj V P Z)) (a := ()) rfl]
  rw [andThen_of_ok (s1 := ({ s with agents := [] } : XObj V P Z)) (a := ({ s with agents := [] } : XObj V P Z)) rfl]
  rcases xExtLoop_eq ((argmax s.card).getD 0 : ℕ) (argsort s.ph.mix.ws).reverse 0 ({ s with agents := [] } : XObj V P Z)
    with ⟨l, h1, h2⟩ | ⟨⟨e, h1⟩, ag, h2⟩
  · refine .inl ⟨{ s with
      agents := l.map fun x => x.2.2
      ph := { s.ph with states := s.ph.states ++ [(l.map fun x => x.1, l.map fun x => x.2.1)] } }, ?_, ?_, rfl, rfl, rfl⟩
    · dsimp only
      rw [andThen_of_ok h2]
      simp [assign, Function.comp_def]
    · have h1' : Cphd.extractLoop (stateOf s).mix (cardinality (stateOf s)) (argsort (stateOf s).mix.ws).reverse 0 = .ok l := h1
      rw [h1']
      rfl
  · refine .inr ⟨⟨e, ?_⟩, ag, ?_⟩
    · have h1' : Cphd.extractLoop (stateOf s).mix (cardinality (stateOf s)) (argsort (stateOf s).mix.ws).reverse 0 = .error e := h1
      rw [h1']
    · dsimp only
      unfold andThen
      rw [h2]

section module
variable [AddCommGroup V] [Module ℝ V] [AddCommGroup P] [Module ℝ P]

omit [Module ℝ V] [Module ℝ P] [AddCommGroup V] [AddCommGroup P] in
theorem extract_states_prefix {argsort : List ℝ → List ℕ} {s s' : XObj V P Z}
    (h : Cphd.extract argsort (stateOf s) = .ok (stateOf s')) : s.ph.states <+: s'.ph.states := by
  unfold Cphd.extract at h
  split at h
  · cases h
  · have := congrArg CState.states (Except.ok.inj h)
    have e : s.ph.states ++ _ = s'.ph.states := this
    rw [← e]
    exact List.prefix_append _ _

/-- On a mixture with parallel lists extraction does not raise. -/
theorem xExtract_total {argsort : List ℝ → List ℕ} (ha : ∀ ws, IsArgsort ws (argsort ws)) {s : XObj V P Z}
    (hs : Aligned s.ph.mix) (hc : s.card ≠ []) :
    ∃ s', xExtract argsort s = (s', .ok ()) ∧ Cphd.extract argsort (stateOf s) = .ok (stateOf s') ∧
      s'.ph.meas = s.ph.meas ∧ s'.ph.mix = s.ph.mix ∧ s'.card = s.card := by
  rcases xExtract_eq argsort s with h | ⟨⟨e, h⟩, -⟩
  · exact h
  · exfalso
    obtain ⟨cs, hcs⟩ := (aligned_iff _).1 hs
    obtain ⟨_, _, _, s', h', -⟩ := C65_extract ha cs (stateOf s) hcs hc
    rw [h'] at h
    cases h

/-! ### `cleanup` -/

theorem cleanup3_ok {inv : P → Option (V → ℝ)} {argsort : List ℝ → List ℕ} {pr : Params ℝ}
    {bp bm bc : Bool} {s s' : Crash.Obj ℝ V P Z} (h : cCleanup inv argsort pr bp bm bc false s = (s', .ok ())) :
    ∃ m1 m2 m3, optStep bp (prune pr) s.mix = .ok m1 ∧ optStep bm (merge (totalQuad inv) pr) m1 = .ok m2 ∧
      optStep bc (cap argsort pr) m2 = .ok m3 ∧ s' = { s with mix := m3 } := by
  unfold cCleanup at h
  obtain ⟨s1, u, h1, h⟩ := andThen_ok h
  obtain ⟨m1, e1, rfl⟩ := when_ok (fun h => cPrune_ok h) h1
  obtain ⟨s2, u, h2, h⟩ := andThen_ok h
  obtain ⟨m2, e2, rfl⟩ := when_ok (fun h => cMerge_ok h) h2
  obtain ⟨s3, u, h3, h⟩ := andThen_ok h
  obtain ⟨m3, e3, rfl⟩ := when_ok (fun h => cCap_ok h) h3
  cases h
  exact ⟨m1, m2, m3, e1, e2, e3, rfl⟩

theorem cphd_cleanup_eq {env : Env ℝ V P Z} {pr : Params ℝ} {bp bm bc be : Bool} {s : CState V P} {m1 m2 m3 : Mix ℝ V P}
    (h1 : optStep bp (prune pr) s.mix = .ok m1) (h2 : optStep bm (merge env.quad pr) m1 = .ok m2)
    (h3 : optStep bc (cap env.argsort pr) m2 = .ok m3) :
    Cphd.cleanup env pr bp bm bc be s =
      if be then Cphd.extract env.argsort { s with mix := m3 } else .ok { s with mix := m3 } := by
  unfold Cphd.cleanup
  rw [h1]
  dsimp only [liftE]
  rw [h2]
  dsimp only
  rw [h3]

theorem xCleanup_ok {inv : P → Option (V → ℝ)} {argsort : List ℝ → List ℕ} {pr : Params ℝ} {bp bm bc be : Bool}
    {s s' : XObj V P Z} (h : xCleanup inv argsort pr bp bm bc be s = (s', .ok ())) :
    Cphd.cleanup (Z := Z) ⟨totalQuad inv, argsort⟩ pr bp bm bc be (stateOf s) = .ok (stateOf s') ∧
      s'.ph.meas = s.ph.meas := by
  unfold xCleanup at h
  obtain ⟨s1, u, h1, h⟩ := andThen_ok h
  obtain ⟨o, g1, rfl⟩ := onPhd_ok h1
  obtain ⟨m1, m2, m3, e1, e2, e3, rfl⟩ := cleanup3_ok g1
  rw [cphd_cleanup_eq (env := ⟨totalQuad inv, argsort⟩) (s := stateOf s) e1 e2 e3]
  cases be with
  | false =>
    cases h
    exact ⟨rfl, rfl⟩
  | true =>
    have h' : xExtract argsort ({ s with ph := { s.ph with mix := m3 } } : XObj V P Z) = (s', .ok ()) := h
    rcases xExtract_eq argsort ({ s with ph := { s.ph with mix := m3 } } : XObj V P Z) with
      ⟨s2, k1, k2, k3, -, -⟩ | ⟨-, ag, k1⟩
    · rw [k1] at h'
      obtain ⟨rfl, -⟩ := Prod.mk.inj h'
      exact ⟨k2, k3⟩
    · rw [k1] at h'
      cases h'

theorem xCleanup_raised {inv : P → Option (V → ℝ)} {argsort : List ℝ → List ℕ} (ha : ∀ ws, IsArgsort ws (argsort ws))
    {pr : Params ℝ} {bp bm bc be : Bool} {s s' : XObj V P Z} {cs : List (ℝ × V × P)} (hs : s.ph.mix = ofComps cs)
    (hc : s.card ≠ []) (h : xCleanup inv argsort pr bp bm bc be s = (s', .raised)) :
    bm = true ∧ ∃ kept : List (ℝ × V × P),
      kept = (if bp then cs.filter (fun c => decide (pr.pruneThreshold ≤ c.1)) else cs) ∧
      (∃ c ∈ kept, inv c.2.2 = none) ∧
      ∃ ws, Marked (ofComps kept).ws ws ∧
        s' = { s with ph := { s.ph with mix := ⟨ws, (ofComps kept).ms, (ofComps kept).ps⟩ } } := by
  unfold xCleanup at h
  rcases andThen_raised h with h1 | ⟨s1, u, h1, h⟩
  · obtain ⟨o, g1, rfl⟩ := onPhd_raised h1
    obtain ⟨h2, kept, h3, h4, ws, h5, rfl⟩ := cCleanup_raised ha hs g1
    exact ⟨h2, kept, h3, h4, ws, h5, rfl⟩
  · exfalso
    obtain ⟨o, g1, rfl⟩ := onPhd_ok h1
    have hal : Aligned o.mix := (call_keeps inv argsort pr (o := .cleanup bp bm bc false) trivial
      ((aligned_iff _).2 ⟨cs, hs⟩) g1 (by simp)).1
    cases be with
    | false => cases h
    | true =>
      have h' : xExtract argsort ({ s with ph := o } : XObj V P Z) = (s', .raised) := h
      obtain ⟨s2, k, -⟩ := xExtract_total ha (s := ({ s with ph := o } : XObj V P Z)) hal hc
      rw [k] at h'
      cases h'

/-! ### Histories -/

theorem xPlay_cons {inv : P → Option (V → ℝ)} {argsort : List ℝ → List ℕ} {esf : List ℝ → List ℝ} {pr : Params ℝ}
    {s s' : XObj V P Z} {o : XOp V P Z} {os : List (XOp V P Z)} {fl : List Bool}
    (h : xPlay inv argsort esf pr s (o :: os) = some (s', fl)) :
    ∃ s1 fl', xPlay inv argsort esf pr s1 os = some (s', fl') ∧
      ((xCall inv argsort esf pr o s = (s1, .ok ()) ∧ fl = true :: fl') ∨
        (xCall inv argsort esf pr o s = (s1, .raised) ∧ fl = false :: fl')) := by
  unfold xPlay at h
  split at h
  · cases h
  · rename_i s1 h1
    cases h2 : xPlay inv argsort esf pr s1 os with
    | none => rw [h2] at h; cases h
    | some r =>
      rw [h2] at h
      obtain ⟨rfl, rfl⟩ := Prod.mk.inj (Option.some.inj h)
      exact ⟨s1, r.2, h2, .inr ⟨h1, rfl⟩⟩
  · rename_i s1 u h1
    cases h2 : xPlay inv argsort esf pr s1 os with
    | none => rw [h2] at h; cases h
    | some r =>
      rw [h2] at h
      obtain ⟨rfl, rfl⟩ := Prod.mk.inj (Option.some.inj h)
      exact ⟨s1, r.2, h2, .inl ⟨h1, rfl⟩⟩

theorem xCall_ok {inv : P → Option (V → ℝ)} {argsort : List ℝ → List ℕ} {esf : List ℝ → List ℝ} {pr : Params ℝ}
    {o : XOp V P Z} {s s' : XObj V P Z} (h : xCall inv argsort esf pr o s = (s', .ok ())) :
    Cphd.step (Z := Z) ⟨totalQuad inv, argsort⟩ esf pr (stateOf s) (plainX o) = .ok (stateOf s') ∧
      s'.ph.meas = s.ph.meas ++ scanX o := by
  cases o with
  | predict f b =>
    obtain ⟨h1, h2⟩ := xPredict_ok h
    exact ⟨h1, by simp [h2, scanX]⟩
  | correct f z => exact xCorrect_ok h
  | cleanup a b c d =>
    obtain ⟨h1, h2⟩ := xCleanup_ok h
    exact ⟨h1, by simp [h2, scanX]⟩
  | extract =>
    have h' : xExtract argsort s = (s', .ok ()) := h
    rcases xExtract_eq argsort s with ⟨s2, k1, k2, k3, -, -⟩ | ⟨-, ag, k1⟩
    · rw [k1] at h'
      obtain ⟨rfl, -⟩ := Prod.mk.inj h'
      exact ⟨k2, by simp [k3, scanX]⟩
    · rw [k1] at h'
      cases h'
  | setMax n =>
    cases h
    exact ⟨rfl, by simp [scanX]⟩

theorem mixOf_aligned (cs : List (ℝ × V × P)) : Aligned (mixOf cs) := by simp [Aligned, mixOf]

theorem zeroCard_ne (N : ℕ) : zeroCard N ≠ [] := by simp [zeroCard]

/-- What every call keeps, whether it raises or not: parallel lists, and a distribution that is not empty. -/
theorem xCall_keeps {inv : P → Option (V → ℝ)} {argsort : List ℝ → List ℕ} (ha : ∀ ws, IsArgsort ws (argsort ws))
    {esf : List ℝ → List ℝ} {pr : Params ℝ} {o : XOp V P Z}
    (ho : ∀ f b, o = .predict f b → ∀ m ∈ b, Aligned m) {s s' : XObj V P Z} {r : Res Unit} (hs : Aligned s.ph.mix)
    (hc : s.card ≠ []) (h : xCall inv argsort esf pr o s = (s', r)) (hr : r ≠ .nan) :
    Aligned s'.ph.mix ∧ s'.card ≠ [] ∧ s.ph.states <+: s'.ph.states ∧ s'.ph.meas = s.ph.meas ++ scanX o := by
  obtain ⟨cs, hcs⟩ := (aligned_iff _).1 hs
  have hpred : ∀ (f : PFilt ℝ V P Z) (b : List (Mix ℝ V P)), (∀ m ∈ b, Aligned m) →
      Aligned (Phd.predict pr (totalFilt f) b s.ph.mix) := by
    intro f b hb
    refine foldl_aligned b _ ?_ hb
    simp [predictDensity, Aligned, hs.1, hs.2]
  cases r with
  | nan => exact absurd rfl hr
  | raised =>
    cases o with
    | predict f b =>
      rcases xPredict_raised h with rfl | ⟨-, rfl⟩
      · exact ⟨hs, hc, List.prefix_refl _, by simp [scanX]⟩
      · exact ⟨hpred f b (ho f b rfl), hc, List.prefix_refl _, by simp [scanX]⟩
    | correct f z =>
      have := xCorrect_raised h
      subst this
      exact ⟨hs, hc, List.prefix_refl _, rfl⟩
    | cleanup a b c d =>
      obtain ⟨-, kept, -, -, ws, hm, rfl⟩ := xCleanup_raised ha hcs hc h
      have hl := List.Forall₂.length_eq hm
      refine ⟨?_, hc, List.prefix_refl _, by simp [scanX]⟩
      exact ⟨by simpa [ofComps] using hl.symm, by simp [ofComps]⟩
    | extract =>
      have h' : xExtract argsort s = (s', .raised) := h
      obtain ⟨s2, k, -⟩ := xExtract_total ha hs hc
      rw [k] at h'
      cases h'
    | setMax n => cases h
  | ok u =>
    have hm := (xCall_ok h).2
    cases o with
    | predict f b =>
      unfold xCall xPredict at h
      obtain ⟨s1, u, h1, h⟩ := andThen_ok h
      obtain ⟨o, g1, rfl⟩ := onPhd_ok h1
      have := cPredict_ok g1
      subst this
      obtain ⟨s2, c, h2, h⟩ := andThen_ok h
      cases h2
      obtain ⟨l, h3, h⟩ := evalX_ok h
      obtain ⟨c', h4, h⟩ := evalX_ok h
      cases h
      refine ⟨hpred f b (ho f b rfl), ?_, List.prefix_refl _, hm⟩
      have h5 := ofC_ok h4
      unfold cardPredict at h5
      split at h5
      · cases h5
      · unfold Cphd.normalize at h5
        split at h5
        · cases h5
        · have := Except.ok.inj h5
          intro h6
          have h7 : c' = [] := h6
          rw [h7] at this
          simp at this
    | correct f z =>
      have h1 := (xCorrect_ok h).1
      unfold Cphd.correct at h1
      split at h1
      · split at h1
        · cases h1
        · rename_i cs' c he
          have h2 := Except.ok.inj h1
          have e1 : s'.ph.mix = mixOf cs' := congrArg CState.mix h2.symm
          have e2 : s'.card = c := congrArg CState.card h2.symm
          have e3 : s'.ph.states = s.ph.states := congrArg CState.states h2.symm
          refine ⟨by rw [e1]; exact mixOf_aligned cs', ?_, by rw [e3], hm⟩
          rw [e2]
          unfold correctComps at he
          split at he
          · cases he
          split at he
          · cases he
          dsimp only at he
          split at he
          · cases he
          split at he
          · cases he
          split at he
          · cases he
          · rename_i c' hn
            obtain ⟨-, rfl⟩ := Prod.mk.inj (Except.ok.inj he)
            unfold Cphd.normalize at hn
            split at hn
            · cases hn
            · have := Except.ok.inj hn
              intro h7
              rw [h7] at this
              have h8 := congrArg List.length this
              simp only [List.length_map, List.length_range, List.length_nil] at h8
              exact hc (List.length_eq_zero_iff.1 h8)
      · cases h1
    | cleanup a b c d =>
      unfold xCall xCleanup at h
      obtain ⟨s1, u, h1, h⟩ := andThen_ok h
      obtain ⟨o, g1, rfl⟩ := onPhd_ok h1
      obtain ⟨k1, k2, -⟩ := call_keeps inv argsort pr (o := .cleanup a b c false) trivial hs g1 (by simp)
      cases d with
      | false =>
        cases h
        exact ⟨k1, hc, k2, hm⟩
      | true =>
        have h' : xExtract argsort ({ s with ph := o } : XObj V P Z) = (s', .ok ()) := h
        obtain ⟨s2, g1, g2, -, g4, g5⟩ := xExtract_total ha (s := ({ s with ph := o } : XObj V P Z)) k1 hc
        rw [g1] at h'
        obtain ⟨rfl, -⟩ := Prod.mk.inj h'
        refine ⟨by rw [g4]; exact k1, by rw [g5]; exact hc, k2.trans ?_, hm⟩
        exact extract_states_prefix g2
    | extract =>
      have h' : xExtract argsort s = (s', .ok ()) := h
      obtain ⟨s2, g1, g2, -, g4, g5⟩ := xExtract_total ha hs hc
      rw [g1] at h'
      obtain ⟨rfl, -⟩ := Prod.mk.inj h'
      exact ⟨by rw [g4]; exact hs, by rw [g5]; exact hc, extract_states_prefix g2, hm⟩
    | setMax n =>
      cases h
      exact ⟨hs, zeroCard_ne n, List.prefix_refl _, hm⟩

/-! ### The theorems -/

/-- **C146, `predict`** (partial: `C146_refuted_predict`). If `predict` raises, then the filter is exactly as before the
call, or some birth term has no components; then the mixture has already been predicted and has got the birth terms,
and everything else is as before the call. -/
theorem C146_predict_partial (inv : P → Option (V → ℝ)) (argsort : List ℝ → List ℕ) (esf : List ℝ → List ℝ) (pr : Params ℝ)
    (f : PFilt ℝ V P Z) (births : List (Mix ℝ V P)) (s s' : XObj V P Z)
    (h : xCall inv argsort esf pr (.predict f births) s = (s', .raised)) :
    s' = s ∨ (∃ b ∈ births, b.ws = []) ∧
      s' = { s with ph := { s.ph with mix := Phd.predict pr (totalFilt f) births s.ph.mix } } := xPredict_raised h

/-- **C146, `correct`** (partial: `C146_refuted_correct`). If `correct` raises, everything is as before the call, except
that the measurements are recorded. -/
theorem C146_correct_partial (inv : P → Option (V → ℝ)) (argsort : List ℝ → List ℕ) (esf : List ℝ → List ℝ) (pr : Params ℝ)
    (f : PFilt ℝ V P Z) (zs : List Z) (s s' : XObj V P Z)
    (h : xCall inv argsort esf pr (.correct f zs) s = (s', .raised)) :
    s' = { s with ph := { s.ph with meas := s.ph.meas ++ [zs] } } := xCorrect_raised h

/-- **C146, `cleanup`** (partial: the filter is not as it was, see C144). If `cleanup` raises on a mixture with parallel
lists, then merging was asked for and one of the components that are left after pruning has a covariance without inverse.
Afterwards these components still have their means and covariances, some of them the weight `-1` instead of their own;
the cardinality distribution, its history, the reported states and the measurement table are as before the call. -/
theorem C146_cleanup_partial (inv : P → Option (V → ℝ)) (argsort : List ℝ → List ℕ)
    (ha : ∀ ws, IsArgsort ws (argsort ws)) (esf : List ℝ → List ℝ) (pr : Params ℝ) (bp bm bc be : Bool) (s s' : XObj V P Z)
    (cs : List (ℝ × V × P)) (hs : s.ph.mix = ofComps cs) (hc : s.card ≠ [])
    (h : xCall inv argsort esf pr (.cleanup bp bm bc be) s = (s', .raised)) :
    bm = true ∧ s'.card = s.card ∧ s'.hist = s.hist ∧ s'.agents = s.agents ∧ s'.ph.states = s.ph.states ∧
    s'.ph.meas = s.ph.meas ∧
    ∃ kept, kept = (if bp then cs.filter (fun c => decide (pr.pruneThreshold ≤ c.1)) else cs) ∧
      (∃ c ∈ kept, inv c.2.2 = none) ∧
      s'.ph.mix.ms = kept.map (fun c => c.2.1) ∧ s'.ph.mix.ps = kept.map (fun c => c.2.2) ∧
      s'.ph.mix.ws.length = kept.length ∧
      ∀ (i : ℕ) (c : ℝ × V × P) (w : ℝ), kept[i]? = some c → s'.ph.mix.ws[i]? = some w → w = c.1 ∨ w = -1 := by
  obtain ⟨hm, kept, hk, hn, ws, hw, rfl⟩ := xCleanup_raised ha hs hc h
  have hl := List.Forall₂.length_eq hw
  refine ⟨hm, rfl, rfl, rfl, rfl, rfl, kept, hk, hn, rfl, rfl, by simpa [ofComps] using hl.symm, ?_⟩
  intro i c w hc hi
  have h1 : (ofComps kept).ws[i]? = some c.1 := by simp [ofComps, hc]
  obtain ⟨h2, h3⟩ := List.getElem?_eq_some_iff.1 h1
  obtain ⟨h4, h5⟩ := List.getElem?_eq_some_iff.1 hi
  have := (List.forall₂_iff_get.1 hw).2 i h2 h4
  simp only [List.get_eq_getElem] at this
  rw [h3, h5] at this
  exact this

/-- **C146, histories** (partial: birth terms with components, no clean-up that raised; otherwise see the refutations).
Let any sequence of calls be made on a new filter, where every exception is caught and the next call is made all the same.
Then the mixture, the cardinality distribution and its history, the reported states and the numbers of agents are those
of a filter on which only the calls that ended normally are made, and none of those raises. Extractions never raise. The
measurement table has the scans of all `correct` calls. -/
theorem C146_history_partial (inv : P → Option (V → ℝ)) (argsort : List ℝ → List ℕ)
    (ha : ∀ ws, IsArgsort ws (argsort ws)) (esf : List ℝ → List ℝ) (pr : Params ℝ) (N : ℕ) (ops : List (XOp V P Z))
    (hb : ∀ o ∈ ops, BirthsGood o) (s' : XObj V P Z) (flags : List Bool)
    (h : xPlay inv argsort esf pr (xFresh N) ops = some (s', flags)) (hcl : CleanupsEndedX ops flags) :
    Cphd.run (Z := Z) ⟨totalQuad inv, argsort⟩ esf pr (Cphd.init N) ((normalX ops flags).map plainX) = .ok (stateOf s') ∧
      s'.ph.meas = ops.flatMap scanX ∧ ∀ x ∈ ops.zip flags, x.1 = .extract → x.2 = true := by
  suffices key : ∀ (ops : List (XOp V P Z)) (s s' : XObj V P Z) (flags : List Bool), (∀ o ∈ ops, BirthsGood o) →
      Aligned s.ph.mix → s.card ≠ [] → xPlay inv argsort esf pr s ops = some (s', flags) → CleanupsEndedX ops flags →
      Cphd.run (Z := Z) ⟨totalQuad inv, argsort⟩ esf pr (stateOf s) ((normalX ops flags).map plainX) = .ok (stateOf s') ∧
        s'.ph.meas = s.ph.meas ++ ops.flatMap scanX ∧ ∀ x ∈ ops.zip flags, x.1 = .extract → x.2 = true by
    obtain ⟨k1, k2, k3⟩ := key ops (xFresh N) s' flags hb ⟨rfl, rfl⟩ (zeroCard_ne N) h hcl
    exact ⟨k1, by simpa [xFresh, Crash.fresh] using k2, k3⟩
  intro ops
  induction ops with
  | nil =>
    intro s s' flags _ _ _ h _
    cases h
    exact ⟨rfl, by simp, by simp⟩
  | cons o os ih =>
    intro s s' flags hb hs hc h hcl
    obtain ⟨s1, fl, h2, h1⟩ := xPlay_cons h
    have hal : ∀ f b, o = .predict f b → ∀ m ∈ b, Aligned m := by
      rintro f b rfl m hm
      exact (hb _ List.mem_cons_self m hm).1
    rcases h1 with ⟨h1, rfl⟩ | ⟨h1, rfl⟩
    · obtain ⟨k1, k2, -, k4⟩ := xCall_keeps ha hal hs hc h1 (by simp)
      obtain ⟨g1, g2, g3⟩ := ih s1 s' fl (fun x hx => hb x (List.mem_cons_of_mem _ hx)) k1 k2 h2
        fun x hx => hcl x (by rw [List.zip_cons_cons]; exact List.mem_cons_of_mem _ hx)
      refine ⟨?_, by rw [g2, k4, List.flatMap_cons, List.append_assoc], ?_⟩
      · have e : normalX (o :: os) (true :: fl) = o :: normalX os fl := by simp [normalX]
        rw [e, List.map_cons]
        simp only [Cphd.run]
        rw [(xCall_ok h1).1]
        exact g1
      · intro x hx
        rw [List.zip_cons_cons, List.mem_cons] at hx
        rcases hx with rfl | hx
        · intro _; rfl
        · exact g3 x hx
    · obtain ⟨k1, k2, -, k4⟩ := xCall_keeps ha hal hs hc h1 (by simp)
      obtain ⟨g1, g2, g3⟩ := ih s1 s' fl (fun x hx => hb x (List.mem_cons_of_mem _ hx)) k1 k2 h2
        fun x hx => hcl x (by rw [List.zip_cons_cons]; exact List.mem_cons_of_mem _ hx)
      have e : normalX (o :: os) (false :: fl) = normalX os fl := by simp [normalX]
      have hst : stateOf s1 = stateOf s := by
        cases o with
        | predict f b =>
          rcases xPredict_raised h1 with rfl | ⟨⟨m, hm, hm'⟩, -⟩
          · rfl
          · exact absurd hm' (hb _ List.mem_cons_self m hm).2
        | correct f z =>
          have := xCorrect_raised h1
          subst this
          rfl
        | cleanup a b c d =>
          have := hcl (.cleanup a b c d, false) (by rw [List.zip_cons_cons]; exact List.mem_cons_self) rfl
          cases this
        | extract =>
          have h' : xExtract argsort s = (s1, .raised) := h1
          obtain ⟨s2, k, -⟩ := xExtract_total ha hs hc
          rw [k] at h'
          cases h'
        | setMax n => cases h1
      refine ⟨by rw [e, ← hst]; exact g1, by rw [g2, k4, List.flatMap_cons, List.append_assoc], ?_⟩
      intro x hx
      rw [List.zip_cons_cons, List.mem_cons] at hx
      rcases hx with rfl | hx
      · intro h'
        dsimp only at h'
        subst h'
        have h' : xExtract argsort s = (s1, .raised) := h1
        obtain ⟨s2, k, -⟩ := xExtract_total ha hs hc
        rw [k] at h'
        cases h'
      · exact g3 x hx

/-- **C146, any history.** Whatever calls raise, also clean-ups and predictions with empty birth terms: the three lists of
the mixture stay parallel, states that were reported once are not changed, and the measurement table consists of the
measurements of all `correct` calls in order, also of those that raised. -/
theorem C146_any_history (inv : P → Option (V → ℝ)) (argsort : List ℝ → List ℕ)
    (ha : ∀ ws, IsArgsort ws (argsort ws)) (esf : List ℝ → List ℝ) (pr : Params ℝ) :
    ∀ (ops : List (XOp V P Z)) (s s' : XObj V P Z) (flags : List Bool),
      (∀ f b, XOp.predict f b ∈ ops → ∀ m ∈ b, Aligned m) → Aligned s.ph.mix → s.card ≠ [] →
      xPlay inv argsort esf pr s ops = some (s', flags) →
      Aligned s'.ph.mix ∧ s.ph.states <+: s'.ph.states ∧ s'.ph.meas = s.ph.meas ++ ops.flatMap scanX ∧
        flags.length = ops.length
  | [], s, s', flags, _, hs, _, h => by
    cases h
    exact ⟨hs, List.prefix_refl _, by simp, rfl⟩
  | o :: os, s, s', flags, ho, hs, hc, h => by
    obtain ⟨s1, fl, h2, h1⟩ := xPlay_cons h
    have key : Aligned s1.ph.mix ∧ s1.card ≠ [] ∧ s.ph.states <+: s1.ph.states ∧ s1.ph.meas = s.ph.meas ++ scanX o ∧
        flags.length = fl.length + 1 := by
      rcases h1 with ⟨h1, rfl⟩ | ⟨h1, rfl⟩
      · obtain ⟨a, b, c, d⟩ := xCall_keeps ha (fun f b e => ho f b (by rw [← e]; exact List.mem_cons_self)) hs hc h1
          (by simp)
        exact ⟨a, b, c, d, rfl⟩
      · obtain ⟨a, b, c, d⟩ := xCall_keeps ha (fun f b e => ho f b (by rw [← e]; exact List.mem_cons_self)) hs hc h1
          (by simp)
        exact ⟨a, b, c, d, rfl⟩
    obtain ⟨a, b, c, d⟩ := C146_any_history inv argsort ha esf pr os s1 s' fl
      (fun f b hx => ho f b (List.mem_cons_of_mem _ hx)) key.1 key.2.1 h2
    refine ⟨a, key.2.2.1.trans b, ?_, ?_⟩
    · rw [c, key.2.2.2.1, List.flatMap_cons, List.append_assoc]
    · rw [key.2.2.2.2, List.length_cons, d]

end module

/-! ### Examples -/

/-- An inner filter that raises for the measurement 7. -/
def exXF : PFilt ℝ ℝ ℝ ℕ := ⟨fun m p => some (m, p), fun z m p => if z = 7 then none else some (m, 1, p)⟩

/-- A birth term with one component and one without. -/
def exXB : List (Mix ℝ ℝ ℝ) := [⟨[1], [0], [1]⟩, ⟨[], [], []⟩]

/-- **C146, refuted for `predict`.** With a birth term without components `predict` raises, but the mixture has already been
predicted and extended; if the call is repeated, there are two copies of the birth component. The cardinality
distribution is still certain of no object. -/
theorem C146_refuted_predict (inv : ℝ → Option (ℝ → ℝ)) (argsort : List ℝ → List ℕ) (esf : List ℝ → List ℝ)
    (pr : Params ℝ) :
    xPlay inv argsort esf pr (xFresh 2) [.predict exXF exXB] =
      some (⟨⟨⟨[1], [0], [1]⟩, [], []⟩, [1, 0, 0], [], []⟩, [false]) ∧
    xPlay inv argsort esf pr (xFresh 2) [.predict exXF exXB, .predict exXF exXB] =
      some (⟨⟨⟨[pr.probSurvive * 1, 1], [0, 0], [1, 1]⟩, [], []⟩, [1, 0, 0], [], []⟩, [false, false]) :=
  ⟨rfl, rfl⟩

theorem exX_correct (inv : ℝ → Option (ℝ → ℝ)) (argsort : List ℝ → List ℕ) (esf : List ℝ → List ℝ) (pr : Params ℝ)
    (s : XObj ℝ ℝ ℕ) (hs : s.ph.mix = ⟨[], [], []⟩) (zs : List ℕ) :
    xCall inv argsort esf pr (.correct exXF zs) s =
      ({ s with ph := { s.ph with meas := s.ph.meas ++ [zs] } }, .raised) := by
  simp [xCall, xCorrect, andThen, assign, look, eval, hs, corFault, comps, correctComps, ofC]

/-- **C146, refuted for `correct`.** A filter without components (a new one, or one that has lost all) raises at every
correction, but the scans are recorded, every time. -/
theorem C146_refuted_correct (inv : ℝ → Option (ℝ → ℝ)) (argsort : List ℝ → List ℕ) (esf : List ℝ → List ℝ)
    (pr : Params ℝ) :
    xPlay inv argsort esf pr (xFresh 2) [.correct exXF [4], .correct exXF [4]] =
      some (⟨⟨⟨[], [], []⟩, [], [[4], [4]]⟩, [1, 0, 0], [], []⟩, [false, false]) := by
  unfold xPlay
  rw [exX_correct inv argsort esf pr (xFresh 2) rfl]
  dsimp only
  unfold xPlay
  rw [exX_correct inv argsort esf pr _ rfl]
  rfl

/-- The hypotheses of the theorems of C146 are met by a history in which two corrections raise (no components; the
inner filter), and a prediction and an extraction end normally. -/
example : ∃ (argsort : List ℝ → List ℕ) (s : XObj ℝ ℝ ℕ), (∀ ws, IsArgsort ws (argsort ws)) ∧
    (∀ o ∈ ([.correct exXF [4], .predict exXF [⟨[1], [0], [1]⟩], .correct exXF [4, 7], .extract] : List (XOp ℝ ℝ ℕ)),
      BirthsGood o) ∧
    xPlay (fun _ => none) argsort exEsf exCp (xFresh 2)
      [.correct exXF [4], .predict exXF [⟨[1], [0], [1]⟩], .correct exXF [4, 7], .extract] =
        some (s, [false, true, false, true]) ∧ s.ph.mix = ⟨[1], [0], [1]⟩ ∧ s.ph.states.length = 1 ∧
    CleanupsEndedX [.correct exXF [4], .predict exXF [⟨[1], [0], [1]⟩], .correct exXF [4, 7], .extract]
      [false, true, false, true] := by
  obtain ⟨argsort, ha⟩ := argsort_exists
  obtain ⟨c, hc⟩ := cardPredict_total (N := 2) (ps := exCp.probSurvive) (pd := probDeath exCp) (b := 1) (by norm_num)
    (zeroCard_dist 2) exCp_ok.ps0 (by unfold probDeath; linarith [exCp_ok.ps1]) (by norm_num)
  have h2 : xCall (fun _ => none) argsort exEsf exCp (.predict exXF [⟨[1], [0], [1]⟩])
      (⟨⟨⟨[], [], []⟩, [], [[4]]⟩, zeroCard 2, [], []⟩ : XObj ℝ ℝ ℕ) =
      (⟨⟨⟨[1], [0], [1]⟩, [], [[4]]⟩, c, [], []⟩, .ok ()) := by
    have hc' : cardPredict ((zeroCard 2).length - 1) exCp.probSurvive (probDeath exCp) ([1] : List ℝ).sum (zeroCard 2) =
        .ok c := by
      rw [show ([1] : List ℝ).sum = 1 by simp]
      exact hc
    have e1 : onPhd (cPredict exCp exXF [⟨[1], [0], [1]⟩]) (⟨⟨⟨[], [], []⟩, [], [[4]]⟩, zeroCard 2, [], []⟩ : XObj ℝ ℝ ℕ) =
        (⟨⟨⟨[1], [0], [1]⟩, [], [[4]]⟩, zeroCard 2, [], []⟩, .ok ()) := rfl
    have e2 : ofC (firstWeights [(⟨[1], [0], [1]⟩ : Mix ℝ ℝ ℝ)]) = .ok [1] := rfl
    have e0 : xCall (fun _ => none) argsort exEsf exCp (.predict exXF [⟨[1], [0], [1]⟩]) =
      (xPredict exCp exXF [⟨[1], [0], [1]⟩] : M (XObj ℝ ℝ ℕ) Unit) := rfl
    rw [e0]
    unfold xPredict
    have e3 : ofC (cardPredict ((zeroCard 2).length - 1) exCp.probSurvive (probDeath exCp) ([1] : List ℝ).sum
      (zeroCard 2)) = .ok c := by rw [hc']; rfl
    simp only [andThen, e1, look, eval, e2, e3, assign]
  have h3 : xCall (fun _ => none) argsort exEsf exCp (.correct exXF [4, 7])
      (⟨⟨⟨[1], [0], [1]⟩, [], [[4]]⟩, c, [], []⟩ : XObj ℝ ℝ ℕ) =
      (⟨⟨⟨[1], [0], [1]⟩, [], [[4], [4, 7]]⟩, c, [], []⟩, .raised) := by
    simp [xCall, xCorrect, andThen, assign, look, eval, corFault, comps, exXF]
  have hcne : c ≠ [] := by
    unfold cardPredict at hc
    split at hc
    · cases hc
    · unfold Cphd.normalize at hc
      split at hc
      · cases hc
      · have := Except.ok.inj hc
        intro h6
        rw [h6] at this
        simp at this
  obtain ⟨s4, g1, g2, -, g4, -⟩ := xExtract_total ha
    (s := (⟨⟨⟨[1], [0], [1]⟩, [], [[4], [4, 7]]⟩, c, [], []⟩ : XObj ℝ ℝ ℕ)) ⟨rfl, rfl⟩ hcne
  have h4 : xCall (fun _ => none) argsort exEsf exCp .extract
      (⟨⟨⟨[1], [0], [1]⟩, [], [[4], [4, 7]]⟩, c, [], []⟩ : XObj ℝ ℝ ℕ) = (s4, .ok ()) := g1
  refine ⟨argsort, s4, ha, ?_, ?_, g4, ?_, ?_⟩
  · simp [BirthsGood, Aligned]
  · unfold xPlay
    rw [exX_correct _ _ _ _ (xFresh 2) rfl]
    dsimp only
    unfold xPlay
    have h2' : xCall (fun _ => none) argsort exEsf exCp (.predict exXF [⟨[1], [0], [1]⟩])
      ({ (xFresh 2 : XObj ℝ ℝ ℕ) with ph := { (xFresh 2 : XObj ℝ ℝ ℕ).ph with
        meas := (xFresh 2 : XObj ℝ ℝ ℕ).ph.meas ++ [[4]] } } : XObj ℝ ℝ ℕ) = _ := h2
    rw [h2']
    dsimp only
    unfold xPlay
    rw [h3]
    dsimp only
    unfold xPlay
    rw [h4]
    rfl
  · unfold Cphd.extract at g2
    split at g2
    · cases g2
    · have := congrArg CState.states (Except.ok.inj g2)
      have e : ([] : List (List ℝ × List ℝ)) ++ _ = s4.ph.states := this
      rw [← e]
      rfl
  · simp [CleanupsEndedX, isCleanupX]

end Gasur.Props.CphdCrash
