import Verif.Props.PhdCrash
import Verif.Props.GlmbCrash
import Verif.Props.CphdCrash

/-!
# Exceptions of the inner filter reach the caller

Additions to C144, C145 and C146. Those theorems compare a call that ends normally with the models without exceptions,
where the inner filter is completed by arbitrary values. Here: these values are never used, that is, if the inner filter
raises for one of the tracked components, the call does not end normally.
-/

namespace Gasur.Props.CrashHonest

open Gasur.Crash Gasur.GlmbCrash Gasur.CphdCrash Gasur.Phd Gasur.Props.PhdCrash

section phd
variable {K V P Z : Type*} [Field K] [LinearOrder K]

omit [Field K] [LinearOrder K] in
theorem predAll_some {f : PFilt K V P Z} : ∀ {l : List (V × P)} {r : List (V × P)}, predAll f l = .ok r →
    ∀ x ∈ l, (f.fpred x.1 x.2).isSome
  | [], _, _ => by simp
  | mp :: l, r, h => by
    unfold predAll at h
    cases hx : f.fpred mp.1 mp.2 with
    | none => rw [hx] at h; cases h
    | some y =>
      rw [hx] at h
      cases hr : predAll f l with
      | raised => rw [hr] at h; cases h
      | nan => rw [hr] at h; cases h
      | ok r' =>
        intro x hxm
        rcases List.mem_cons.1 hxm with rfl | hm
        · rw [hx]; rfl
        · exact predAll_some hr x hm

omit [LinearOrder K] in
theorem corJ_some {f : PFilt K V P Z} {m : Mix K V P} {dw : List K} {z : Z} : ∀ {js : List ℕ} {r},
    corJ f m dw z js = .ok r → ∀ j ∈ js, ∃ v p, m.ms[j]? = some v ∧ m.ps[j]? = some p ∧ (f.fcor z v p).isSome
  | [], r, h => by simp
  | j :: js, r, h => by
    unfold corJ at h
    cases hp : m.ps[j]? with
    | none => rw [hp] at h; cases h
    | some p =>
      cases hm : m.ms[j]? with
      | none => rw [hp, hm] at h; cases h
      | some x =>
        cases hw : dw[j]? with
        | none => rw [hp, hm, hw] at h; cases h
        | some w =>
          rw [hp, hm, hw] at h
          dsimp only at h
          cases hx : f.fcor z x p with
          | none => rw [hx] at h; cases h
          | some y =>
            rw [hx] at h
            dsimp only at h
            cases hr : corJ f m dw z js with
            | raised => rw [hr] at h; cases h
            | nan => rw [hr] at h; cases h
            | ok r' =>
              intro i hi
              rcases List.mem_cons.1 hi with rfl | hi
              · exact ⟨x, p, hm, hp, by rw [hx]; rfl⟩
              · exact corJ_some hr i hi

theorem corAll_some {pr : Params K} {f : PFilt K V P Z} {m : Mix K V P} : ∀ {zs : List Z} {r},
    corAll pr f m zs = .ok r → ∀ z ∈ zs, ∀ x ∈ m.ms.zip m.ps, (f.fcor z x.1 x.2).isSome
  | [], r, h => by simp
  | z :: zs, r, h => by
    unfold corAll at h
    cases h1 : corJ f m (m.ws.map fun x => pr.probDetection * x) z (List.range m.ms.length) with
    | raised => rw [h1] at h; cases h
    | nan => rw [h1] at h; cases h
    | ok r1 =>
      rw [h1] at h
      dsimp only at h
      cases h2 : normalise pr r1.2.2 with
      | error e => rw [h2] at h; cases h
      | ok ws =>
        rw [h2] at h
        dsimp only at h
        cases h3 : corAll pr f m zs with
        | raised => rw [h3] at h; cases h
        | nan => rw [h3] at h; cases h
        | ok g =>
          intro y hy x hx
          rcases List.mem_cons.1 hy with rfl | hy
          · obtain ⟨i, hi, rfl⟩ := List.getElem_of_mem hx
            have hi2 := hi
            rw [List.length_zip, lt_min_iff] at hi2
            obtain ⟨v, p, hv, hp, hs⟩ := corJ_some h1 i (List.mem_range.2 hi2.1)
            rw [List.getElem_zip]
            rw [List.getElem?_eq_getElem hi2.1] at hv
            rw [List.getElem?_eq_getElem hi2.2] at hp
            cases hv
            cases hp
            exact hs
          · exact corAll_some h3 y hy x hx

variable [IsStrictOrderedRing K] [FloorRing K] [AddCommGroup V] [Module K V] [AddCommGroup P] [Module K P]

omit [IsStrictOrderedRing K] in
/-- **C144, faults reach the caller.** If `predict` ends normally, the inner filter's prediction raised for none of the
components; if `correct` ends normally, its correction raised for no pair of a measurement and a component. -/
theorem C144_no_hidden_fault (inv : P → Option (V → K)) (argsort : List K → List ℕ) (pr : Params K) (f : PFilt K V P Z)
    (s s' : Obj K V P Z) :
    (∀ births, call inv argsort pr (.predict f births) s = (s', .ok ()) →
      ∀ x ∈ s.mix.ms.zip s.mix.ps, (f.fpred x.1 x.2).isSome) ∧
    (∀ zs, call inv argsort pr (.correct f zs) s = (s', .ok ()) →
      ∀ z ∈ zs, ∀ x ∈ s.mix.ms.zip s.mix.ps, (f.fcor z x.1 x.2).isSome) := by
  refine ⟨fun births h => ?_, fun zs h => ?_⟩
  · change cPredict pr f births s = _ at h
    unfold cPredict at h
    rw [andThen_of_ok (s1 := s) (a := s.mix) rfl] at h
    obtain ⟨l, h1, -⟩ := GlmbCrash.evalThen_ok h
    exact predAll_some h1
  · change cCorrect pr f zs s = _ at h
    unfold cCorrect at h
    rw [andThen_of_ok (s1 := ({ s with meas := s.meas ++ [zs] } : Obj K V P Z)) (a := ()) rfl,
      andThen_of_ok (s1 := ({ s with meas := s.meas ++ [zs] } : Obj K V P Z)) (a := s.mix) rfl] at h
    obtain ⟨l, h1, -⟩ := GlmbCrash.evalThen_ok h
    exact corAll_some h1

end phd

section cphd
variable {V P Z : Type*} [AddCommGroup V] [Module ℝ V] [AddCommGroup P] [Module ℝ P]

/-- **C146, faults reach the caller.** The same for the CPHD filter. -/
theorem C146_no_hidden_fault (inv : P → Option (V → ℝ)) (argsort : List ℝ → List ℕ) (esf : List ℝ → List ℝ)
    (pr : Params ℝ) (f : PFilt ℝ V P Z) (s s' : XObj V P Z) :
    (∀ births, xCall inv argsort esf pr (.predict f births) s = (s', .ok ()) →
      ∀ x ∈ s.ph.mix.ms.zip s.ph.mix.ps, (f.fpred x.1 x.2).isSome) ∧
    (∀ zs, xCall inv argsort esf pr (.correct f zs) s = (s', .ok ()) →
      ∀ z ∈ zs, ∀ x ∈ s.ph.mix.ms.zip s.ph.mix.ps, (f.fcor z x.1 x.2).isSome) := by
  refine ⟨fun births h => ?_, fun zs h => ?_⟩
  · change xPredict pr f births s = _ at h
    unfold xPredict at h
    obtain ⟨s1, u, h1, -⟩ := andThen_ok h
    obtain ⟨o, h2, -⟩ := CphdCrash.onPhd_ok h1
    exact (C144_no_hidden_fault inv argsort pr f s.ph o).1 births h2
  · change xCorrect esf pr f zs s = _ at h
    unfold xCorrect at h
    rw [andThen_of_ok (s1 := ({ s with ph := { s.ph with meas := s.ph.meas ++ [zs] } } : XObj V P Z)) (a := ()) rfl] at h
    rw [andThen_of_ok (s1 := ({ s with ph := { s.ph with meas := s.ph.meas ++ [zs] } } : XObj V P Z))
      (a := ({ s with ph := { s.ph with meas := s.ph.meas ++ [zs] } } : XObj V P Z)) rfl] at h
    dsimp only at h
    split at h
    · rename_i hal
      obtain ⟨r, h1, -⟩ := CphdCrash.evalX_ok h
      split at h1
      · cases h1
      · rename_i hf
        intro z hz x hx
        have hf' : ¬ corFault f zs (Cphd.comps s.ph.mix) = true := hf
        by_contra hn
        apply hf'
        obtain ⟨i, hi, rfl⟩ := List.getElem_of_mem hx
        have hi2 := hi
        rw [List.length_zip, lt_min_iff] at hi2
        have hiw : i < s.ph.mix.ws.length := by
          have := hal.1
          omega
        unfold corFault
        rw [List.any_eq_true]
        refine ⟨z, hz, ?_⟩
        rw [List.any_eq_true]
        refine ⟨(s.ph.mix.ws[i], s.ph.mix.ms[i], s.ph.mix.ps[i]), ?_, ?_⟩
        · unfold Cphd.comps
          have : (s.ph.mix.ws.zip (s.ph.mix.ms.zip s.ph.mix.ps))[i]'(by simp; omega) =
              (s.ph.mix.ws[i], s.ph.mix.ms[i], s.ph.mix.ps[i]) := by simp
          rw [← this]
          exact List.getElem_mem _
        · rw [List.getElem_zip] at hn
          simpa using hn
    · cases h

end cphd

section glmb
variable {K τ F S C Z : Type*} [Field K] [LinearOrder K]

omit [Field K] [LinearOrder K] in
theorem eachE_each {α β : Type*} {f : α → Res β} : ∀ {l : List α} {r : List β}, eachE f l = .ok r →
    ∀ a ∈ l, ∃ b, f a = .ok b
  | [], r, h => by simp
  | a :: l, r, h => by
    unfold eachE at h
    cases h1 : f a with
    | raised => rw [h1] at h; cases h
    | nan => rw [h1] at h; cases h
    | ok b =>
      rw [h1] at h
      dsimp only at h
      cases h2 : eachE f l with
      | raised => rw [h2] at h; cases h
      | nan => rw [h2] at h; cases h
      | ok r' =>
        intro x hx
        rcases List.mem_cons.1 hx with rfl | hx
        · exact ⟨b, h1⟩
        · exact eachE_each h2 x hx

omit [Field K] [LinearOrder K] in
theorem faultAt_false {env : Glmb.Env K τ F S C Z} {fl : Faults K F S Z} {z : Z} : ∀ {l : List (F × S × K)},
    faultAt env fl z l = false → ∀ pre x post, l = pre ++ x :: post →
      (∀ y ∈ pre, (env.corF z y.1 y.2.1 y.2.2).isSome) → fl.cor z x.1 x.2.1 x.2.2 = false
  | [], _, pre, x, post, h, _ => by simp at h
  | y :: l, h, pre, x, post, hl, hp => by
    unfold faultAt at h
    split at h
    · cases h
    · rename_i hy
      cases pre with
      | nil =>
        cases hl
        simpa using hy
      | cons p pre =>
        obtain ⟨rfl, rfl⟩ := List.cons.inj hl
        split at h
        · rename_i hn
          have := hp y (List.mem_cons_self ..)
          rw [Option.isNone_iff_eq_none] at hn
          rw [hn] at this
          cases this
        · exact faultAt_false h pre x post rfl fun q hq => hp q (List.mem_cons_of_mem _ hq)

variable [FloorRing K] [DecidableEq τ]

/-- **C145, faults reach the caller.** If `predict` ends normally, the inner filter raised neither for the birth terms nor
for a component of a track. If `correct` ends normally, then for no measurement and no track did it raise (with an
exception that is not one of the three that the filter understands) at a component that it reached, that is, one before
which no component was depleted. -/
theorem C145_no_hidden_fault (pr : Glmb.Params K) (save : Bool) (env : Glmb.Env K τ F S C Z) (fl : Faults K F S Z)
    (s s' : GObj K τ F S C Z) :
    (∀ lab births, gCall pr save (.predict env fl lab births) s = (s', .ok ()) →
      fl.init = false ∧ ∀ e ∈ s.st.tab, ∀ x ∈ e.fStates.zip (e.sHist.getLast?.getD []), fl.pred x.1 x.2 = false) ∧
    (∀ meas, gCall pr save (.correct env fl meas) s = (s', .ok ()) →
      ∀ z ∈ meas, ∀ e ∈ s.st.tab, ∀ pre x post,
        e.fStates.zip ((e.sHist.getLast?.getD []).zip (e.wHist.getLast?.getD [])) = pre ++ x :: post →
        (∀ y ∈ pre, (env.corF z y.1 y.2.1 y.2.2).isSome) → fl.cor z x.1 x.2.1 x.2.2 = false) := by
  refine ⟨fun lab births h => ?_, fun meas h => ?_⟩
  · change gPredict env fl pr lab births s = _ at h
    unfold gPredict at h
    rw [andThen_of_ok (s1 := s) (a := s.st) rfl] at h
    obtain ⟨costs, h1, h⟩ := GlmbCrash.evalThen_ok h
    split at h1
    · cases h1
    rename_i hi
    obtain ⟨paths, h2, h⟩ := GlmbCrash.evalThen_ok h
    obtain ⟨bh, h3, h⟩ := GlmbCrash.evalThen_ok h
    obtain ⟨survTab, h4, h⟩ := GlmbCrash.evalThen_ok h
    refine ⟨by simpa using hi, fun e he x hx => ?_⟩
    obtain ⟨e', h5⟩ := eachE_each h4 e he
    unfold entPred at h5
    split at h5
    · cases h5
    · rename_i hn
      rw [List.any_eq_true] at hn
      by_contra hc
      exact hn ⟨x, hx, by simpa using hc⟩
  · change gCorrect env fl pr save meas s = _ at h
    unfold gCorrect at h
    obtain ⟨s0, u, h0, h⟩ := andThen_ok h
    have e0 : s0.st = s.st := by
      cases save with
      | true => cases h0; rfl
      | false => cases h0; rfl
    rw [andThen_of_ok (s1 := s0) (a := s.st) (by rw [← e0]; rfl)] at h
    obtain ⟨blocks, h1, h⟩ := GlmbCrash.evalThen_ok h
    intro z hz e he
    obtain ⟨i, hi, rfl⟩ := List.getElem_of_mem hz
    obtain ⟨b, hb⟩ := eachE_each h1 (meas[i], i) (by
      rw [List.mem_zipIdx_iff_getElem?]
      exact List.getElem?_eq_getElem hi)
    unfold blockCor at hb
    cases h2 : eachE (entCor env fl pr meas[i]) s.st.tab with
    | raised => rw [h2] at hb; cases hb
    | nan => rw [h2] at hb; cases hb
    | ok l =>
      obtain ⟨ec, h3⟩ := eachE_each h2 e he
      unfold entCor at h3
      split at h3
      · cases h3
      · rename_i hn
        exact faultAt_false (by simpa using hn)

end glmb

/-! ### Examples -/

/-- An inner filter that raises for negative states and for the measurement 8. -/
def exF : PFilt ℚ ℚ ℚ ℚ := ⟨fun m p => if m < 0 then none else some (m + 1, p), fun z m p => if z = 8 then none else some ((m + z) / 2, 1, p)⟩

/-- Both parts of `C144_no_hidden_fault`: normal calls exist, and a call in which the inner filter raises does not end
normally. -/
example : Res.isRaised (call exInv exSort exCrashPr (.predict exF []) (⟨⟨[1, 1], [2, -1], [1, 1]⟩, [], []⟩ : Obj ℚ ℚ ℚ ℚ)).2 = true ∧
    (call exInv exSort exCrashPr (.correct exF [4]) (⟨⟨[1, 1], [2, -1], [1, 1]⟩, [], []⟩ : Obj ℚ ℚ ℚ ℚ)).1.mix.ms =
      [3, 3 / 2, 2, -1] ∧
    Res.isRaised (call exInv exSort exCrashPr (.correct exF [4, 8]) (⟨⟨[1, 1], [2, -1], [1, 1]⟩, [], []⟩ : Obj ℚ ℚ ℚ ℚ)).2 = true := by
  refine ⟨?_, ?_, ?_⟩ <;> decide +kernel

end Gasur.Props.CrashHonest
