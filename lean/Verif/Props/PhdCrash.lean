import Verif.Model.Crash
import Verif.Proofs.Phd
import Verif.Proofs.PhdMerge
import Mathlib.Data.Rat.Floor

/-!
# C144: PHD filter calls that raise
-/

namespace Gasur.Props.PhdCrash

open Gasur.Crash Gasur.Phd Gasur.Spec

variable {K V P Z : Type*}

/-! ### Vocabulary -/

/-- The inner filter of `Verif/Model/Phd.lean` that answers as `f` wherever `f` does not raise. -/
def totalFilt [Zero K] [Zero V] [Zero P] (f : PFilt K V P Z) : Filt K V P Z :=
  ⟨fun m p => (f.fpred m p).getD (0, 0), fun z m p => (f.fcor z m p).getD (0, 0, 0)⟩

/-- The same for the distance used in merging. -/
def totalQuad [Zero K] (inv : P → Option (V → K)) (p : P) (d : V) : K := ((inv p).map fun q => q d).getD 0

/-- The call of `Verif/Model/Phd.lean`. -/
def plainOp [Zero K] [Zero V] [Zero P] : COp K V P Z → Phd.Op K V P Z
  | .predict f b => .predict (totalFilt f) b
  | .correct f z => .correct (totalFilt f) z
  | .cleanup a b c d => .cleanup a b c d
  | .extract => .extract

/-- The calls that ended normally. -/
def normalCalls (ops : List (COp K V P Z)) (flags : List Bool) : List (COp K V P Z) :=
  ((ops.zip flags).filter fun x => x.2).map fun x => x.1

/-- Whether a call is a clean-up. -/
def isCleanup : COp K V P Z → Bool
  | .cleanup _ _ _ _ => true
  | _ => false

/-- No clean-up raised. -/
def CleanupsEnded (ops : List (COp K V P Z)) (flags : List Bool) : Prop :=
  ∀ x ∈ ops.zip flags, isCleanup x.1 = true → x.2 = true

/-! ### Pieces of code -/

section code
variable {σ α β : Type*}

theorem andThen_ok {x : M σ α} {f : α → M σ β} {s s' : σ} {b : β} (h : andThen x f s = (s', .ok b)) :
    ∃ s1 a, x s = (s1, .ok a) ∧ f a s1 = (s', .ok b) := by
  unfold andThen at h
  split at h
  · rename_i s1 a hx
    exact ⟨s1, a, hx, h⟩
  · cases h
  · cases h

theorem andThen_of_ok {x : M σ α} {f : α → M σ β} {s s1 : σ} {a : α} (h : x s = (s1, .ok a)) :
    andThen x f s = f a s1 := by
  unfold andThen
  rw [h]

theorem andThen_raised {x : M σ α} {f : α → M σ β} {s s' : σ} (h : andThen x f s = (s', .raised)) :
    x s = (s', .raised) ∨ ∃ s1 a, x s = (s1, .ok a) ∧ f a s1 = (s', .raised) := by
  unfold andThen at h
  split at h
  · rename_i s1 a hx
    exact .inr ⟨s1, a, hx, h⟩
  · rename_i s1 hx
    obtain rfl : s1 = s' := congrArg Prod.fst h
    exact .inl hx
  · cases h

end code

section field
variable [Field K] [LinearOrder K] [IsStrictOrderedRing K]

/-! ### `predict` -/

theorem addBirths_eq (bs : List (Mix K V P)) : ∀ s : Obj K V P Z,
    addBirths bs s = ({ s with mix := bs.foldl extend s.mix }, .ok ()) := by
  induction bs with
  | nil => intro s; rfl
  | cons b bs ih =>
    intro s
    exact ih _

theorem predAll_ok [Zero K] [Zero V] [Zero P] {f : PFilt K V P Z} : ∀ {l : List (V × P)} {r : List (V × P)},
    predAll f l = .ok r → r = l.map fun mp => (totalFilt f).fpred mp.1 mp.2
  | [], r, h => by
    cases h
    rfl
  | mp :: l, r, h => by
    unfold predAll at h
    cases hx : f.fpred mp.1 mp.2 with
    | none => rw [hx] at h; cases h
    | some x =>
      rw [hx] at h
      cases hr : predAll f l with
      | raised => rw [hr] at h; cases h
      | nan => rw [hr] at h; cases h
      | ok r' =>
        rw [hr] at h
        cases h
        rw [predAll_ok hr, List.map_cons]
        congr 1
        simp [totalFilt, hx]

theorem cPredict_ok [Zero V] [Zero P] {pr : Params K} {f : PFilt K V P Z} {b : List (Mix K V P)} {s s' : Obj K V P Z}
    (h : cPredict pr f b s = (s', .ok ())) :
    s' = { s with mix := Phd.predict pr (totalFilt f) b s.mix } := by
  unfold cPredict at h
  obtain ⟨s1, m, h1, h⟩ := andThen_ok h
  cases h1
  obtain ⟨s2, l, h2, h⟩ := andThen_ok h
  obtain ⟨h2a, h2b⟩ := Prod.mk.inj h2
  subst h2a
  obtain ⟨s3, u, h3, h⟩ := andThen_ok h
  cases h3
  rw [addBirths_eq] at h
  cases h
  rw [predAll_ok h2b]
  simp [Phd.predict, predictDensity, Function.comp_def]

theorem cPredict_raised {pr : Params K} {f : PFilt K V P Z} {b : List (Mix K V P)} {s s' : Obj K V P Z}
    (h : cPredict pr f b s = (s', .raised)) : s' = s := by
  unfold cPredict at h
  rcases andThen_raised h with h1 | ⟨s1, m, h1, h⟩
  · cases h1
  cases h1
  rcases andThen_raised h with h1 | ⟨s1, m, h1, h⟩
  · exact (congrArg Prod.fst h1).symm
  obtain ⟨h2a, -⟩ := Prod.mk.inj h1
  subst h2a
  rcases andThen_raised h with h1 | ⟨s1, m, h1, h⟩
  · cases h1
  cases h1
  rw [addBirths_eq] at h
  cases h

/-! ### `correct` -/

theorem corJ_ok [Zero V] [Zero P] {f : PFilt K V P Z} {m : Mix K V P} {dw : List K} {z : Z} : ∀ {js : List ℕ} {r},
    corJ f m dw z js = .ok r → Phd.corOne (totalFilt f) m dw z js = .ok r
  | [], r, h => by
    cases h
    rfl
  | j :: js, r, h => by
    unfold corJ at h
    unfold Phd.corOne
    cases hp : m.ps[j]? with
    | none => rw [hp] at h; cases h
    | some p =>
      cases hm : m.ms[j]? with
      | none => rw [hp, hm] at h; cases h
      | some x =>
        cases hw : dw[j]? with
        | none => rw [hp, hm, hw] at h; cases h
        | some w =>
          rw [hp, hm, hw] at h
          dsimp only at h ⊢
          cases hx : f.fcor z x p with
          | none => rw [hx] at h; cases h
          | some y =>
            rw [hx] at h
            dsimp only at h
            cases hr : corJ f m dw z js with
            | raised => rw [hr] at h; cases h
            | nan => rw [hr] at h; cases h
            | ok r' =>
              rw [hr] at h
              cases h
              rw [corJ_ok hr]
              simp [totalFilt, hx]

theorem corAll_ok [Zero V] [Zero P] {pr : Params K} {f : PFilt K V P Z} {m : Mix K V P} : ∀ {zs : List Z} {r},
    corAll pr f m zs = .ok r → Phd.correctDensity pr (totalFilt f) m zs = .ok r
  | [], r, h => by
    cases h
    rfl
  | z :: zs, r, h => by
    unfold corAll at h
    unfold Phd.correctDensity
    cases h1 : corJ f m (m.ws.map fun x => pr.probDetection * x) z (List.range m.ms.length) with
    | raised => rw [h1] at h; cases h
    | nan => rw [h1] at h; cases h
    | ok r1 =>
      rw [h1] at h
      rw [corJ_ok h1]
      dsimp only at h ⊢
      cases h2 : normalise pr r1.2.2 with
      | error e => rw [h2] at h; cases h
      | ok ws =>
        rw [h2] at h
        dsimp only at h ⊢
        cases h3 : corAll pr f m zs with
        | raised => rw [h3] at h; cases h
        | nan => rw [h3] at h; cases h
        | ok g =>
          rw [h3] at h
          cases h
          rw [corAll_ok h3]

theorem cCorrect_ok [Zero V] [Zero P] {pr : Params K} {f : PFilt K V P Z} {zs : List Z} {s s' : Obj K V P Z}
    (h : cCorrect pr f zs s = (s', .ok ())) :
    ∃ m, Phd.correct pr (totalFilt f) zs s.mix = .ok m ∧ s' = { s with mix := m, meas := s.meas ++ [zs] } := by
  unfold cCorrect at h
  obtain ⟨s1, m, h1, h⟩ := andThen_ok h
  cases h1
  obtain ⟨s1, m, h1, h⟩ := andThen_ok h
  cases h1
  obtain ⟨s2, g, h2, h⟩ := andThen_ok h
  obtain ⟨h2a, h2b⟩ := Prod.mk.inj h2
  subst h2a
  have h3 := corAll_ok h2b
  refine ⟨_, by unfold Phd.correct; rw [h3], ?_⟩
  cases h
  rfl

theorem cCorrect_raised {pr : Params K} {f : PFilt K V P Z} {zs : List Z} {s s' : Obj K V P Z}
    (h : cCorrect pr f zs s = (s', .raised)) : s' = { s with meas := s.meas ++ [zs] } := by
  unfold cCorrect at h
  rcases andThen_raised h with h1 | ⟨s1, m, h1, h⟩
  · cases h1
  cases h1
  rcases andThen_raised h with h1 | ⟨s1, m, h1, h⟩
  · cases h1
  cases h1
  rcases andThen_raised h with h1 | ⟨s1, m, h1, h⟩
  · exact (congrArg Prod.fst h1).symm
  · cases h

/-! ### Deleting components -/

theorem cDel_ok : ∀ {is : List ℕ} {s s' : Obj K V P Z}, cDel is s = (s', .ok ()) →
    ∃ m, delAll s.mix is = .ok m ∧ s' = { s with mix := m }
  | [], s, s', h => by
    cases h
    exact ⟨s.mix, rfl, rfl⟩
  | i :: is, s, s', h => by
    unfold cDel at h
    obtain ⟨s1, _, h1, h⟩ := andThen_ok h
    obtain ⟨s2, _, h2, h⟩ := andThen_ok h
    obtain ⟨s3, _, h3, h⟩ := andThen_ok h
    unfold delOne at h1 h2 h3
    obtain ⟨t, l, ht, h1⟩ := andThen_ok h1
    cases ht
    split at h1
    · rename_i hl
      cases h1
      obtain ⟨t, l, ht, h2⟩ := andThen_ok h2
      cases ht
      split at h2
      · rename_i hl2
        cases h2
        obtain ⟨t, l, ht, h3⟩ := andThen_ok h3
        cases ht
        split at h3
        · rename_i hl3
          cases h3
          obtain ⟨m, hm, rfl⟩ := cDel_ok h
          refine ⟨m, ?_, rfl⟩
          unfold delAll delAt
          rw [if_pos ⟨hl, hl2, hl3⟩]
          exact hm
        · cases h3
      · cases h2
    · cases h1

/-- Deleting from a mixture with parallel lists: whatever happens, they stay parallel. -/
theorem cDel_aligned : ∀ (is : List ℕ) (s : Obj K V P Z), Aligned s.mix →
    ∃ m r, cDel is s = ({ s with mix := m }, r) ∧ Aligned m ∧ r ≠ .nan
  | [], s, hs => ⟨s.mix, .ok (), rfl, hs, by simp⟩
  | i :: is, s, hs => by
    by_cases hi : i < s.mix.ms.length
    · have hw : i < s.mix.ws.length := by rw [hs.1]; exact hi
      have hp : i < s.mix.ps.length := by rw [← hs.2]; exact hi
      obtain ⟨m, r, h1, h2, h3⟩ := cDel_aligned is
        { s with mix := ⟨s.mix.ws.eraseIdx i, s.mix.ms.eraseIdx i, s.mix.ps.eraseIdx i⟩ }
        ⟨by simp [List.length_eraseIdx, hi, hw, hs.1], by simp [List.length_eraseIdx, hi, hp, hs.2]⟩
      refine ⟨m, r, ?_, h2, h3⟩
      unfold cDel delOne
      simp only [andThen, look, if_pos hi, if_pos hw, if_pos hp, setMix, assign]
      exact h1
    · refine ⟨s.mix, .raised, ?_, hs, by simp⟩
      unfold cDel delOne
      simp only [andThen, look, if_neg hi, fail]

theorem cPrune_ok {pr : Params K} {s s' : Obj K V P Z} (h : cPrune pr s = (s', .ok ())) :
    ∃ m, prune pr s.mix = .ok m ∧ s' = { s with mix := m } := by
  unfold cPrune at h
  obtain ⟨s1, m, h1, h⟩ := andThen_ok h
  cases h1
  exact cDel_ok h

theorem cDel_of_ok : ∀ {is : List ℕ} {s : Obj K V P Z} {m : Mix K V P}, delAll s.mix is = .ok m →
    cDel is s = ({ s with mix := m }, .ok ())
  | [], s, m, h => by
    cases h
    rfl
  | i :: is, s, m, h => by
    unfold delAll delAt at h
    split at h
    · cases h
    · rename_i m' hm
      split at hm
      · rename_i hi
        cases hm
        have := cDel_of_ok (is := is)
          (s := { s with mix := ⟨s.mix.ws.eraseIdx i, s.mix.ms.eraseIdx i, s.mix.ps.eraseIdx i⟩ }) h
        unfold cDel delOne
        simp only [andThen, look, if_pos hi.1, if_pos hi.2.1, if_pos hi.2.2, setMix, assign]
        exact this
      · cases hm

theorem cPrune_of_ok {pr : Params K} {s : Obj K V P Z} {m : Mix K V P} (h : prune pr s.mix = .ok m) :
    cPrune pr s = ({ s with mix := m }, .ok ()) := cDel_of_ok h

theorem cCap_ok {argsort : List K → List ℕ} {pr : Params K} {s s' : Obj K V P Z}
    (h : cCap argsort pr s = (s', .ok ())) : ∃ m, cap argsort pr s.mix = .ok m ∧ s' = { s with mix := m } := by
  unfold cCap at h
  obtain ⟨s1, ws, h1, h⟩ := andThen_ok h
  cases h1
  unfold cap
  split at h
  · rename_i hlt
    obtain ⟨s1, u, h1, h⟩ := andThen_ok h
    obtain ⟨m, hm, rfl⟩ := cDel_ok h1
    obtain ⟨s2, ws', h2, h⟩ := andThen_ok h
    cases h2
    rw [if_pos hlt, hm]
    dsimp only at h ⊢
    split at h
    · cases h
    · rename_i hz
      cases h
      exact ⟨_, by rw [if_neg hz], rfl⟩
  · rename_i hlt
    cases h
    exact ⟨s.mix, by rw [if_neg hlt], rfl⟩

/-- Capping a mixture with parallel lists: it stays parallel, nothing else is changed. -/
theorem cCap_aligned (argsort : List K → List ℕ) (pr : Params K) (s : Obj K V P Z) (hs : Aligned s.mix) :
    ∃ m r, cCap argsort pr s = ({ s with mix := m }, r) ∧ Aligned m := by
  unfold cCap
  simp only [andThen, look]
  by_cases hlt : pr.maxGauss < s.mix.ws.length
  · rw [if_pos hlt]
    obtain ⟨m, r, h1, h2, h3⟩ := cDel_aligned (sortDesc (dropEnd (argsort s.mix.ws) pr.maxGauss)) s hs
    cases r with
    | nan => exact absurd rfl h3
    | raised =>
      refine ⟨m, .raised, ?_, h2⟩
      unfold andThen
      rw [h1]
    | ok u =>
      rw [andThen_of_ok h1]
      simp only [andThen, look]
      by_cases hz : m.ws ≠ [] ∧ m.ws.sum = 0
      · rw [if_pos hz]
        exact ⟨m, .nan, rfl, h2⟩
      · rw [if_neg hz]
        exact ⟨_, .ok (), rfl, by simpa [Aligned] using h2⟩
  · rw [if_neg hlt]
    exact ⟨s.mix, .ok (), rfl, hs⟩

theorem cExtract_ok [FloorRing K] {pr : Params K} {s s' : Obj K V P Z} (h : cExtract pr s = (s', .ok ())) :
    ∃ x, extract pr s.mix = .ok x ∧ s' = { s with states := s.states ++ [x] } := by
  unfold cExtract at h
  obtain ⟨s1, m, h1, h⟩ := andThen_ok h
  cases h1
  cases hx : extract pr s.mix with
  | error e => rw [hx] at h; cases h
  | ok x =>
    rw [hx] at h
    cases h
    exact ⟨x, rfl, rfl⟩

theorem cExtract_aligned [FloorRing K] (pr : Params K) (s : Obj K V P Z) (hs : Aligned s.mix) :
    ∃ x, cExtract pr s = ({ s with states := s.states ++ [x] }, .ok ()) := by
  obtain ⟨cs, hc⟩ := (aligned_iff _).1 hs
  have hx := extract_ofComps pr cs
  rw [← hc] at hx
  exact ⟨_, by simp only [cExtract, andThen, look, hx]; rfl⟩

/-! ### Merging -/

variable [AddCommGroup V] [Module K V] [AddCommGroup P] [Module K P]

/-- Some weights were overwritten with `-1`. -/
def Marked (ws ws' : List K) : Prop := List.Forall₂ (fun a b => b = a ∨ b = -1) ws ws'

omit [LinearOrder K] in
theorem marked_refl (ws : List K) : Marked ws ws := List.forall₂_same.2 fun _ _ => .inl rfl

omit [LinearOrder K] in
theorem marked_trans {a b c : List K} (h : Marked a b) (h' : Marked b c) : Marked a c := by
  unfold Marked at *
  induction h generalizing c with
  | nil => exact h'
  | cons hx _ ih =>
    cases h' with
    | cons hy ht =>
      refine .cons ?_ (ih ht)
      rcases hy with rfl | rfl
      · exact hx
      · exact .inr rfl

theorem marked_mark (ws : List K) (is : List ℕ) : Marked ws (mark ws is) := by
  unfold Marked
  rw [List.forall₂_iff_get]
  refine ⟨(mark_length ws is).symm, ?_⟩
  intro i h1 h2
  have := mark_getElem? is ws i
  rw [List.getElem?_eq_getElem h2] at this
  simp only [List.get_eq_getElem]
  by_cases hi : i ∈ is
  · rw [if_pos hi, if_pos h1] at this
    exact .inr (Option.some.inj this)
  · rw [if_neg hi] at this
    rw [List.getElem?_eq_getElem h1] at this
    exact .inl (Option.some.inj this)

omit [AddCommGroup P] [Module K P] in
theorem compInds_total {inv : P → Option (V → K)} {p : P} {q : V → K} (h : inv p = some q) (thr : K) (ms : List V)
    (mj : V) : ∀ is : List ℕ,
    compInds (totalQuad inv) thr ms p mj is = compInds (fun _ d => q d) thr ms p mj is
  | [] => rfl
  | i :: is => by
    unfold compInds
    rw [compInds_total h thr ms mj is]
    simp only [totalQuad, h, Option.map_some, Option.getD_some]

/-- The loop: the means, the covariances and the other attributes stay, some weights are overwritten; if it ends
normally, it has computed the merged mixture. -/
theorem cMergeLoop_frame (inv : P → Option (V → K)) (thr : K) : ∀ (fuel : ℕ) (is : List ℕ) (acc : Mix K V P)
    (s : Obj K V P Z), ∃ ws r, cMergeLoop inv thr fuel is acc s = ({ s with mix := { s.mix with ws := ws } }, r) ∧
      Marked s.mix.ws ws ∧
      ∀ g, r = .ok g → mergeLoop (totalQuad inv) thr s.mix.ms s.mix.ps fuel is s.mix.ws acc = .ok g
  | fuel, [], acc, s => by
    refine ⟨s.mix.ws, .ok acc, ?_, marked_refl _, ?_⟩
    · unfold cMergeLoop; rfl
    · intro g hg
      cases hg
      unfold mergeLoop; rfl
  | 0, i :: is, acc, s => ⟨s.mix.ws, .nan, rfl, marked_refl _, by simp⟩
  | fuel + 1, i :: is, acc, s => by
    unfold cMergeLoop mergeLoop
    simp only [andThen, look]
    cases ha : argmax s.mix.ws with
    | none => exact ⟨s.mix.ws, .raised, rfl, marked_refl _, by simp⟩
    | some jj =>
      dsimp only
      cases hp : s.mix.ps[jj]? with
      | none => exact ⟨s.mix.ws, .raised, rfl, marked_refl _, by simp⟩
      | some p =>
        cases hm : s.mix.ms[jj]? with
        | none => exact ⟨s.mix.ws, .raised, rfl, marked_refl _, by simp⟩
        | some mj =>
          dsimp only
          cases hq : inv p with
          | none => exact ⟨s.mix.ws, .raised, rfl, marked_refl _, by simp⟩
          | some q =>
            dsimp only
            rw [compInds_total hq]
            cases hc : compInds (fun _ d => q d) thr s.mix.ms p mj (i :: is) with
            | none => exact ⟨s.mix.ws, .raised, rfl, marked_refl _, by simp⟩
            | some comp =>
              dsimp only
              cases h1 : wtot s.mix.ws comp with
              | none => exact ⟨s.mix.ws, .raised, rfl, marked_refl _, by simp⟩
              | some w =>
                cases h2 : wsum s.mix.ws s.mix.ms comp with
                | none => exact ⟨s.mix.ws, .raised, rfl, marked_refl _, by simp⟩
                | some sm =>
                  cases h3 : wsum s.mix.ws s.mix.ps comp with
                  | none => exact ⟨s.mix.ws, .raised, rfl, marked_refl _, by simp⟩
                  | some sp =>
                    dsimp only
                    by_cases hw : w = 0
                    · rw [if_pos hw, if_pos hw]
                      exact ⟨s.mix.ws, .nan, rfl, marked_refl _, by simp⟩
                    · rw [if_neg hw, if_neg hw]
                      obtain ⟨ws, r, e1, e2, e3⟩ := cMergeLoop_frame inv thr fuel
                        ((i :: is).filter fun x => decide (x ∉ comp))
                        { ws := acc.ws ++ [w], ms := acc.ms ++ [w⁻¹ • sm], ps := acc.ps ++ [w⁻¹ • sp] }
                        { s with mix := { s.mix with ws := mark s.mix.ws comp } }
                      exact ⟨ws, r, e1, marked_trans (marked_mark _ _) e2, e3⟩

theorem cMerge_ok {inv : P → Option (V → K)} {pr : Params K} {s s' : Obj K V P Z}
    (h : cMerge inv pr s = (s', .ok ())) :
    ∃ m, merge (totalQuad inv) pr s.mix = .ok m ∧ s' = { s with mix := m } := by
  unfold cMerge at h
  obtain ⟨s1, n, h1, h⟩ := andThen_ok h
  cases h1
  obtain ⟨s1, g, h1, h⟩ := andThen_ok h
  obtain ⟨ws, r, e1, -, e3⟩ := cMergeLoop_frame (Z := Z) inv pr.mergeThreshold s.mix.ms.length
    (List.range s.mix.ms.length) ⟨[], [], []⟩ s
  rw [e1] at h1
  obtain ⟨rfl, rfl⟩ := Prod.mk.inj h1
  cases h
  exact ⟨g, e3 g rfl, rfl⟩

theorem cMerge_raised {inv : P → Option (V → K)} {pr : Params K} {s s' : Obj K V P Z}
    (h : cMerge inv pr s = (s', .raised)) :
    ∃ ws, Marked s.mix.ws ws ∧ s' = { s with mix := { s.mix with ws := ws } } := by
  unfold cMerge at h
  rcases andThen_raised h with h1 | ⟨s1, n, h1, h⟩
  · cases h1
  cases h1
  obtain ⟨ws, r, e1, e2, -⟩ := cMergeLoop_frame (Z := Z) inv pr.mergeThreshold s.mix.ms.length
    (List.range s.mix.ms.length) ⟨[], [], []⟩ s
  rcases andThen_raised h with h1 | ⟨s1, g, h1, h⟩
  · rw [e1] at h1
    exact ⟨ws, e2, (congrArg Prod.fst h1).symm⟩
  · cases h

theorem mergeLoop_aligned (quad : P → V → K) (thr : K) (ms : List V) (ps : List P) : ∀ (fuel : ℕ) (is : List ℕ)
    (ws : List K) (acc g : Mix K V P), Aligned acc → mergeLoop quad thr ms ps fuel is ws acc = .ok g → Aligned g
  | fuel, [], ws, acc, g, ha, h => by
    unfold mergeLoop at h
    obtain rfl := Except.ok.inj h
    exact ha
  | 0, i :: is, ws, acc, g, ha, h => by
    unfold mergeLoop at h
    cases h
  | fuel + 1, i :: is, ws, acc, g, ha, h => by
    unfold mergeLoop at h
    split at h
    · cases h
    split at h
    · split at h
      · cases h
      split at h
      · split at h
        · cases h
        · exact mergeLoop_aligned quad thr ms ps fuel _ _ _ g
            ⟨by simp [ha.1], by simp [ha.2]⟩ h
      · cases h
    · cases h

omit [IsStrictOrderedRing K] [AddCommGroup P] [Module K P] in
theorem compInds_some (quad : P → V → K) (thr : K) (ms : List V) (p : P) (mj : V) : ∀ (is : List ℕ),
    (∀ i ∈ is, i < ms.length) → ∃ r, compInds quad thr ms p mj is = some r ∧ r ⊆ is
  | [], _ => ⟨[], rfl, by simp⟩
  | i :: is, h => by
    obtain ⟨r, hr, hs⟩ := compInds_some quad thr ms p mj is fun j hj => h j (List.mem_cons_of_mem _ hj)
    unfold compInds
    rw [List.getElem?_eq_getElem (h i List.mem_cons_self), hr]
    dsimp only
    split
    · exact ⟨_, rfl, List.cons_subset_cons i hs⟩
    · exact ⟨r, rfl, fun x hx => List.mem_cons_of_mem _ (hs hx)⟩

omit [LinearOrder K] [IsStrictOrderedRing K] in
theorem wtot_some (ws : List K) : ∀ (is : List ℕ), (∀ i ∈ is, i < ws.length) → ∃ r, wtot ws is = some r
  | [], _ => ⟨0, rfl⟩
  | i :: is, h => by
    obtain ⟨r, hr⟩ := wtot_some ws is fun j hj => h j (List.mem_cons_of_mem _ hj)
    unfold wtot
    rw [List.getElem?_eq_getElem (h i List.mem_cons_self), hr]
    exact ⟨_, rfl⟩

omit [LinearOrder K] [IsStrictOrderedRing K] in
theorem wsum_some {E : Type*} [AddCommMonoid E] [Module K E] (ws : List K) (xs : List E) : ∀ (is : List ℕ),
    (∀ i ∈ is, i < ws.length ∧ i < xs.length) → ∃ r, wsum ws xs is = some r
  | [], _ => ⟨0, by unfold wsum; rfl⟩
  | i :: is, h => by
    obtain ⟨r, hr⟩ := wsum_some ws xs is fun j hj => h j (List.mem_cons_of_mem _ hj)
    unfold wsum
    rw [List.getElem?_eq_getElem (h i List.mem_cons_self).1, List.getElem?_eq_getElem (h i List.mem_cons_self).2, hr]
    exact ⟨_, rfl⟩

/-- Merging raises only because of a covariance without inverse. -/
theorem cMergeLoop_raised (inv : P → Option (V → K)) (thr : K) : ∀ (fuel : ℕ) (is : List ℕ) (acc : Mix K V P)
    (s s' : Obj K V P Z), Aligned s.mix → (∀ i ∈ is, i < s.mix.ms.length) →
      cMergeLoop inv thr fuel is acc s = (s', .raised) → ∃ p ∈ s.mix.ps, inv p = none
  | fuel, [], acc, s, s', _, _, h => by
    unfold cMergeLoop at h
    cases h
  | 0, i :: is, acc, s, s', _, _, h => by cases h
  | fuel + 1, i :: is, acc, s, s', hs, hi, h => by
    have hl : 0 < s.mix.ms.length := by have := hi i List.mem_cons_self; omega
    have hne : s.mix.ws ≠ [] := by
      intro h0
      have := hs.1
      rw [h0] at this
      simp at this
      omega
    obtain ⟨jj, w, ha, hjw, -⟩ := argmax_some hne
    have hj : jj < s.mix.ws.length := (List.getElem?_eq_some_iff.1 hjw).1
    have hjm : jj < s.mix.ms.length := by rw [← hs.1]; exact hj
    have hjp : jj < s.mix.ps.length := by rw [← hs.2]; exact hjm
    unfold cMergeLoop at h
    simp only [andThen, look, ha, List.getElem?_eq_getElem hjm, List.getElem?_eq_getElem hjp] at h
    cases hq : inv s.mix.ps[jj] with
    | none => exact ⟨_, List.getElem_mem hjp, hq⟩
    | some q =>
      rw [hq] at h
      dsimp only at h
      obtain ⟨comp, hc, hsub⟩ := compInds_some (fun (_ : P) d => q d) thr s.mix.ms s.mix.ps[jj] s.mix.ms[jj]
        (i :: is) hi
      rw [hc] at h
      dsimp only at h
      obtain ⟨w1, e1⟩ := wtot_some s.mix.ws comp fun k hk => by rw [hs.1]; exact hi k (hsub hk)
      obtain ⟨w2, e2⟩ := wsum_some s.mix.ws s.mix.ms comp fun k hk => by
        rw [hs.1]; exact ⟨hi k (hsub hk), hi k (hsub hk)⟩
      obtain ⟨w3, e3⟩ := wsum_some s.mix.ws s.mix.ps comp fun k hk => by
        rw [hs.1, ← hs.2]; exact ⟨hi k (hsub hk), hi k (hsub hk)⟩
      rw [e1, e2, e3] at h
      dsimp only at h
      split at h
      · cases h
      · exact cMergeLoop_raised inv thr fuel _ _ { s with mix := { s.mix with ws := mark s.mix.ws comp } } s'
          ⟨by simp only [mark_length]; exact hs.1, hs.2⟩
          (fun k hk => hi k (List.mem_filter.1 hk).1) h

theorem cMerge_singular {inv : P → Option (V → K)} {pr : Params K} {s s' : Obj K V P Z} (hs : Aligned s.mix)
    (h : cMerge inv pr s = (s', .raised)) : ∃ p ∈ s.mix.ps, inv p = none := by
  unfold cMerge at h
  rcases andThen_raised h with h1 | ⟨s1, n, h1, h⟩
  · cases h1
  cases h1
  rcases andThen_raised h with h1 | ⟨s1, g, h1, h⟩
  · exact cMergeLoop_raised inv _ _ _ _ s s' hs (by simp) h1
  · cases h

theorem cMerge_aligned (inv : P → Option (V → K)) (pr : Params K) (s : Obj K V P Z) (hs : Aligned s.mix) :
    ∃ m r, cMerge inv pr s = ({ s with mix := m }, r) ∧ Aligned m := by
  obtain ⟨ws, r, e1, e2, e3⟩ := cMergeLoop_frame (Z := Z) inv pr.mergeThreshold s.mix.ms.length
    (List.range s.mix.ms.length) ⟨[], [], []⟩ s
  have hal : Aligned ({ s.mix with ws := ws } : Mix K V P) :=
    ⟨by rw [← hs.1]; exact (List.Forall₂.length_eq e2).symm, hs.2⟩
  unfold cMerge
  rw [andThen_of_ok (s1 := s) (a := s.mix.ms.length) rfl]
  cases r with
  | ok g =>
    rw [andThen_of_ok e1]
    exact ⟨g, .ok (), rfl, mergeLoop_aligned _ _ _ _ _ _ _ ⟨[], [], []⟩ g ⟨rfl, rfl⟩ (e3 g rfl)⟩
  | raised => exact ⟨_, .raised, by unfold andThen; rw [e1], hal⟩
  | nan => exact ⟨_, .nan, by unfold andThen; rw [e1], hal⟩

/-! ### `_cap` with a sorting function -/

omit [AddCommGroup V] [Module K V] [AddCommGroup P] [Module K P] in
theorem cCap_not_raised {argsort : List K → List ℕ} (ha : ∀ ws, IsArgsort ws (argsort ws)) (pr : Params K)
    {s s' : Obj K V P Z} (hs : Aligned s.mix) : cCap argsort pr s ≠ (s', .raised) := by
  intro h
  obtain ⟨cs, hc⟩ := (aligned_iff _).1 hs
  have hok : ∃ m, delAll s.mix (sortDesc (dropEnd (argsort s.mix.ws) pr.maxGauss)) = .ok m := by
    have hp := (ha s.mix.ws).1
    have hsub : (dropEnd (argsort s.mix.ws) pr.maxGauss).Sublist (argsort s.mix.ws) := by
      unfold dropEnd
      split
      · exact List.nil_sublist _
      · exact List.take_sublist _ _
    have hnd : (dropEnd (argsort s.mix.ws) pr.maxGauss).Nodup := (hp.nodup_iff.2 List.nodup_range).sublist hsub
    rw [hc] at hnd hsub hp ⊢
    refine ⟨_, delAll_sortDesc cs hnd fun i hi => ?_⟩
    have := hp.mem_iff.1 (hsub.subset hi)
    simpa [ofComps] using this
  obtain ⟨m, hm⟩ := hok
  unfold cCap at h
  rw [andThen_of_ok (s1 := s) (a := s.mix.ws) rfl] at h
  split at h
  · rw [andThen_of_ok (cDel_of_ok hm), andThen_of_ok (s1 := ({ s with mix := m } : Obj K V P Z)) (a := m.ws) rfl] at h
    split at h
    · cases h
    · cases h
  · cases h

/-! ### `cleanup` -/

omit [AddCommGroup V] [Module K V] [AddCommGroup P] [Module K P] [IsStrictOrderedRing K] in
theorem when_ok {b : Bool} {x : M (Obj K V P Z) Unit} {g : Mix K V P → Except PErr (Mix K V P)} {s s' : Obj K V P Z}
    (hx : ∀ {t t'}, x t = (t', .ok ()) → ∃ m, g t.mix = .ok m ∧ t' = { t with mix := m })
    (h : when b x s = (s', .ok ())) : ∃ m, optStep b g s.mix = .ok m ∧ s' = { s with mix := m } := by
  cases b with
  | true => exact hx h
  | false =>
    cases h
    exact ⟨s.mix, rfl, rfl⟩

theorem cCleanup_ok [FloorRing K] {inv : P → Option (V → K)} {argsort : List K → List ℕ} {pr : Params K}
    {bp bm bc be : Bool} {s s' : Obj K V P Z} (h : cCleanup inv argsort pr bp bm bc be s = (s', .ok ())) :
    Phd.cleanup (Z := Z) ⟨totalQuad inv, argsort⟩ pr bp bm bc be ⟨s.mix, s.states⟩ = .ok ⟨s'.mix, s'.states⟩ ∧
      s'.meas = s.meas := by
  unfold cCleanup at h
  obtain ⟨s1, u, h1, h⟩ := andThen_ok h
  obtain ⟨m1, e1, rfl⟩ := when_ok (fun h => cPrune_ok h) h1
  obtain ⟨s2, u, h2, h⟩ := andThen_ok h
  obtain ⟨m2, e2, rfl⟩ := when_ok (fun h => cMerge_ok h) h2
  obtain ⟨s3, u, h3, h⟩ := andThen_ok h
  obtain ⟨m3, e3, rfl⟩ := when_ok (fun h => cCap_ok h) h3
  unfold Phd.cleanup
  rw [e1]
  dsimp only at e2 ⊢
  rw [e2]
  dsimp only at e3 ⊢
  rw [e3]
  dsimp only
  cases be with
  | true =>
    obtain ⟨x, e4, rfl⟩ := cExtract_ok h
    refine ⟨?_, rfl⟩
    rw [if_pos rfl]
    unfold doExtract
    dsimp only at e4 ⊢
    rw [e4]
  | false =>
    cases h
    exact ⟨by rw [if_neg (by simp)], rfl⟩

theorem cCleanup_raised [FloorRing K] {inv : P → Option (V → K)} {argsort : List K → List ℕ}
    (ha : ∀ ws, IsArgsort ws (argsort ws)) {pr : Params K} {bp bm bc be : Bool} {s s' : Obj K V P Z}
    {cs : List (K × V × P)} (hs : s.mix = ofComps cs)
    (h : cCleanup inv argsort pr bp bm bc be s = (s', .raised)) :
    bm = true ∧ ∃ kept : List (K × V × P),
      kept = (if bp then cs.filter (fun c => decide (pr.pruneThreshold ≤ c.1)) else cs) ∧
      (∃ c ∈ kept, inv c.2.2 = none) ∧
      ∃ ws, Marked (ofComps kept).ws ws ∧ s' = { s with mix := ⟨ws, (ofComps kept).ms, (ofComps kept).ps⟩ } := by
  have hs' : Aligned s.mix := (aligned_iff _).2 ⟨cs, hs⟩
  have hprune : when bp (cPrune pr) s =
      ({ s with mix := ofComps (if bp then cs.filter (fun c => decide (pr.pruneThreshold ≤ c.1)) else cs) },
        .ok ()) := by
    cases bp with
    | true =>
      have := prune_ofComps pr cs
      rw [← hs] at this
      exact cPrune_of_ok this
    | false =>
      simp only [Bool.false_eq_true, if_false, ← hs]
      rfl
  unfold cCleanup at h
  rw [andThen_of_ok hprune] at h
  generalize hk : (if bp then cs.filter (fun c => decide (pr.pruneThreshold ≤ c.1)) else cs) = kept at h
  have hal : Aligned ({ s with mix := ofComps kept } : Obj K V P Z).mix := (aligned_iff _).2 ⟨kept, rfl⟩
  cases bm with
  | false =>
    exfalso
    rw [andThen_of_ok (s1 := ({ s with mix := ofComps kept } : Obj K V P Z)) (a := ()) rfl] at h
    rcases andThen_raised h with h1 | ⟨s1, u, h1, h⟩
    · cases bc with
      | true => exact cCap_not_raised ha pr hal h1
      | false => cases h1
    · have hal1 : Aligned s1.mix := by
        cases bc with
        | true =>
          obtain ⟨m, r, e1, e2⟩ := cCap_aligned argsort pr _ hal
          have e1' : when true (cCap argsort pr) ({ s with mix := ofComps kept } : Obj K V P Z) = _ := e1
          rw [e1'] at h1
          obtain ⟨rfl, -⟩ := Prod.mk.inj h1
          exact e2
        | false =>
          cases h1
          exact hal
      cases be with
      | true =>
        obtain ⟨x, e⟩ := cExtract_aligned pr s1 hal1
        have e' : when true (cExtract pr) s1 = _ := e
        rw [e'] at h
        cases h
      | false => cases h
  | true =>
    refine ⟨rfl, kept, rfl, ?_⟩
    rcases andThen_raised h with h1 | ⟨s1, u, h1, h⟩
    · have h1' : cMerge inv pr ({ s with mix := ofComps kept } : Obj K V P Z) = (s', .raised) := h1
      obtain ⟨p, hp, hn⟩ := cMerge_singular hal h1'
      obtain ⟨ws, hw, rfl⟩ := cMerge_raised h1'
      refine ⟨?_, ws, hw, rfl⟩
      obtain ⟨c, hc, rfl⟩ := List.mem_map.1 hp
      exact ⟨c, hc, hn⟩
    · exfalso
      have hal1 : Aligned s1.mix := by
        obtain ⟨m, r, e1, e2⟩ := cMerge_aligned inv pr _ hal
        have e1' : when true (cMerge inv pr) ({ s with mix := ofComps kept } : Obj K V P Z) = _ := e1
        rw [e1'] at h1
        obtain ⟨rfl, -⟩ := Prod.mk.inj h1
        exact e2
      rcases andThen_raised h with h2 | ⟨s2, u, h2, h⟩
      · cases bc with
        | true => exact cCap_not_raised ha pr hal1 h2
        | false => cases h2
      · have hal2 : Aligned s2.mix := by
          cases bc with
          | true =>
            obtain ⟨m, r, e1, e2⟩ := cCap_aligned argsort pr _ hal1
            have e1' : when true (cCap argsort pr) s1 = _ := e1
            rw [e1'] at h2
            obtain ⟨rfl, -⟩ := Prod.mk.inj h2
            exact e2
          | false =>
            cases h2
            exact hal1
        cases be with
        | true =>
          obtain ⟨x, e⟩ := cExtract_aligned pr s2 hal2
          have e' : when true (cExtract pr) s2 = _ := e
          rw [e'] at h
          cases h
        | false => cases h

/-! ### C144 -/

variable [FloorRing K]

/-- **C144, `predict`.** If `predict` raises (the inner filter raised for one of the components), the filter is exactly as
it was before the call. -/
theorem C144_predict (inv : P → Option (V → K)) (argsort : List K → List ℕ) (pr : Params K) (f : PFilt K V P Z)
    (births : List (Mix K V P)) (s s' : Obj K V P Z)
    (h : call inv argsort pr (.predict f births) s = (s', .raised)) : s' = s := cPredict_raised h

/-- **C144, `correct`** (partial: the filter is not exactly as it was, `C144_refuted_correct`). If `correct` raises, the
mixture and the reported states are as before the call; the measurements of the failed call stay in the measurement
table. -/
theorem C144_correct_partial (inv : P → Option (V → K)) (argsort : List K → List ℕ) (pr : Params K) (f : PFilt K V P Z)
    (zs : List Z) (s s' : Obj K V P Z) (h : call inv argsort pr (.correct f zs) s = (s', .raised)) :
    s'.mix = s.mix ∧ s'.states = s.states ∧ s'.meas = s.meas ++ [zs] := by
  rw [cCorrect_raised h]
  exact ⟨rfl, rfl, rfl⟩

/-- **C144, `cleanup`** (partial: the filter is not as it was, `C144_refuted_cleanup`). If `cleanup` raises on a mixture
with parallel lists, then merging was asked for and one of the components that are left after pruning has a covariance
without inverse. Afterwards these components still have their means and covariances, some of them the weight `-1`
instead of their own, and the reported states and the measurement table are as before the call. -/
theorem C144_cleanup_partial (inv : P → Option (V → K)) (argsort : List K → List ℕ)
    (ha : ∀ ws, IsArgsort ws (argsort ws)) (pr : Params K) (bp bm bc be : Bool) (s s' : Obj K V P Z)
    (cs : List (K × V × P)) (hs : s.mix = ofComps cs)
    (h : call inv argsort pr (.cleanup bp bm bc be) s = (s', .raised)) :
    bm = true ∧ s'.states = s.states ∧ s'.meas = s.meas ∧
    ∃ kept, kept = (if bp then cs.filter (fun c => decide (pr.pruneThreshold ≤ c.1)) else cs) ∧
      (∃ c ∈ kept, inv c.2.2 = none) ∧
      s'.mix.ms = kept.map (fun c => c.2.1) ∧ s'.mix.ps = kept.map (fun c => c.2.2) ∧
      s'.mix.ws.length = kept.length ∧
      ∀ (i : ℕ) (c : K × V × P) (w : K), kept[i]? = some c → s'.mix.ws[i]? = some w → w = c.1 ∨ w = -1 := by
  obtain ⟨hm, kept, hk, hn, ws, hw, rfl⟩ := cCleanup_raised ha hs h
  have hl := List.Forall₂.length_eq hw
  refine ⟨hm, rfl, rfl, kept, hk, hn, rfl, rfl, ?_, ?_⟩
  · simpa [ofComps] using hl.symm
  · intro i c w hc hi
    dsimp only at hi
    obtain ⟨h1, rfl⟩ := List.getElem?_eq_some_iff.1 hc
    obtain ⟨h2, rfl⟩ := List.getElem?_eq_some_iff.1 hi
    have := (List.forall₂_iff_get.1 hw).2 i (by simpa [ofComps] using h1) h2
    simpa [ofComps] using this

omit [IsStrictOrderedRing K] [AddCommGroup V] [Module K V] [AddCommGroup P] [Module K P] in
theorem cExtract_raised {pr : Params K} {s s' : Obj K V P Z} (h : cExtract pr s = (s', .raised)) : s' = s := by
  unfold cExtract at h
  rcases andThen_raised h with h1 | ⟨s1, m, h1, h⟩
  · cases h1
  cases h1
  cases hx : extract pr s.mix with
  | error e =>
    rw [hx] at h
    exact (congrArg Prod.fst h).symm
  | ok x => rw [hx] at h; cases h

theorem play_cons {inv : P → Option (V → K)} {argsort : List K → List ℕ} {pr : Params K} {s s' : Obj K V P Z}
    {o : COp K V P Z} {os : List (COp K V P Z)} {fl : List Bool}
    (h : play inv argsort pr s (o :: os) = some (s', fl)) :
    ∃ s1 fl', play inv argsort pr s1 os = some (s', fl') ∧
      ((call inv argsort pr o s = (s1, .ok ()) ∧ fl = true :: fl') ∨
        (call inv argsort pr o s = (s1, .raised) ∧ fl = false :: fl')) := by
  unfold play at h
  split at h
  · cases h
  · rename_i s1 h1
    cases h2 : play inv argsort pr s1 os with
    | none => rw [h2] at h; cases h
    | some r =>
      rw [h2] at h
      cases h
      exact ⟨s1, r.2, h2, .inr ⟨h1, rfl⟩⟩
  · rename_i s1 u h1
    cases h2 : play inv argsort pr s1 os with
    | none => rw [h2] at h; cases h
    | some r =>
      rw [h2] at h
      cases h
      exact ⟨s1, r.2, h2, .inl ⟨h1, rfl⟩⟩

/-- **C144, histories** (partial: for clean-ups that do not raise). However many `predict`, `correct` and `extract_states`
calls of a sequence raise, if the caller catches the exceptions and goes on, then mixture and reported states are at the
end what the calls that did not raise give by themselves. -/
theorem C144_history_partial (inv : P → Option (V → K)) (argsort : List K → List ℕ) (pr : Params K) :
    ∀ (ops : List (COp K V P Z)) (s s' : Obj K V P Z) (flags : List Bool),
      play inv argsort pr s ops = some (s', flags) → CleanupsEnded ops flags →
      Phd.run ⟨totalQuad inv, argsort⟩ pr ⟨s.mix, s.states⟩ ((normalCalls ops flags).map plainOp) =
        .ok ⟨s'.mix, s'.states⟩
  | [], s, s', flags, h, _ => by
    cases h
    rfl
  | o :: os, s, s', flags, h, hc => by
    obtain ⟨s1, fl, h2, h1⟩ := play_cons h
    rcases h1 with ⟨h1, rfl⟩ | ⟨h1, rfl⟩
    · have ih := C144_history_partial inv argsort pr os s1 s' fl h2
        fun x hx => hc x (by rw [List.zip_cons_cons]; exact List.mem_cons_of_mem _ hx)
      have hstep : Phd.step (Z := Z) ⟨totalQuad inv, argsort⟩ pr ⟨s.mix, s.states⟩ (plainOp o) =
          .ok ⟨s1.mix, s1.states⟩ := by
        cases o with
        | predict f b =>
          rw [cPredict_ok h1]
          rfl
        | correct f z =>
          obtain ⟨m, e1, rfl⟩ := cCorrect_ok h1
          unfold plainOp Phd.step
          dsimp only
          rw [e1]
        | cleanup a b c d => exact (cCleanup_ok h1).1
        | extract =>
          obtain ⟨x, e1, rfl⟩ := cExtract_ok h1
          unfold plainOp Phd.step doExtract
          dsimp only
          rw [e1]
      have hn : normalCalls (o :: os) (true :: fl) = o :: normalCalls os fl := by
        simp [normalCalls]
      rw [hn, List.map_cons]
      unfold Phd.run
      rw [hstep]
      exact ih
    · have ih := C144_history_partial inv argsort pr os s1 s' fl h2
        fun x hx => hc x (by rw [List.zip_cons_cons]; exact List.mem_cons_of_mem _ hx)
      have hn : normalCalls (o :: os) (false :: fl) = normalCalls os fl := by
        simp [normalCalls]
      have hs : s1.mix = s.mix ∧ s1.states = s.states := by
        cases o with
        | predict f b => rw [cPredict_raised h1]; exact ⟨rfl, rfl⟩
        | correct f z => rw [cCorrect_raised h1]; exact ⟨rfl, rfl⟩
        | cleanup a b c d =>
          have := hc (COp.cleanup a b c d, false) (by rw [List.zip_cons_cons]; exact List.mem_cons_self) rfl
          cases this
        | extract => rw [cExtract_raised h1]; exact ⟨rfl, rfl⟩
      rw [hn, ← hs.1, ← hs.2]
      exact ih

/-- Birth terms with parallel lists. -/
def BirthsParallel : COp K V P Z → Prop
  | .predict _ b => ∀ m ∈ b, Aligned m
  | _ => True

omit [IsStrictOrderedRing K] [FloorRing K] [AddCommGroup V] [Module K V] [AddCommGroup P] [Module K P] [LinearOrder K]
  [Field K] in
theorem extend_aligned {a b : Mix K V P} (ha : Aligned a) (hb : Aligned b) : Aligned (extend a b) := by
  refine ⟨?_, ?_⟩
  · simp [extend, ha.1, hb.1]
  · simp [extend, ha.2, hb.2]

omit [IsStrictOrderedRing K] [FloorRing K] [AddCommGroup V] [Module K V] [AddCommGroup P] [Module K P] [LinearOrder K]
  [Field K] in
theorem foldl_aligned : ∀ (bs : List (Mix K V P)) (a : Mix K V P), Aligned a → (∀ b ∈ bs, Aligned b) →
    Aligned (bs.foldl extend a)
  | [], _, ha, _ => ha
  | b :: bs, a, ha, hb => foldl_aligned bs (extend a b) (extend_aligned ha (hb b List.mem_cons_self))
      fun x hx => hb x (List.mem_cons_of_mem _ hx)

/-- The measurements of a call. -/
def scanOf : COp K V P Z → List (List Z)
  | .correct _ z => [z]
  | _ => []

/-- What every call keeps, whether it raises or not. -/
theorem call_keeps (inv : P → Option (V → K)) (argsort : List K → List ℕ) (pr : Params K) {o : COp K V P Z}
    {s s' : Obj K V P Z} {r : Res Unit} (ho : BirthsParallel o) (hs : Aligned s.mix)
    (h : call inv argsort pr o s = (s', r)) (hr : r ≠ .nan) :
    Aligned s'.mix ∧ s.states <+: s'.states ∧
      s'.meas = s.meas ++ scanOf o := by
  cases o with
  | predict f b =>
    cases r with
    | nan => exact absurd rfl hr
    | raised =>
      rw [cPredict_raised h]
      exact ⟨hs, List.prefix_refl _, (List.append_nil _).symm⟩
    | ok u =>
      rw [cPredict_ok h]
      refine ⟨foldl_aligned b _ ?_ ho, List.prefix_refl _, (List.append_nil _).symm⟩
      simp [predictDensity, Aligned, hs.1, hs.2]
  | correct f z =>
    cases r with
    | nan => exact absurd rfl hr
    | raised =>
      rw [cCorrect_raised h]
      exact ⟨hs, List.prefix_refl _, rfl⟩
    | ok u =>
      obtain ⟨m, e1, rfl⟩ := cCorrect_ok h
      refine ⟨?_, List.prefix_refl _, rfl⟩
      obtain ⟨cs, hc⟩ := (aligned_iff _).1 hs
      rw [hc] at e1
      by_cases hd : ∃ y ∈ z, cs ≠ [] ∧ denom pr (totalFilt f) cs y = 0
      · rw [correct_zeroDiv _ _ _ _ hd] at e1
        cases e1
      · push Not at hd
        rw [correct_ofComps _ _ _ _ fun y hy => by
          by_cases h0 : cs = []
          · exact .inl h0
          · exact .inr (hd y hy h0)] at e1
        obtain rfl := Except.ok.inj e1
        exact (aligned_iff _).2 ⟨_, rfl⟩
  | extract =>
    obtain ⟨x, e⟩ := cExtract_aligned pr s hs
    have e' : call inv argsort pr .extract s = _ := e
    rw [e'] at h
    obtain ⟨rfl, -⟩ := Prod.mk.inj h
    exact ⟨hs, List.prefix_append _ _, (List.append_nil _).symm⟩
  | cleanup a b c d =>
    unfold call cCleanup at h
    dsimp only at h
    have w1 : ∃ m q, when a (cPrune pr) s = ({ s with mix := m }, q) ∧ Aligned m ∧ (q = .raised ∨ q = .ok ()) := by
      cases a with
      | true =>
        obtain ⟨m, q, h1, h2, h3⟩ := cDel_aligned (Z := Z)
          (sortDesc (whereIdx (fun w => decide (w < pr.pruneThreshold)) s.mix.ws)) s hs
        refine ⟨m, q, h1, h2, ?_⟩
        cases q with
        | nan => exact absurd rfl h3
        | raised => exact .inl rfl
        | ok u => exact .inr rfl
      | false => exact ⟨s.mix, .ok (), rfl, hs, .inr rfl⟩
    obtain ⟨m1, q1, e1, a1, c1⟩ := w1
    rcases c1 with rfl | rfl
    · have : s' = { s with mix := m1 } := by
        unfold andThen at h
        rw [e1] at h
        exact (congrArg Prod.fst h).symm
      subst this
      exact ⟨a1, List.prefix_refl _, (List.append_nil _).symm⟩
    rw [andThen_of_ok e1] at h
    have w2 : ∃ m q, when b (cMerge inv pr) ({ s with mix := m1 } : Obj K V P Z) = ({ s with mix := m }, q) ∧
        Aligned m := by
      cases b with
      | true => exact cMerge_aligned inv pr ({ s with mix := m1 } : Obj K V P Z) a1
      | false => exact ⟨m1, .ok (), rfl, a1⟩
    obtain ⟨m2, q2, e2, a2⟩ := w2
    have w3 : ∃ m q, when c (cCap argsort pr) ({ s with mix := m2 } : Obj K V P Z) = ({ s with mix := m }, q) ∧
        Aligned m := by
      cases c with
      | true => exact cCap_aligned argsort pr ({ s with mix := m2 } : Obj K V P Z) a2
      | false => exact ⟨m2, .ok (), rfl, a2⟩
    obtain ⟨m3, q3, e3, a3⟩ := w3
    cases q2 with
    | nan =>
      unfold andThen at h
      rw [e2] at h
      obtain ⟨-, rfl⟩ := Prod.mk.inj h
      exact absurd rfl hr
    | raised =>
      unfold andThen at h
      rw [e2] at h
      obtain ⟨rfl, -⟩ := Prod.mk.inj h
      exact ⟨a2, List.prefix_refl _, (List.append_nil _).symm⟩
    | ok u2 =>
      rw [andThen_of_ok e2] at h
      cases q3 with
      | nan =>
        unfold andThen at h
        rw [e3] at h
        obtain ⟨-, rfl⟩ := Prod.mk.inj h
        exact absurd rfl hr
      | raised =>
        unfold andThen at h
        rw [e3] at h
        obtain ⟨rfl, -⟩ := Prod.mk.inj h
        exact ⟨a3, List.prefix_refl _, (List.append_nil _).symm⟩
      | ok u3 =>
        rw [andThen_of_ok e3] at h
        cases d with
        | true =>
          obtain ⟨x, e⟩ := cExtract_aligned pr ({ s with mix := m3 } : Obj K V P Z) a3
          have e' : when true (cExtract pr) ({ s with mix := m3 } : Obj K V P Z) = _ := e
          rw [e'] at h
          obtain ⟨rfl, -⟩ := Prod.mk.inj h
          exact ⟨a3, List.prefix_append _ _, (List.append_nil _).symm⟩
        | false =>
          obtain ⟨rfl, -⟩ := Prod.mk.inj h
          exact ⟨a3, List.prefix_refl _, (List.append_nil _).symm⟩

/-- **C144, any history.** Whatever calls raise, also clean-ups, if the caller catches the exceptions and goes on: the three
lists of the mixture stay parallel, states that were reported once are not changed, and the measurement table consists
of the measurements of all `correct` calls in order, also of those that raised. -/
theorem C144_any_history (inv : P → Option (V → K)) (argsort : List K → List ℕ) (pr : Params K) :
    ∀ (ops : List (COp K V P Z)) (s s' : Obj K V P Z) (flags : List Bool), (∀ o ∈ ops, BirthsParallel o) →
      Aligned s.mix → play inv argsort pr s ops = some (s', flags) →
      Aligned s'.mix ∧ s.states <+: s'.states ∧ s'.meas = s.meas ++ ops.flatMap scanOf ∧ flags.length = ops.length
  | [], s, s', flags, _, hs, h => by
    cases h
    exact ⟨hs, List.prefix_refl _, by simp, rfl⟩
  | o :: os, s, s', flags, ho, hs, h => by
    obtain ⟨s1, fl, h2, h1⟩ := play_cons h
    have key : Aligned s1.mix ∧ s.states <+: s1.states ∧ s1.meas = s.meas ++ scanOf o ∧ flags = flags.headI :: fl := by
      rcases h1 with ⟨h1, rfl⟩ | ⟨h1, rfl⟩
      · obtain ⟨a, b, c⟩ := call_keeps inv argsort pr (ho o List.mem_cons_self) hs h1 (by simp)
        exact ⟨a, b, c, rfl⟩
      · obtain ⟨a, b, c⟩ := call_keeps inv argsort pr (ho o List.mem_cons_self) hs h1 (by simp)
        exact ⟨a, b, c, rfl⟩
    obtain ⟨a, b, c, d⟩ := C144_any_history inv argsort pr os s1 s' fl
      (fun x hx => ho x (List.mem_cons_of_mem _ hx)) key.1 h2
    refine ⟨a, key.2.1.trans b, ?_, ?_⟩
    · rw [c, key.2.2.1, List.flatMap_cons, List.append_assoc]
    · rw [key.2.2.2, List.length_cons, d, List.length_cons]

end field

/-! ### Witnesses -/

/-- Distances on the line; the covariance 0 has no inverse. -/
def exInv (p : ℚ) : Option (ℚ → ℚ) := if p = 0 then none else some fun d => d * d / p

/-- A sorting routine. -/
def exSort (ws : List ℚ) : List ℕ :=
  (List.range ws.length).insertionSort fun i j => (ws[i]?).getD 0 ≤ (ws[j]?).getD 0

theorem exSort_sorts : ∀ ws, IsArgsort ws (exSort ws) := by
  refine fun ws => ⟨List.perm_insertionSort _ _, ?_⟩
  haveI : Std.Total (fun i j : ℕ => (ws[i]?).getD 0 ≤ (ws[j]?).getD 0) := ⟨fun i j => le_total _ _⟩
  haveI : IsTrans ℕ (fun i j : ℕ => (ws[i]?).getD 0 ≤ (ws[j]?).getD 0) := ⟨fun i j k h1 h2 => le_trans h1 h2⟩
  refine (List.pairwise_insertionSort (fun i j : ℕ => (ws[i]?).getD 0 ≤ (ws[j]?).getD 0) _).imp ?_
  intro i j hij a b ha hb
  simpa [ha, hb] using hij

/-- Parameters. -/
def exCrashPr : Params ℚ := ⟨9 / 10, 9 / 10, 1 / 10, 1, 1 / 10, 1 / 2, 1 / 100, 1, 10⟩

/-- An inner filter that raises for states beyond 100. -/
def exPFilt : PFilt ℚ ℚ ℚ ℚ :=
  ⟨fun m p => if 100 < m then none else some (m + 1, p), fun z m p => if 100 < m then none else some ((m + z) / 2, 1, p / 2)⟩

/-- A sure target at 0 and a possible one at 10 whose covariance has no inverse. -/
def exSingular : List (Mix ℚ ℚ ℚ) := [⟨[1], [0], [1]⟩, ⟨[1 / 10], [10], [0]⟩]

/-- A target at 0 and one beyond 100. -/
def exFar : List (Mix ℚ ℚ ℚ) := [⟨[1], [0], [1]⟩, ⟨[1 / 10], [200], [1]⟩]

/-- What a history leaves: weights, means, covariances, reported states, measurement table, which calls ended normally. -/
structure Shown where
  ws : List ℚ
  ms : List ℚ
  ps : List ℚ
  states : List (List ℚ × List ℚ)
  meas : List (List ℚ)
  ended : List Bool
  deriving DecidableEq

/-- What a history on a new filter leaves. -/
def exShow (ops : List (COp ℚ ℚ ℚ ℚ)) :
    Option Shown :=
  (play exInv exSort exCrashPr fresh ops).map fun r =>
    ⟨r.1.mix.ws, r.1.mix.ms, r.1.mix.ps, r.1.states, r.1.meas, r.2⟩

/-- **C144, refuted for `cleanup`.** After a `cleanup` that raises because of one singular covariance, the weight of the
sure target is `-1`: the expected number of objects is negative. If the caller goes on with a clean-up without merging,
the target is pruned and nothing is reported; without the failed call it is reported. -/
theorem C144_refuted_cleanup :
    exShow [.predict exPFilt exSingular, .cleanup true true true true] =
      some ⟨[-1, 1 / 10], [0, 10], [1, 0], [], [], [true, false]⟩ ∧
    exShow [.predict exPFilt exSingular, .cleanup true true true true, .cleanup true false true true] =
      some ⟨[1 / 10], [10], [0], [([], [])], [], [true, false, true]⟩ ∧
    exShow [.predict exPFilt exSingular, .cleanup true false true true] =
      some ⟨[1, 1 / 10], [0, 10], [1, 0], [([0], [1])], [], [true, true]⟩ := by
  refine ⟨?_, ?_, ?_⟩ <;> decide +kernel

/-- **C144, refuted for `correct`.** A scan whose correction raised is recorded, and recorded twice if the call is
repeated (here with an inner filter that copes with the far target). -/
theorem C144_refuted_correct :
    exShow [.predict exPFilt exFar, .correct exPFilt [4]] =
      some ⟨[1, 1 / 10], [0, 200], [1, 1], [], [[4]], [true, false]⟩ ∧
    exShow [.predict exPFilt exFar, .correct exPFilt [4],
        .correct ⟨fun m p => some (m, p), fun z _ p => some (z, 1, p)⟩ [4]] =
      some ⟨[9 / 10 / (109 / 100), 9 / 100 / (109 / 100), 1 / 10, 1 / 100], [4, 4, 0, 200], [1, 1, 1, 1], [],
        [[4], [4]], [true, false, true]⟩ := by
  refine ⟨?_, ?_⟩ <;> decide +kernel

/-- The hypotheses of `C144_predict` are met: the second prediction raises. -/
example : (exShow [.predict exPFilt exFar, .predict exPFilt exFar]).map (fun r => r.ended) = some [true, false] := by
  decide +kernel

/-- The hypotheses of `C144_history_partial` and `C144_any_history` are met by a history in which a prediction and a
correction raise and in the end a target is reported. -/
example : (∀ o ∈ ([.predict exPFilt exFar, .correct exPFilt [4], .predict exPFilt [],
      .cleanup true true true true] : List (COp ℚ ℚ ℚ ℚ)), BirthsParallel o) ∧
    exShow [.predict exPFilt exFar, .correct exPFilt [4], .predict exPFilt [], .cleanup true true true true] =
      some ⟨[1, 1 / 10], [0, 200], [1, 1], [([0], [1])], [[4]], [true, false, false, true]⟩ ∧
    CleanupsEnded ([.predict exPFilt exFar, .correct exPFilt [4], .predict exPFilt [],
      .cleanup true true true true] : List (COp ℚ ℚ ℚ ℚ)) [true, false, false, true] := by
  refine ⟨?_, by decide +kernel, ?_⟩
  · intro o ho
    simp only [List.mem_cons, List.not_mem_nil, or_false] at ho
    rcases ho with rfl | rfl | rfl | rfl
    · intro m hm
      simp only [exFar, List.mem_cons, List.not_mem_nil, or_false] at hm
      rcases hm with rfl | rfl <;> exact ⟨rfl, rfl⟩
    · trivial
    · intro m hm
      cases hm
    · trivial
  · simp [CleanupsEnded, isCleanup]

/-- Whether a piece of code ends with an exception. -/
def Res.isRaised {α : Type*} : Res α → Bool
  | .raised => true
  | _ => false

theorem crashes {σ α : Type*} {x : M σ α} {s : σ} (h : Res.isRaised (x s).2 = true) : ∃ s', x s = (s', .raised) := by
  refine ⟨(x s).1, ?_⟩
  cases hx : (x s).2 with
  | raised => rw [← hx]
  | ok a => rw [hx] at h; cases h
  | nan => rw [hx] at h; cases h

/-- The hypotheses of `C144_cleanup_partial` are met. -/
example : ∃ s' : Obj ℚ ℚ ℚ ℚ, call exInv exSort exCrashPr (.cleanup true true true true)
    ⟨ofComps [(1, 0, 1), (1 / 10, 10, 0)], [], []⟩ = (s', .raised) :=
  crashes (by decide +kernel)

end Gasur.Props.PhdCrash
