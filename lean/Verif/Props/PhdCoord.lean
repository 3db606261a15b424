import Verif.Props.PhdBound
import Verif.Props.GlmbCoord

/-!
# Property C121: the PHD filters do not depend on the coordinate system
-/

set_option linter.unusedSectionVars false

namespace Gasur.Spec

open Gasur.Phd

/-- Other coordinates for a PHD filter: states are transformed by an affine map `x ↦ A x + b`, covariances by a linear
map (`p ↦ A p Aᵀ` for matrices), measurements by any map; densities on the measurement space change by the factor
`scale` (the inverse of the determinant of the map of measurements). -/
structure PCoords (K V P Z V' P' Z' : Type*) [Field K] [AddCommGroup V] [Module K V] [AddCommGroup P] [Module K P]
    [AddCommGroup V'] [Module K V'] [AddCommGroup P'] [Module K P'] where
  lin : V →ₗ[K] V'
  shift : V'
  cov : P →ₗ[K] P'
  meas : Z → Z'
  scale : K

variable {K V P Z V' P' Z' : Type*} [Field K] [AddCommGroup V] [Module K V] [AddCommGroup P] [Module K P]
    [AddCommGroup V'] [Module K V'] [AddCommGroup P'] [Module K P'] (m : PCoords K V P Z V' P' Z')

/-- A state in the other coordinates. -/
def PCoords.state (x : V) : V' := m.lin x + m.shift

/-- A mixture in the other coordinates; the weights are the same. -/
def PCoords.mix (x : Mix K V P) : Mix K V' P' := ⟨x.ws, x.ms.map m.state, x.ps.map m.cov⟩

/-- The state of the filter, with all that was reported, in the other coordinates. -/
def PCoords.st (x : PState K V P) : PState K V' P' :=
  ⟨m.mix x.mix, x.states.map fun r => (r.1.map m.state, r.2.map m.cov)⟩

/-- The same inner filter in the other coordinates: likelihoods are densities on the measurement space. -/
structure PCoords.SameFilter (f : Filt K V P Z) (f' : Filt K V' P' Z') : Prop where
  pred : ∀ x p, f'.fpred (m.state x) (m.cov p) = (m.state (f.fpred x p).1, m.cov (f.fpred x p).2)
  cor : ∀ z x p, f'.fcor (m.meas z) (m.state x) (m.cov p) =
    (m.state (f.fcor z x p).1, m.scale * (f.fcor z x p).2.1, m.cov (f.fcor z x p).2.2)

/-- The same call in the other coordinates. -/
inductive PCoords.SameCall : Op K V P Z → Op K V' P' Z' → Prop
  | predict {f f' births} (h : m.SameFilter f f') : SameCall (.predict f births) (.predict f' (births.map m.mix))
  | correct {f f' meas} (h : m.SameFilter f f') : SameCall (.correct f meas) (.correct f' (meas.map m.meas))
  | cleanup (a b c d : Bool) : SameCall (.cleanup a b c d) (.cleanup a b c d)
  | extract : SameCall .extract .extract

/-- The same parameters: only the clutter density, a density on the measurement space, changes. -/
def PCoords.params (pr : Params K) : Params K := { pr with clutterDen := m.scale * pr.clutterDen }

/-- The same external pieces: the squared Mahalanobis distance does not change, neither does `argsort`. -/
structure PCoords.SameEnv (e : Env K V P Z) (e' : Env K V' P' Z') : Prop where
  quad : ∀ p d, e'.quad (m.cov p) (m.lin d) = e.quad p d
  argsort : e'.argsort = e.argsort

end Gasur.Spec

namespace Gasur.Props

open Gasur.Phd Gasur.Spec

variable {K V P Z V' P' Z' : Type*} [Field K] [LinearOrder K] [AddCommGroup V] [Module K V] [AddCommGroup P] [Module K P]
    [AddCommGroup V'] [Module K V'] [AddCommGroup P'] [Module K P'] {m : PCoords K V P Z V' P' Z'}

theorem predictDensity_nat {f : Filt K V P Z} {f' : Filt K V' P' Z'} (h : m.SameFilter f f') (pr : Params K)
    (x : Mix K V P) : predictDensity (m.params pr) f' (m.mix x) = m.mix (predictDensity pr f x) := by
  unfold predictDensity PCoords.mix
  dsimp only
  rw [List.zip_map, List.map_map, List.map_map, List.map_map, List.map_map]
  refine congrArg₂ (Mix.mk _) ?_ ?_ <;>
  · refine List.map_congr_left fun mp _ => ?_
    obtain ⟨a, b⟩ := mp
    simp only [Function.comp, Prod.map_apply, h.pred]

theorem extend_nat (a b : Mix K V P) : extend (m.mix a) (m.mix b) = m.mix (extend a b) := by
  simp [extend, PCoords.mix]

theorem ppredict_nat {f : Filt K V P Z} {f' : Filt K V' P' Z'} (h : m.SameFilter f f') (pr : Params K)
    (births : List (Mix K V P)) (x : Mix K V P) :
    predict (m.params pr) f' (births.map m.mix) (m.mix x) = m.mix (predict pr f births x) := by
  unfold predict
  rw [predictDensity_nat h]
  generalize predictDensity pr f x = y
  induction births generalizing y with
  | nil => rfl
  | cons b bs ih => rw [List.map_cons, List.foldl_cons, List.foldl_cons, extend_nat, ih]

theorem pcorOne_nat {f : Filt K V P Z} {f' : Filt K V' P' Z'} (h : m.SameFilter f f') (x : Mix K V P) (detW : List K)
    (z : Z) : ∀ js : List ℕ, Phd.corOne f' (m.mix x) detW (m.meas z) js =
      (Phd.corOne f x detW z js).map fun r => (r.1.map m.state, r.2.1.map m.cov, r.2.2.map fun w => m.scale * w)
  | [] => rfl
  | j :: js => by
    unfold Phd.corOne
    rw [show (m.mix x).ps[j]? = x.ps[j]?.map m.cov from List.getElem?_map ..,
      show (m.mix x).ms[j]? = x.ms[j]?.map m.state from List.getElem?_map .., pcorOne_nat h x detW z js]
    cases x.ps[j]? with
    | none => rfl
    | some p =>
      cases x.ms[j]? with
      | none => rfl
      | some s =>
        cases detW[j]? with
        | none => rfl
        | some dw =>
          cases Phd.corOne f x detW z js with
          | error e => rfl
          | ok r => simp [Except.map, h.cor, mul_assoc]

theorem normalise_nat (hs : m.scale ≠ 0) (pr : Params K) (ws : List K) :
    normalise (m.params pr) (ws.map fun w => m.scale * w) = normalise pr ws := by
  unfold normalise
  have h1 : (m.params pr).clutterRate * (m.params pr).clutterDen + (ws.map fun w => m.scale * w).sum =
      m.scale * (pr.clutterRate * pr.clutterDen + ws.sum) := by
    rw [List.sum_map_mul_left, List.map_id']
    simp only [PCoords.params]
    ring
  rw [h1]
  have h2 : (ws.map fun w => m.scale * w) ≠ [] ∧ m.scale * (pr.clutterRate * pr.clutterDen + ws.sum) = 0 ↔
      ws ≠ [] ∧ pr.clutterRate * pr.clutterDen + ws.sum = 0 := by
    simp [hs]
  by_cases hc : ws ≠ [] ∧ pr.clutterRate * pr.clutterDen + ws.sum = 0
  · rw [if_pos (h2.2 hc), if_pos hc]
  · rw [if_neg (mt h2.1 hc), if_neg hc, List.map_map]
    refine congrArg Except.ok (List.map_congr_left fun w _ => ?_)
    exact mul_div_mul_left _ _ hs

theorem correctDensity_nat {f : Filt K V P Z} {f' : Filt K V' P' Z'} (h : m.SameFilter f f') (hs : m.scale ≠ 0)
    (pr : Params K) (x : Mix K V P) : ∀ zs : List Z,
      correctDensity (m.params pr) f' (m.mix x) (zs.map m.meas) = (correctDensity pr f x zs).map m.mix
  | [] => rfl
  | z :: zs => by
    rw [List.map_cons]
    unfold correctDensity
    rw [show (m.mix x).ws = x.ws from rfl, show (m.mix x).ms.length = x.ms.length from List.length_map _,
      show (m.params pr).probDetection = pr.probDetection from rfl, pcorOne_nat h]
    cases Phd.corOne f x (x.ws.map fun x => pr.probDetection * x) z (List.range x.ms.length) with
    | error e => rfl
    | ok r =>
      dsimp only [Except.map]
      rw [normalise_nat hs]
      cases normalise pr r.2.2 with
      | error e => rfl
      | ok ws' =>
        dsimp only
        rw [correctDensity_nat h hs pr x zs]
        cases correctDensity pr f x zs with
        | error e => rfl
        | ok g => simp [Except.map, PCoords.mix]

theorem pcorrect_nat {f : Filt K V P Z} {f' : Filt K V' P' Z'} (h : m.SameFilter f f') (hs : m.scale ≠ 0)
    (pr : Params K) (zs : List Z) (x : Mix K V P) :
    Phd.correct (m.params pr) f' (zs.map m.meas) (m.mix x) = (Phd.correct pr f zs x).map m.mix := by
  unfold Phd.correct
  rw [correctDensity_nat h hs]
  cases correctDensity pr f x zs with
  | error e => rfl
  | ok g => simp [Except.map, PCoords.mix, PCoords.params]

theorem delAt_nat (x : Mix K V P) (i : ℕ) : delAt (m.mix x) i = (delAt x i).map m.mix := by
  unfold delAt
  simp only [PCoords.mix, List.length_map]
  by_cases h : i < x.ms.length ∧ i < x.ws.length ∧ i < x.ps.length
  · rw [if_pos h, if_pos h]
    simp [Except.map, List.eraseIdx_map, PCoords.mix]
  · rw [if_neg h, if_neg h]
    rfl

theorem delAll_nat : ∀ (is : List ℕ) (x : Mix K V P), delAll (m.mix x) is = (delAll x is).map m.mix
  | [], _ => rfl
  | i :: is, x => by
    unfold delAll
    rw [delAt_nat]
    cases delAt x i with
    | error e => rfl
    | ok y => exact delAll_nat is y

theorem pprune_nat (pr : Params K) (x : Mix K V P) :
    Phd.prune (m.params pr) (m.mix x) = (Phd.prune pr x).map m.mix := delAll_nat _ x

theorem pcap_nat (argsort : List K → List ℕ) (pr : Params K) (x : Mix K V P) :
    Phd.cap argsort (m.params pr) (m.mix x) = (Phd.cap argsort pr x).map m.mix := by
  unfold Phd.cap
  rw [show (m.params pr).maxGauss = pr.maxGauss from rfl, show (m.mix x).ws = x.ws from rfl]
  by_cases h : pr.maxGauss < x.ws.length
  · rw [if_pos h, if_pos h, delAll_nat]
    cases delAll x (sortDesc (dropEnd (argsort x.ws) pr.maxGauss)) with
    | error e => rfl
    | ok y =>
      dsimp only [Except.map]
      rw [show (m.mix y).ws = y.ws from rfl]
      by_cases h2 : y.ws ≠ [] ∧ y.ws.sum = 0
      · rw [if_pos h2, if_pos h2]
      · rw [if_neg h2, if_neg h2]
        rfl
  · rw [if_neg h, if_neg h]
    rfl

theorem wsum_lin {E E' : Type*} [AddCommGroup E] [Module K E] [AddCommGroup E'] [Module K E'] (g : E →ₗ[K] E')
    (ws : List K) (xs : List E) : ∀ is : List ℕ, wsum ws (xs.map g) is = (wsum ws xs is).map g
  | [] => by simp [wsum]
  | i :: is => by
    unfold wsum
    rw [List.getElem?_map, wsum_lin g ws xs is]
    cases ws[i]? with
    | none => rfl
    | some w =>
      cases xs[i]? with
      | none => rfl
      | some x =>
        cases wsum ws xs is with
        | none => rfl
        | some s => simp

theorem wsum_affine (ws : List K) (xs : List V) : ∀ is : List ℕ,
    wsum ws (xs.map m.state) is = (wsum ws xs is).bind fun s => (wtot ws is).map fun w => m.lin s + w • m.shift
  | [] => by simp [wsum, wtot]
  | i :: is => by
    unfold wsum wtot
    rw [List.getElem?_map, wsum_affine ws xs is]
    cases ws[i]? with
    | none => rfl
    | some w =>
      cases xs[i]? with
      | none => rfl
      | some x =>
        cases wsum ws xs is with
        | none => rfl
        | some s =>
          cases wtot ws is with
          | none => rfl
          | some t =>
            simp only [Option.map_some, Option.bind_some, PCoords.state, smul_add, map_add, map_smul, add_smul]
            congr 1
            abel

theorem compInds_nat {e : Env K V P Z} {e' : Env K V' P' Z'} (he : m.SameEnv e e') (thr : K) (ms : List V) (p : P)
    (mj : V) : ∀ is : List ℕ, compInds e'.quad thr (ms.map m.state) (m.cov p) (m.state mj) is =
      compInds e.quad thr ms p mj is
  | [] => rfl
  | i :: is => by
    unfold compInds
    rw [List.getElem?_map, compInds_nat he thr ms p mj is]
    cases ms[i]? with
    | none => rfl
    | some mi =>
      have : m.state mi - m.state mj = m.lin (mi - mj) := by
        simp [PCoords.state]
      cases compInds e.quad thr ms p mj is with
      | none => rfl
      | some r =>
        dsimp only [Option.map_some]
        rw [this, he.quad]

theorem mergeLoop_nat {e : Env K V P Z} {e' : Env K V' P' Z'} (he : m.SameEnv e e') (thr : K) (ms : List V)
    (ps : List P) : ∀ (fuel : ℕ) (is : List ℕ) (ws : List K) (acc : Mix K V P),
      mergeLoop e'.quad thr (ms.map m.state) (ps.map m.cov) fuel is ws (m.mix acc) =
        (mergeLoop e.quad thr ms ps fuel is ws acc).map m.mix
  | 0, [], _, _ => rfl
  | _ + 1, [], _, _ => rfl
  | 0, _ :: _, _, _ => rfl
  | fuel + 1, i :: is, ws, acc => by
    unfold mergeLoop
    cases argmax ws with
    | none => rfl
    | some jj =>
      dsimp only
      rw [List.getElem?_map, List.getElem?_map]
      cases ps[jj]? with
      | none => rfl
      | some p =>
        cases ms[jj]? with
        | none => rfl
        | some mj =>
          dsimp only [Option.map_some]
          rw [compInds_nat he]
          cases compInds e.quad thr ms p mj (i :: is) with
          | none => rfl
          | some comp =>
            dsimp only
            rw [wsum_lin, wsum_affine]
            cases wtot ws comp with
            | none => cases wsum ws ms comp <;> rfl
            | some w =>
              cases wsum ws ms comp with
              | none => rfl
              | some sm =>
                cases wsum ws ps comp with
                | none => rfl
                | some sp =>
                  dsimp only [Option.map_some, Option.bind_some]
                  by_cases hw : w = 0
                  · rw [if_pos hw, if_pos hw]
                    rfl
                  · rw [if_neg hw, if_neg hw, ← mergeLoop_nat he thr ms ps fuel]
                    congr 1
                    simp only [PCoords.mix, PCoords.state, List.map_append, List.map_cons, List.map_nil, smul_add,
                      map_smul, inv_smul_smul₀ hw]

theorem merge_nat {e : Env K V P Z} {e' : Env K V' P' Z'} (he : m.SameEnv e e') (pr : Params K) (x : Mix K V P) :
    Phd.merge e'.quad (m.params pr) (m.mix x) = (Phd.merge e.quad pr x).map m.mix := by
  unfold Phd.merge
  rw [show (m.mix x).ms.length = x.ms.length from List.length_map _]
  exact mergeLoop_nat he _ _ _ _ _ _ ⟨[], [], []⟩

variable [FloorRing K]

theorem extractLoop_nat (x : Mix K V P) : ∀ js : List ℕ, extractLoop (m.mix x) js =
    (extractLoop x js).map fun r => (r.1.map m.state, r.2.map m.cov)
  | [] => rfl
  | j :: js => by
    unfold extractLoop
    rw [show (m.mix x).ps[j]? = x.ps[j]?.map m.cov from List.getElem?_map ..,
      show (m.mix x).ms[j]? = x.ms[j]?.map m.state from List.getElem?_map .., show (m.mix x).ws = x.ws from rfl,
      extractLoop_nat x js]
    cases x.ws[j]? with
    | none => rfl
    | some w =>
      cases x.ms[j]? with
      | none => rfl
      | some v =>
        cases x.ps[j]? with
        | none => rfl
        | some p =>
          cases extractLoop x js with
          | error e => rfl
          | ok r => simp [Except.map]

theorem doExtract_nat (pr : Params K) (s : PState K V P) :
    doExtract (m.params pr) (m.st s) = (doExtract pr s).map m.st := by
  unfold doExtract extract
  rw [show (m.st s).mix = m.mix s.mix from rfl, show (m.mix s.mix).ws = s.mix.ws from rfl, extractLoop_nat]
  rw [show (m.params pr).extractThreshold = pr.extractThreshold from rfl]
  cases extractLoop s.mix (whereIdx (fun w => decide (pr.extractThreshold ≤ w)) s.mix.ws) with
  | error e => rfl
  | ok r => simp [Except.map, PCoords.st]

theorem optStep_nat (b : Bool) {g : Mix K V P → Except PErr (Mix K V P)} {g' : Mix K V' P' → Except PErr (Mix K V' P')}
    (h : ∀ x, g' (m.mix x) = (g x).map m.mix) (x : Mix K V P) : optStep b g' (m.mix x) = (optStep b g x).map m.mix := by
  cases b with
  | false => rfl
  | true => exact h x

theorem pcleanup_nat {e : Env K V P Z} {e' : Env K V' P' Z'} (he : m.SameEnv e e') (pr : Params K) (bp bm bc be : Bool)
    (s : PState K V P) :
    Phd.cleanup e' (m.params pr) bp bm bc be (m.st s) = (Phd.cleanup e pr bp bm bc be s).map m.st := by
  unfold Phd.cleanup
  rw [show (m.st s).mix = m.mix s.mix from rfl, optStep_nat bp (pprune_nat (m := m) pr)]
  cases optStep bp (Phd.prune pr) s.mix with
  | error e => rfl
  | ok m1 =>
    dsimp only [Except.map]
    rw [optStep_nat bm (merge_nat he pr)]
    cases optStep bm (Phd.merge e.quad pr) m1 with
    | error e => rfl
    | ok m2 =>
      dsimp only [Except.map]
      rw [he.argsort, optStep_nat bc (pcap_nat (m := m) e.argsort pr)]
      cases optStep bc (Phd.cap e.argsort pr) m2 with
      | error e => rfl
      | ok m3 =>
        dsimp only [Except.map]
        cases be with
        | false => rfl
        | true => exact doExtract_nat pr { s with mix := m3 }

theorem pstep_nat {e : Env K V P Z} {e' : Env K V' P' Z'} (he : m.SameEnv e e') (hs : m.scale ≠ 0) (pr : Params K)
    (s : PState K V P) {o : Op K V P Z} {o' : Op K V' P' Z'} (h : m.SameCall o o') :
    Phd.step e' (m.params pr) (m.st s) o' = (Phd.step e pr s o).map m.st := by
  cases h with
  | predict h =>
    unfold Phd.step
    dsimp only
    rw [show (m.st s).mix = m.mix s.mix from rfl, ppredict_nat h]
    rfl
  | @correct f _ meas h =>
    unfold Phd.step
    dsimp only
    rw [show (m.st s).mix = m.mix s.mix from rfl, pcorrect_nat h hs]
    cases Phd.correct pr f meas s.mix with
    | error e => rfl
    | ok r => rfl
  | cleanup a b c d => exact pcleanup_nat he pr a b c d s
  | extract => exact doExtract_nat pr s

/-- **C121.** The same calls made in other (affine) coordinates, and in other units of the measurements, have the same
outcome: the filter fails in the one exactly if it fails (with the same error) in the other, and otherwise the weights
are equal and all states and covariances, including everything reported so far, are those of the other in new
coordinates. -/
theorem C121_coordinates {e : Env K V P Z} {e' : Env K V' P' Z'} (he : m.SameEnv e e') (hs : m.scale ≠ 0)
    (pr : Params K) (ops : List (Op K V P Z)) (ops' : List (Op K V' P' Z')) (h : List.Forall₂ m.SameCall ops ops') :
    run e' (m.params pr) init ops' = (run e pr init ops).map m.st := by
  have key : ∀ s : PState K V P, run e' (m.params pr) (m.st s) ops' = (run e pr s ops).map m.st := by
    induction h with
    | nil => exact fun _ => rfl
    | cons h _ ih =>
      intro s
      unfold run
      rw [pstep_nat he hs pr s h]
      cases Phd.step e pr s _ with
      | error x => rfl
      | ok s => exact ih s
  exact key init

/-- Whenever the coordinates can be changed back, every inner filter and all external pieces have a version in the other
coordinates, so that C121 applies to every run of the filter. -/
theorem C121_always (b : V') (lin : V ≃ₗ[K] V') (cov : P ≃ₗ[K] P') (meas : Z ≃ Z') (κ : K) :
    (∀ f : Filt K V P Z, ∃ f' : Filt K V' P' Z',
      (⟨lin, b, cov, meas, κ⟩ : PCoords K V P Z V' P' Z').SameFilter f f') ∧
    ∀ e : Env K V P Z, ∃ e' : Env K V' P' Z',
      (⟨lin, b, cov, meas, κ⟩ : PCoords K V P Z V' P' Z').SameEnv e e' := by
  constructor
  · intro f
    refine ⟨⟨fun x p => (lin (f.fpred (lin.symm (x - b)) (cov.symm p)).1 + b, cov (f.fpred (lin.symm (x - b)) (cov.symm p)).2),
      fun z x p => (lin (f.fcor (meas.symm z) (lin.symm (x - b)) (cov.symm p)).1 + b,
        κ * (f.fcor (meas.symm z) (lin.symm (x - b)) (cov.symm p)).2.1,
        cov (f.fcor (meas.symm z) (lin.symm (x - b)) (cov.symm p)).2.2)⟩, ?_, ?_⟩
    · intro x p
      simp [PCoords.state]
    · intro z x p
      simp [PCoords.state]
  · intro e
    exact ⟨⟨fun p d => e.quad (cov.symm p) (lin.symm d), e.argsort⟩, by simp, rfl⟩

/-! ### Non-vacuity: another origin and another unit of length -/

/-- Positions `2 x + 100` instead of `x`. -/
def exUnits : PCoords ℚ ℚ ℚ ℚ ℚ ℚ ℚ :=
  ⟨(2 : ℚ) • LinearMap.id, 100, (4 : ℚ) • LinearMap.id, fun z => 2 * z + 100, 1 / 2⟩

/-- The inner filter `exFilt` in these coordinates. -/
def exFilt2 : Filt ℚ ℚ ℚ ℚ :=
  { fpred := fun m p => (m + 2, p + 4)
    fcor := fun z m p => ((m + z) / 2, 1 / 2 * (1 / (1 + ((z - m) / 2) ^ 2)), p / 2) }

theorem exUnits_env : exUnits.SameEnv exEnv exEnv := by
  refine ⟨fun p d => ?_, rfl⟩
  simp only [exUnits, exEnv, LinearMap.smul_apply, LinearMap.id_apply, smul_eq_mul]
  rw [show (2 * d) * (2 * d) = 4 * (d * d) by ring]
  exact mul_div_mul_left _ _ (by norm_num)

theorem exUnits_filter : exUnits.SameFilter exFilt exFilt2 := by
  refine ⟨fun x p => ?_, fun z x p => ?_⟩
  · simp only [exUnits, exFilt, exFilt2, PCoords.state, LinearMap.smul_apply, LinearMap.id_apply, smul_eq_mul]
    exact Prod.ext (by ring) (by ring)
  · simp only [exUnits, exFilt, exFilt2, PCoords.state, LinearMap.smul_apply, LinearMap.id_apply, smul_eq_mul]
    refine Prod.ext (by ring) (Prod.ext ?_ (by ring))
    dsimp only
    rw [show (2 * z + 100 - (2 * x + 100)) / 2 = z - x by ring]

example : run exEnv (exUnits.params exParams) init
      [.predict exFilt2 ([⟨[1, 1 / 2], [0, 5], [1, 1]⟩].map exUnits.mix), .correct exFilt2 ([1, 7].map exUnits.meas),
       .cleanup true true true true] =
    (run exEnv exParams init [.predict exFilt [⟨[1, 1 / 2], [0, 5], [1, 1]⟩], .correct exFilt [1, 7],
      .cleanup true true true true]).map exUnits.st :=
  C121_coordinates exUnits_env (by norm_num [exUnits]) exParams _ _
    (.cons (.predict exUnits_filter) (.cons (.correct exUnits_filter) (.cons (.cleanup _ _ _ _) .nil)))

end Gasur.Props
