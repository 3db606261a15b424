import Verif.Props.PhdCoord
import Verif.Props.CphdOrder

/-!
# Property C121 for the CPHD filter
-/

set_option linter.unusedSectionVars false

namespace Gasur.Spec

open Gasur.Phd

variable {V P Z V' P' Z' : Type*} [AddCommGroup V] [Module ℝ V] [AddCommGroup P] [Module ℝ P]
    [AddCommGroup V'] [Module ℝ V'] [AddCommGroup P'] [Module ℝ P'] (m : PCoords ℝ V P Z V' P' Z')

/-- The same call of a CPHD filter in the other coordinates. -/
inductive PCoords.SameCCall : Cphd.Op V P Z → Cphd.Op V' P' Z' → Prop
  | predict {f f' births} (h : m.SameFilter f f') : SameCCall (.predict f births) (.predict f' (births.map m.mix))
  | correct {f f' meas} (h : m.SameFilter f f') : SameCCall (.correct f meas) (.correct f' (meas.map m.meas))
  | cleanup (a b c d : Bool) : SameCCall (.cleanup a b c d) (.cleanup a b c d)
  | extract : SameCCall .extract .extract
  | setMax (n : ℕ) : SameCCall (.setMax n) (.setMax n)

/-- The state of a CPHD filter in the other coordinates: the cardinality distribution, its history and the numbers of
agents are the same. -/
noncomputable def PCoords.cst (x : Cphd.CState V P) : Cphd.CState V' P' :=
  ⟨m.mix x.mix, x.card, x.hist, x.states.map fun r => (r.1.map m.state, r.2.map m.cov), x.agents⟩

end Gasur.Spec

namespace Gasur.Props

open Gasur.Phd Gasur.Cphd Gasur.Spec

variable {V P Z V' P' Z' : Type*} [AddCommGroup V] [Module ℝ V] [AddCommGroup P] [Module ℝ P]
    [AddCommGroup V'] [Module ℝ V'] [AddCommGroup P'] [Module ℝ P'] {m : PCoords ℝ V P Z V' P' Z'}

theorem firstWeights_nat : ∀ bs : List (Mix ℝ V P), firstWeights (bs.map m.mix) = firstWeights bs
  | [] => rfl
  | b :: bs => by
    rw [List.map_cons]
    unfold firstWeights
    rw [firstWeights_nat bs, show (m.mix b).ws = b.ws from rfl]

/-- A component in the other coordinates. -/
noncomputable def mapComp (m : PCoords ℝ V P Z V' P' Z') (c : ℝ × V × P) : ℝ × V' × P' := (c.1, m.state c.2.1, m.cov c.2.2)

theorem comps_nat (x : Mix ℝ V P) : comps (m.mix x) = (comps x).map (mapComp m) := by
  unfold comps PCoords.mix
  dsimp only
  rw [List.zip_map, List.zip_map_right]
  rfl

theorem mixOf_nat (cs : List (ℝ × V × P)) : mixOf (cs.map (mapComp m)) = m.mix (mixOf cs) := by
  simp [mixOf, PCoords.mix, mapComp, Function.comp_def]

theorem xi_nat {f : Filt ℝ V P Z} {f' : Filt ℝ V' P' Z'} (h : m.SameFilter f f') (hs : m.scale ≠ 0) (pdet cden : ℝ)
    (cs : List (ℝ × V × P)) (z : Z) :
    xi (pdet / (m.scale * cden)) f' (cs.map (mapComp m)) (m.meas z) = xi (pdet / cden) f cs z := by
  unfold xi
  rw [List.map_map]
  have h1 : (cs.map ((fun c => c.1 * (f'.fcor (m.meas z) c.2.1 c.2.2).2.1) ∘ mapComp m)) =
      cs.map fun c => m.scale * (c.1 * (f.fcor z c.2.1 c.2.2).2.1) := by
    refine List.map_congr_left fun c _ => ?_
    simp only [Function.comp, mapComp, h.cor]
    ring
  rw [h1, List.sum_map_mul_left, ← mul_assoc]
  congr 1
  field_simp

theorem detComps_nat {f : Filt ℝ V P Z} {f' : Filt ℝ V' P' Z'} (h : m.SameFilter f f') (hs : m.scale ≠ 0)
    (pdet cden r : ℝ) (zl z : Z) (cs : List (ℝ × V × P)) :
    detComps pdet (m.scale * cden) r f' (m.meas zl) (m.meas z) (cs.map (mapComp m)) =
      (detComps pdet cden r f zl z cs).map (mapComp m) := by
  unfold detComps
  rw [List.map_map, List.map_map]
  refine List.map_congr_left fun c _ => ?_
  simp only [Function.comp, mapComp, h.cor]
  refine Prod.ext ?_ rfl
  dsimp only
  rw [show pdet * (m.scale * (f.fcor z c.2.1 c.2.2).2.1) = m.scale * (pdet * (f.fcor z c.2.1 c.2.2).2.1) by ring,
    mul_div_mul_left _ _ hs]

theorem correctComps_nat {f : Filt ℝ V P Z} {f' : Filt ℝ V' P' Z'} (h : m.SameFilter f f') (hs : m.scale ≠ 0)
    (esf : List ℝ → List ℝ) (pr : Params ℝ) (zs : List Z) (cs : List (ℝ × V × P)) (card : List ℝ) :
    correctComps esf (m.params pr) f' (zs.map m.meas) (cs.map (mapComp m)) card =
      (correctComps esf pr f zs cs card).map fun r => (r.1.map (mapComp m), r.2) := by
  unfold correctComps
  have hx : (zs.map m.meas).map (xi ((m.params pr).probDetection / (m.params pr).clutterDen) f' (cs.map (mapComp m))) =
      zs.map (xi (pr.probDetection / pr.clutterDen) f cs) := by
    rw [List.map_map]
    exact List.map_congr_left fun z _ => xi_nat h hs _ _ cs z
  have hW : ((cs.map (mapComp m)).map fun c => c.1) = cs.map fun c => c.1 := by
    rw [List.map_map]
    rfl
  have hd : probDeath (m.params pr) = probDeath pr := rfl
  rw [hx, hW, hd, List.length_map]
  by_cases h0 : cs = []
  · rw [if_pos h0, if_pos (by rw [h0]; rfl)]
    rfl
  rw [if_neg h0, if_neg (by simpa using h0)]
  have hc : (m.params pr).clutterDen = 0 ↔ pr.clutterDen = 0 := by simp [PCoords.params, hs]
  by_cases h1 : pr.clutterDen = 0
  · rw [if_pos h1, if_pos (hc.2 h1)]
    rfl
  rw [if_neg h1, if_neg (mt hc.1 h1)]
  dsimp only
  rw [show (m.params pr).clutterRate = pr.clutterRate from rfl]
  split
  · rfl
  · split
    · rfl
    · cases normalize ((List.range card.length).map fun n =>
          ups0 pr.clutterRate (probDeath pr) (cs.map fun c => c.1).sum zs.length
            (esf (zs.map (xi (pr.probDetection / pr.clutterDen) f cs))) n * at' card n) with
      | error e => rfl
      | ok c' =>
        refine congrArg Except.ok (Prod.ext ?_ rfl)
        dsimp only
        rw [List.map_append]
        congr 1
        · unfold missWeights
          rw [List.map_map, List.zipWith_map_left, List.zipWith_map_right, List.zipWith_map_left, List.map_zipWith]
          rfl
        · rw [List.zipIdx_map, List.flatMap_map, List.map_flatMap]
          congr 1
          funext ze
          rw [show ((zs.map m.meas).getLast?.getD (Prod.map m.meas id ze).1) = m.meas (zs.getLast?.getD ze.1) by
            rw [List.getLast?_map]; cases zs.getLast? <;> rfl]
          exact detComps_nat h hs _ _ _ _ _ _

theorem cextractLoop_nat (x : Mix ℝ V P) (card : ℤ) : ∀ (is : List ℕ) (tot : ℤ),
    Cphd.extractLoop (m.mix x) card is tot =
      (Cphd.extractLoop x card is tot).map (List.map fun r => (m.state r.1, m.cov r.2.1, r.2.2))
  | [], _ => rfl
  | i :: is, tot => by
    unfold Cphd.extractLoop
    by_cases h : tot < card
    · rw [if_pos h, if_pos h, show (m.mix x).ps[i]? = x.ps[i]?.map m.cov from List.getElem?_map ..,
        show (m.mix x).ms[i]? = x.ms[i]?.map m.state from List.getElem?_map .., show (m.mix x).ws = x.ws from rfl]
      cases x.ws[i]? with
      | none => rfl
      | some w =>
        dsimp only
        by_cases hw : pyRound w ≤ 0
        · rw [if_pos hw, if_pos hw]
          rfl
        · rw [if_neg hw, if_neg hw, cextractLoop_nat x card is]
          cases x.ms[i]? with
          | none => rfl
          | some v =>
            cases x.ps[i]? with
            | none => rfl
            | some p =>
              cases Cphd.extractLoop x card is (tot + pyRound w) with
              | error e => rfl
              | ok r => rfl
    · rw [if_neg h, if_neg h]
      rfl

theorem cextract_nat (argsort : List ℝ → List ℕ) (s : CState V P) :
    Cphd.extract argsort (m.cst s) = (Cphd.extract argsort s).map m.cst := by
  unfold Cphd.extract
  rw [show (m.cst s).mix = m.mix s.mix from rfl, show cardinality (m.cst s) = cardinality s from rfl,
    show (m.mix s.mix).ws = s.mix.ws from rfl, cextractLoop_nat]
  cases Cphd.extractLoop s.mix (cardinality s) (argsort s.mix.ws).reverse 0 with
  | error e => rfl
  | ok l => simp [Except.map, PCoords.cst, Function.comp_def]

theorem liftE_nat (x : Except PErr (Mix ℝ V P)) : liftE (x.map m.mix) = (liftE x).map m.mix := by
  cases x <;> rfl

theorem ccleanup_nat {e : Env ℝ V P Z} {e' : Env ℝ V' P' Z'} (he : m.SameEnv e e') (pr : Params ℝ) (bp bm bc be : Bool)
    (s : CState V P) :
    Cphd.cleanup e' (m.params pr) bp bm bc be (m.cst s) = (Cphd.cleanup e pr bp bm bc be s).map m.cst := by
  unfold Cphd.cleanup
  rw [show (m.cst s).mix = m.mix s.mix from rfl, optStep_nat bp (pprune_nat (m := m) pr), liftE_nat]
  cases liftE (optStep bp (Phd.prune pr) s.mix) with
  | error e => rfl
  | ok m1 =>
    dsimp only [Except.map]
    rw [optStep_nat bm (merge_nat he pr), liftE_nat]
    cases liftE (optStep bm (Phd.merge e.quad pr) m1) with
    | error e => rfl
    | ok m2 =>
      dsimp only [Except.map]
      rw [he.argsort, optStep_nat bc (pcap_nat (m := m) e.argsort pr), liftE_nat]
      cases liftE (optStep bc (Phd.cap e.argsort pr) m2) with
      | error e => rfl
      | ok m3 =>
        dsimp only [Except.map]
        cases be with
        | false => rfl
        | true => exact cextract_nat e.argsort { s with mix := m3 }

theorem cstep_nat {e : Env ℝ V P Z} {e' : Env ℝ V' P' Z'} (he : m.SameEnv e e') (hs : m.scale ≠ 0)
    (esf : List ℝ → List ℝ) (pr : Params ℝ) (s : CState V P) {o : Cphd.Op V P Z} {o' : Cphd.Op V' P' Z'}
    (h : m.SameCCall o o') : Cphd.step e' esf (m.params pr) (m.cst s) o' = (Cphd.step e esf pr s o).map m.cst := by
  cases h with
  | @predict f _ births h =>
    unfold Cphd.step Cphd.predict
    dsimp only
    rw [firstWeights_nat]
    cases firstWeights births with
    | error e => rfl
    | ok l =>
      dsimp only
      rw [show maxCard (m.cst s) = maxCard s from rfl, show (m.cst s).card = s.card from rfl,
        show (m.params pr).probSurvive = pr.probSurvive from rfl, show probDeath (m.params pr) = probDeath pr from rfl]
      cases cardPredict (maxCard s) pr.probSurvive (probDeath pr) l.sum s.card with
      | error e => rfl
      | ok c =>
        dsimp only [Except.map]
        rw [show (m.cst s).mix = m.mix s.mix from rfl, ppredict_nat h]
        rfl
  | @correct f _ meas h =>
    unfold Cphd.step Cphd.correct
    dsimp only
    rw [show (m.cst s).mix = m.mix s.mix from rfl, show (m.mix s.mix).ms.length = s.mix.ms.length from List.length_map _,
      show (m.mix s.mix).ps.length = s.mix.ps.length from List.length_map _, show (m.mix s.mix).ws = s.mix.ws from rfl]
    by_cases hl : s.mix.ws.length = s.mix.ms.length ∧ s.mix.ms.length = s.mix.ps.length
    · rw [if_pos hl, if_pos hl, comps_nat, correctComps_nat h hs, show (m.cst s).card = s.card from rfl]
      cases correctComps esf pr f meas (comps s.mix) s.card with
      | error e => rfl
      | ok r =>
        dsimp only [Except.map]
        rw [mixOf_nat]
        rfl
    · rw [if_neg hl, if_neg hl]
      rfl
  | cleanup a b c d => exact ccleanup_nat he pr a b c d s
  | extract =>
    unfold Cphd.step
    dsimp only
    rw [he.argsort]
    exact cextract_nat e.argsort s
  | setMax n => rfl

/-- **C121, CPHD filter.** -/
theorem C121_cphd_coordinates {e : Env ℝ V P Z} {e' : Env ℝ V' P' Z'} (he : m.SameEnv e e') (hs : m.scale ≠ 0)
    (esf : List ℝ → List ℝ) (pr : Params ℝ) (N : ℕ) (ops : List (Cphd.Op V P Z)) (ops' : List (Cphd.Op V' P' Z'))
    (h : List.Forall₂ m.SameCCall ops ops') :
    Cphd.run e' esf (m.params pr) (Cphd.init N) ops' = (Cphd.run e esf pr (Cphd.init N) ops).map m.cst := by
  have key : ∀ s : CState V P, Cphd.run e' esf (m.params pr) (m.cst s) ops' = (Cphd.run e esf pr s ops).map m.cst := by
    induction h with
    | nil => exact fun _ => rfl
    | cons h _ ih =>
      intro s
      unfold Cphd.run
      rw [cstep_nat he hs esf pr s h]
      cases Cphd.step e esf pr s _ with
      | error x => rfl
      | ok s => exact ih s
  exact key (Cphd.init N)

/-- A run of the CPHD filter with a prediction, an update and an extraction, and the same run in coordinates
`x ↦ -3 x + 7` with measurements in another unit: both succeed and agree. -/
example : ∃ (e e' : Env ℝ ℝ ℝ ℝ) (f' : Filt ℝ ℝ ℝ ℝ) (m : PCoords ℝ ℝ ℝ ℝ ℝ ℝ ℝ) (s : CState ℝ ℝ),
    m.lin 1 = -3 ∧ m.shift = 7 ∧ m.meas 0 = 5 ∧
    Cphd.run e exEsf exCp (Cphd.init 2) [.predict exCF [exBirth], .correct exCF [0], .extract] = .ok s ∧
    Cphd.run e' exEsf (m.params exCp) (Cphd.init 2) [.predict f' [m.mix exBirth], .correct f' [5], .extract] =
      .ok (m.cst s) ∧ s.states.length = 1 := by
  obtain ⟨e, s, _, h1, h2, _⟩ := cphdExRun
  obtain ⟨ha, hb⟩ := C121_always (K := ℝ) (V := ℝ) (P := ℝ) (Z := ℝ) (V' := ℝ) (P' := ℝ) (Z' := ℝ) 7
    (LinearEquiv.smulOfUnit (Units.mk0 (-3 : ℝ) (by norm_num))) (LinearEquiv.smulOfUnit (Units.mk0 (9 : ℝ) (by norm_num)))
    (Equiv.addRight 5) (1 / 2)
  obtain ⟨f', hf⟩ := ha exCF
  obtain ⟨e', he⟩ := hb e
  refine ⟨e, e', f', ⟨(LinearEquiv.smulOfUnit (Units.mk0 (-3 : ℝ) (by norm_num)) : ℝ ≃ₗ[ℝ] ℝ), 7,
    (LinearEquiv.smulOfUnit (Units.mk0 (9 : ℝ) (by norm_num)) : ℝ ≃ₗ[ℝ] ℝ), Equiv.addRight 5, 1 / 2⟩, s, ?_, rfl, ?_,
    h1, ?_, h2⟩
  rotate_left 2
  · have := C121_cphd_coordinates he (by norm_num) exEsf exCp 2
      [.predict exCF [exBirth], .correct exCF [0], .extract] [.predict f' ([exBirth].map _), .correct f' ([0].map _), .extract]
      (.cons (.predict hf) (.cons (.correct hf) (.cons .extract .nil)))
    rw [h1] at this
    simpa [Except.map] using this
  · simp [LinearEquiv.smulOfUnit]
  · simp

end Gasur.Props
