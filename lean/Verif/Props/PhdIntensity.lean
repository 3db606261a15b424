import Verif.Props.PhdOrder
import Verif.Props.PhdBound
import Verif.Props.CphdOrder
import Verif.Props.CphdHistory

/-!
# Property C127: prediction and correction depend only on the intensity, not on how it is written as a mixture
-/

set_option linter.unusedSectionVars false

namespace Gasur.Spec

open Gasur.Phd

/-- The integral of a test function of mean and covariance against a mixture: `∑ w g(m, P)`. -/
def integ {K V P : Type*} [Semiring K] (g : V → P → K) (m : Mix K V P) : K :=
  ((m.ws.zip (m.ms.zip m.ps)).map fun c => c.1 * g c.2.1 c.2.2).sum

/-- Two mixtures with complete components that are the same intensity: they assign the same total weight to every set of
means and covariances (equivalently, all test functions have the same integral). The order of the components, splitting
one into several with the same mean and covariance, and components of weight zero make no difference. -/
def SameIntensity {K V P : Type*} [Semiring K] (m m' : Mix K V P) : Prop :=
  Aligned m ∧ Aligned m' ∧ ∀ g : V → P → K, integ g m = integ g m'

end Gasur.Spec

namespace Gasur.Props

open Gasur.Phd Gasur.Spec

variable {K V P Z : Type*} [Field K] [LinearOrder K] [IsStrictOrderedRing K]
  [AddCommGroup V] [Module K V] [AddCommGroup P] [Module K P] [FloorRing K]

/-- One mixture with all components of several. -/
def unionMix (bs : List (Mix K V P)) : Mix K V P :=
  ⟨bs.flatMap fun b => b.ws, bs.flatMap fun b => b.ms, bs.flatMap fun b => b.ps⟩

/-- Calls of `predict` and `correct` with the same inner filter, the same measurements in any order, and births that
together have the same intensity. -/
inductive SameInput : Op K V P Z → Op K V P Z → Prop
  | predict (f : Filt K V P Z) {b b' : List (Mix K V P)} : (∀ x ∈ b, Aligned x) → (∀ x ∈ b', Aligned x) →
      SameIntensity (unionMix b) (unionMix b') → SameInput (.predict f b) (.predict f b')
  | correct (f : Filt K V P Z) {zs zs' : List Z} : zs.Perm zs' → SameInput (.correct f zs) (.correct f zs')

theorem integ_ofComps (g : V → P → K) (cs : List (K × V × P)) :
    integ g (ofComps cs) = (cs.map fun c => c.1 * g c.2.1 c.2.2).sum := by
  unfold integ ofComps
  have : (cs.map fun c => c.1).zip ((cs.map fun c => c.2.1).zip (cs.map fun c => c.2.2)) = cs := by
    induction cs with
    | nil => rfl
    | cons c cs ih => simp [ih]
  rw [this]

theorem unionMix_ofComps (bs : List (List (K × V × P))) : unionMix (bs.map ofComps) = ofComps bs.flatten := by
  simp only [unionMix, ofComps, List.flatMap_map, List.map_flatten]
  rfl

/-- Equal test integrals, on components. -/
def SameI (cs cs' : List (K × V × P)) : Prop :=
  ∀ g : V → P → K, (cs.map fun c => c.1 * g c.2.1 c.2.2).sum = (cs'.map fun c => c.1 * g c.2.1 c.2.2).sum

theorem sameIntensity_iff (m m' : Mix K V P) :
    SameIntensity m m' ↔ ∃ cs cs', m = ofComps cs ∧ m' = ofComps cs' ∧ SameI cs cs' := by
  constructor
  · rintro ⟨h1, h2, h⟩
    obtain ⟨cs, rfl⟩ := (aligned_iff m).1 h1
    obtain ⟨cs', rfl⟩ := (aligned_iff m').1 h2
    exact ⟨cs, cs', rfl, rfl, fun g => by rw [← integ_ofComps, ← integ_ofComps]; exact h g⟩
  · rintro ⟨cs, cs', rfl, rfl, h⟩
    exact ⟨(aligned_iff _).2 ⟨cs, rfl⟩, (aligned_iff _).2 ⟨cs', rfl⟩, fun g => by
      rw [integ_ofComps, integ_ofComps]; exact h g⟩

theorem SameI.append {a a' b b' : List (K × V × P)} (h1 : SameI a a') (h2 : SameI b b') : SameI (a ++ b) (a' ++ b') := by
  intro g
  rw [List.map_append, List.map_append, List.sum_append, List.sum_append, h1 g, h2 g]

/-- Mapping every component to one whose weight is a multiple of the old weight. -/
theorem SameI.map {a a' : List (K × V × P)} (h : SameI a a') (q : V → P → K) (n : V → P → V × P) :
    SameI (a.map fun c => (q c.2.1 c.2.2 * c.1, n c.2.1 c.2.2)) (a'.map fun c => (q c.2.1 c.2.2 * c.1, n c.2.1 c.2.2)) := by
  intro g
  have := h fun v p => q v p * g (n v p).1 (n v p).2
  simp only [List.map_map, Function.comp_def]
  convert this using 3
  · funext c; ring
  · funext c; ring

theorem SameI.of_perm {a a' : List (K × V × P)} (h : a.Perm a') : SameI a a' := fun _ => (h.map _).sum_eq

theorem SameI.trans {a b c : List (K × V × P)} (h : SameI a b) (h' : SameI b c) : SameI a c := fun g => (h g).trans (h' g)

theorem SameI.flatMap {α : Type*} {F F' : α → List (K × V × P)} (h : ∀ a, SameI (F a) (F' a)) :
    ∀ zs : List α, SameI (zs.flatMap F) (zs.flatMap F')
  | [] => fun _ => rfl
  | z :: zs => by
    rw [List.flatMap_cons, List.flatMap_cons]
    exact (h z).append (SameI.flatMap h zs)

theorem denom_sameI {pr : Params K} {f : Filt K V P Z} {cs cs' : List (K × V × P)} (h : SameI cs cs') (z : Z) :
    denom pr f cs z = denom pr f cs' z := by
  unfold denom rawW
  have := h fun v p => (f.fcor z v p).2.1 * pr.probDetection
  congr 1
  convert this using 3
  · funext c; ring
  · funext c; ring

theorem predict_sameI {pr : Params K} {f : Filt K V P Z} {cs cs' : List (K × V × P)} {bs bs' : List (List (K × V × P))}
    (h : SameI cs cs') (hb : SameI bs.flatten bs'.flatten) :
    SameIntensity (predict pr f (bs.map ofComps) (ofComps cs)) (predict pr f (bs'.map ofComps) (ofComps cs')) := by
  rw [predict_ofComps, predict_ofComps, sameIntensity_iff]
  exact ⟨_, _, rfl, rfl, (h.map (fun _ _ => pr.probSurvive) fun v p => f.fpred v p).append hb⟩

theorem correct_sameI {pr : Params K} {f : Filt K V P Z} {cs cs' : List (K × V × P)} {zs zs' : List Z}
    (h : SameI cs cs') (hz : zs.Perm zs') (hd : ∀ z ∈ zs, denom pr f cs z ≠ 0) :
    ∃ m m', correct pr f zs (ofComps cs) = .ok m ∧ correct pr f zs' (ofComps cs') = .ok m' ∧ SameIntensity m m' := by
  refine ⟨_, _, correct_ofComps pr f cs zs (fun z hz => .inr (hd z hz)), correct_ofComps pr f cs' zs' (fun z hz' => .inr
    (by rw [← denom_sameI h]; exact hd z (hz.symm.subset hz'))), ?_⟩
  rw [sameIntensity_iff]
  refine ⟨_, _, rfl, rfl, SameI.append ?_ (h.map (fun _ _ => pr.probMiss) fun v p => (v, p))⟩
  refine SameI.trans (SameI.flatMap (F' := fun z => cs'.map (corComp pr f (denom pr f cs' z) z)) (fun z => ?_) zs)
    (SameI.of_perm (hz.flatMap_right _))
  have := h.map (fun v p => (f.fcor z v p).2.1 * pr.probDetection / denom pr f cs z) fun v p =>
    ((f.fcor z v p).1, (f.fcor z v p).2.2)
  rw [← denom_sameI h]
  intro g
  have h2 := this g
  simp only [List.map_map, Function.comp_def] at h2
  simp only [List.map_map, Function.comp_def, corComp, rawW]
  convert h2 using 3
  · funext c; ring
  · funext c; ring

/-- **C127.** Two PHD filters whose mixtures are the same intensity, and that get the same inputs (`SameInput`: the same
measurements in any order, births of the same total intensity), are the same intensity after any number of predictions
and corrections; none of these calls fails. -/
theorem C127_intensity {env : Env K V P Z} {pr : Params K} (hpr : OkParams pr) (hκ : 0 < clutter pr)
    (ops ops' : List (Op K V P Z)) (hops : ∀ o ∈ ops, OkOp o) (hsame : List.Forall₂ SameInput ops ops')
    (s t : PState K V P) (hw : ∀ w ∈ s.mix.ws, 0 ≤ w) (h : SameIntensity s.mix t.mix) :
    ∃ s' t', run env pr s ops = .ok s' ∧ run env pr t ops' = .ok t' ∧ SameIntensity s'.mix t'.mix := by
  induction hsame generalizing s t with
  | nil => exact ⟨s, t, rfl, rfl, h⟩
  | @cons o o' os os' hoo _ ih =>
    have ho := hops o List.mem_cons_self
    obtain ⟨cs, cs', h1, h2, hI⟩ := (sameIntensity_iff _ _).1 h
    have hg : Good s.mix := ⟨h.1, hw⟩
    cases hoo with
    | @predict f b b' ha ha' hb =>
      obtain ⟨bs, rfl⟩ := births_comps b fun x hx => by
        obtain ⟨y, rfl⟩ := (aligned_iff x).1 (ha x hx)
        exact ⟨y, rfl⟩
      obtain ⟨bs', rfl⟩ := births_comps b' fun x hx => by
        obtain ⟨y, rfl⟩ := (aligned_iff x).1 (ha' x hx)
        exact ⟨y, rfl⟩
      rw [unionMix_ofComps, unionMix_ofComps] at hb
      have hb' : SameI bs.flatten bs'.flatten := fun g => by
        rw [← integ_ofComps, ← integ_ofComps]
        exact hb.2.2 g
      have hg' := good_predict hpr f ho hg
      have hs := predict_sameI (pr := pr) (f := f) hI hb'
      rw [← h1, ← h2] at hs
      obtain ⟨s', t', k1, k2, k3⟩ := ih (fun x hx => hops x (List.mem_cons_of_mem _ hx))
        { s with mix := predict pr f (bs.map ofComps) s.mix } { t with mix := predict pr f (bs'.map ofComps) t.mix } hg'.2 hs
      exact ⟨s', t', k1, k2, k3⟩
    | @correct f zs zs' hz =>
      have hpos : ∀ z ∈ zs, denom pr f cs z ≠ 0 := by
        intro z _
        refine ne_of_gt (add_pos_of_pos_of_nonneg hκ (List.sum_nonneg fun x hx => ?_))
        obtain ⟨c, hc, rfl⟩ := List.mem_map.1 hx
        refine mul_nonneg (ho z _ _) (mul_nonneg hpr.pd (hw _ ?_))
        rw [h1]
        exact List.mem_map.2 ⟨c, hc, rfl⟩
      obtain ⟨m, m', k1, k2, k3⟩ := correct_sameI (pr := pr) hI hz hpos
      rw [← h1] at k1
      rw [← h2] at k2
      have hg' : Good m := by
        rcases good_correct hpr f ho zs hg with ⟨m2, e, g⟩ | e
        · rw [k1] at e
          obtain rfl := Except.ok.inj e
          exact g
        · rw [k1] at e
          exact (nomatch e)
      obtain ⟨s', t', j1, j2, j3⟩ := ih (fun x hx => hops x (List.mem_cons_of_mem _ hx))
        { s with mix := m } { t with mix := m' } hg'.2 k3
      exact ⟨s', t', by simp only [run, step, k1]; exact j1, by simp only [run, step, k2]; exact j2, j3⟩

/-- Reports do depend on how the intensity is written: half a component twice is not reported (`round (1/2) = 0`), a whole
one is; and pruning removes light halves but not the whole. -/
theorem C127_cleanup_differs : SameIntensity (⟨[1], [5], [1]⟩ : Mix ℚ ℚ ℚ) ⟨[1 / 2, 1 / 2], [5, 5], [1, 1]⟩ ∧
    extract exParams (⟨[1], [5], [1]⟩ : Mix ℚ ℚ ℚ) = .ok ([5], [1]) ∧
    extract exParams (⟨[1 / 2, 1 / 2], [5, 5], [1, 1]⟩ : Mix ℚ ℚ ℚ) = .ok ([], []) ∧
    (prune { exParams with pruneThreshold := 3 / 4 } (⟨[1], [5], [1]⟩ : Mix ℚ ℚ ℚ)).map (fun m => m.ws) = .ok [1] ∧
    (prune { exParams with pruneThreshold := 3 / 4 } (⟨[1 / 2, 1 / 2], [5, 5], [1, 1]⟩ : Mix ℚ ℚ ℚ)).map
      (fun m => m.ws) = .ok [] := by
  refine ⟨⟨by simp [Aligned], by simp [Aligned], fun g => ?_⟩, by decide +kernel, by decide +kernel, by decide +kernel, by decide +kernel⟩
  simp only [integ, List.zip_cons_cons, List.zip_nil_left, List.map_cons, List.map_nil, List.sum_cons, List.sum_nil]
  ring

/-! ### The CPHD filter -/

section cphd

open Gasur.Cphd

variable {V P Z : Type*} [AddCommGroup V] [Module ℝ V] [AddCommGroup P] [Module ℝ P]

theorem xi_sameI {pdc : ℝ} {f : Filt ℝ V P Z} {cs cs' : List (ℝ × V × P)} (h : SameI cs cs') (z : Z) :
    xi pdc f cs z = xi pdc f cs' z := by
  unfold xi
  rw [h fun v p => (f.fcor z v p).2.1]

theorem correctComps_sameI (esf : List ℝ → List ℝ) (pr : Params ℝ) (f : Filt ℝ V P Z) (zs : List Z)
    {cs cs' : List (ℝ × V × P)} (h : SameI cs cs') (card : List ℝ) :
    (∃ e e', correctComps esf pr f zs cs card = .error e ∧ correctComps esf pr f zs cs' card = .error e') ∨
    ∃ (ds ds' : List (ℝ × V × P)) (c : List ℝ), correctComps esf pr f zs cs card = .ok (ds, c) ∧
      correctComps esf pr f zs cs' card = .ok (ds', c) ∧ SameI ds ds' := by
  have hxi : xi (pr.probDetection / pr.clutterDen) f cs = xi (pr.probDetection / pr.clutterDen) f cs' :=
    funext fun z => xi_sameI h z
  have hW : (cs.map fun c => c.1).sum = (cs'.map fun c => c.1).sum := by
    have := h fun _ _ => 1
    simpa only [mul_one] using this
  by_cases hpos : pr.clutterRate ≤ 0 ∨ probDeath pr ≤ 0 ∨ (cs.map fun c => c.1).sum ≤ 0
  · left
    have aux : ∀ ds : List (ℝ × V × P), (pr.clutterRate ≤ 0 ∨ probDeath pr ≤ 0 ∨ (ds.map fun c => c.1).sum ≤ 0) →
        ∃ e, correctComps esf pr f zs ds card = .error e := by
      intro ds hds
      unfold correctComps
      split
      · exact ⟨_, rfl⟩
      · split
        · exact ⟨_, rfl⟩
        · dsimp only
          rw [if_pos hds]
          exact ⟨_, rfl⟩
    obtain ⟨e, he⟩ := aux cs hpos
    obtain ⟨e', he'⟩ := aux cs' (by rwa [← hW])
    exact ⟨e, e', he, he'⟩
  have hne : ∀ ds : List (ℝ × V × P), ¬ (ds.map fun c => c.1).sum ≤ 0 → ds ≠ [] := by
    rintro ds hds rfl
    exact hds (by simp)
  unfold correctComps
  rw [if_neg (hne cs (by tauto)), if_neg (hne cs' (by rw [← hW]; tauto))]
  by_cases hc : pr.clutterDen = 0
  · rw [if_pos hc, if_pos hc]
    exact .inl ⟨_, _, rfl, rfl⟩
  rw [if_neg hc, if_neg hc]
  dsimp only
  rw [← hW, ← hxi, if_neg hpos, if_neg hpos]
  by_cases hd : dotCard (ups0 pr.clutterRate (probDeath pr) (cs.map fun c => c.1).sum zs.length
      (esf (zs.map (xi (pr.probDetection / pr.clutterDen) f cs)))) card = 0
  · rw [if_pos hd, if_pos hd]
    exact .inl ⟨_, _, rfl, rfl⟩
  rw [if_neg hd, if_neg hd]
  cases normalize ((List.range card.length).map fun n => ups0 pr.clutterRate (probDeath pr) (cs.map fun c => c.1).sum zs.length
      (esf (zs.map (xi (pr.probDetection / pr.clutterDen) f cs))) n * at' card n) with
  | error e => exact .inl ⟨e, e, rfl, rfl⟩
  | ok c =>
    refine .inr ⟨_, _, c, rfl, rfl, SameI.append ?_ (SameI.flatMap (fun ze => ?_) _)⟩
    · unfold missWeights
      rw [List.zipWith_map_left, List.zipWith_self, List.zipWith_map_left, List.zipWith_self]
      exact h.map (fun _ _ => _) fun v p => (v, p)
    · unfold detComps
      intro g
      have := h fun v p => dotCard (ups1 pr.clutterRate (probDeath pr) (cs.map fun c => c.1).sum (zs.length - 1)
        (esf ((zs.map (xi (pr.probDetection / pr.clutterDen) f cs)).eraseIdx ze.2))) card /
        dotCard (ups0 pr.clutterRate (probDeath pr) (cs.map fun c => c.1).sum zs.length
          (esf (zs.map (xi (pr.probDetection / pr.clutterDen) f cs)))) card *
        (pr.probDetection * (f.fcor ze.1 v p).2.1 / pr.clutterDen) *
        g (f.fcor ze.1 v p).1 (f.fcor (zs.getLast?.getD ze.1) v p).2.2
      simp only [List.map_map, Function.comp_def]
      convert this using 3
      · funext c; ring
      · funext c; ring

/-- The filters agree: the same intensity, cardinality distribution and cardinality history. -/
def CSameI (s t : CState V P) : Prop := SameIntensity s.mix t.mix ∧ s.card = t.card ∧ s.hist = t.hist

/-- Prediction or correction. -/
def Recursion : Cphd.Op V P Z → Prop
  | .predict _ b => ∀ x ∈ b, Aligned x
  | .correct _ _ => True
  | _ => False

/-- **C127 for the CPHD filter.** Two CPHD filters that are the same intensity and have the same cardinality distribution
either both fail in the same calls of predictions and corrections, or again agree in intensity, cardinality distribution
and cardinality history. -/
theorem C127_cphd_intensity (env : Env ℝ V P Z) (esf : List ℝ → List ℝ) (pr : Params ℝ)
    (ops : List (Cphd.Op V P Z)) (hops : ∀ o ∈ ops, Recursion o) (s t : CState V P) (h : CSameI s t) :
    (∃ e e', Cphd.run env esf pr s ops = .error e ∧ Cphd.run env esf pr t ops = .error e') ∨
    ∃ s' t', Cphd.run env esf pr s ops = .ok s' ∧ Cphd.run env esf pr t ops = .ok t' ∧ CSameI s' t' := by
  induction ops generalizing s t with
  | nil => exact .inr ⟨s, t, rfl, rfl, h⟩
  | cons o os ih =>
    have ho := hops o List.mem_cons_self
    obtain ⟨hm, hc, hh⟩ := h
    obtain ⟨cs, cs', h1, h2, hI⟩ := (sameIntensity_iff _ _).1 hm
    have key : (∃ e e', Cphd.step env esf pr s o = .error e ∧ Cphd.step env esf pr t o = .error e') ∨
        ∃ s' t', Cphd.step env esf pr s o = .ok s' ∧ Cphd.step env esf pr t o = .ok t' ∧ CSameI s' t' := by
      cases o with
      | cleanup => exact ho.elim
      | extract => exact ho.elim
      | setMax n => exact ho.elim
      | predict f b =>
        simp only [Cphd.step, Cphd.predict, maxCard, ← hc]
        cases firstWeights b with
        | error e => exact .inl ⟨e, e, rfl, rfl⟩
        | ok l =>
          dsimp only
          cases cardPredict (s.card.length - 1) pr.probSurvive (probDeath pr) l.sum s.card with
          | error e => exact .inl ⟨e, e, rfl, rfl⟩
          | ok c =>
            refine .inr ⟨_, _, rfl, rfl, ?_, rfl, hh⟩
            obtain ⟨bs, rfl⟩ := births_comps b fun x hx => by
              obtain ⟨y, rfl⟩ := (aligned_iff x).1 (ho x hx)
              exact ⟨y, rfl⟩
            dsimp only
            rw [h1, h2]
            exact predict_sameI hI fun _ => rfl
      | correct f zs =>
        have a1 : comps s.mix = cs := by rw [h1]; exact comps_ofComps cs
        have a2 : comps t.mix = cs' := by rw [h2]; exact comps_ofComps cs'
        simp only [Cphd.step, Cphd.correct, if_pos hm.1, if_pos hm.2.1, a1, a2]
        rw [if_pos (show s.mix.ws.length = s.mix.ms.length ∧ s.mix.ms.length = s.mix.ps.length from hm.1),
          if_pos (show t.mix.ws.length = t.mix.ms.length ∧ t.mix.ms.length = t.mix.ps.length from hm.2.1), ← hc, ← hh]
        rcases correctComps_sameI esf pr f zs hI s.card with ⟨e, e', k1, k2⟩ | ⟨ds, ds', c, k1, k2, k3⟩
        · rw [k1, k2]
          exact .inl ⟨_, _, rfl, rfl⟩
        · rw [k1, k2]
          exact .inr ⟨_, _, rfl, rfl, (sameIntensity_iff _ _).2 ⟨ds, ds', rfl, rfl, k3⟩, rfl, rfl⟩
    rcases key with ⟨e, e', k1, k2⟩ | ⟨s1, t1, k1, k2, k3⟩
    · simp only [Cphd.run, k1, k2]
      exact .inl ⟨e, e', rfl, rfl⟩
    · simp only [Cphd.run, k1, k2]
      exact ih (fun x hx => hops x (List.mem_cons_of_mem _ hx)) s1 t1 k3

/-- Non-vacuity: a split component; the correction succeeds for both. -/
example : CSameI exCS { exCS with mix := ⟨[1 / 4, 1 / 4], [0, 0], [1, 1]⟩ } ∧
    ∃ s t, Cphd.correct exEsf exCp exCF [3] exCS = .ok s ∧
      Cphd.correct exEsf exCp exCF [3] { exCS with mix := ⟨[1 / 4, 1 / 4], [0, 0], [1, 1]⟩ } = .ok t ∧ CSameI s t := by
  have h : CSameI exCS { exCS with mix := ⟨[1 / 4, 1 / 4], [0, 0], [1, 1]⟩ } := by
    refine ⟨⟨by simp [Aligned, exCS], by simp [Aligned], fun g => ?_⟩, rfl, rfl⟩
    simp only [exCS, integ, List.zip_cons_cons, List.zip_nil_left, List.map_cons, List.map_nil, List.sum_cons, List.sum_nil]
    ring
  refine ⟨h, ?_⟩
  obtain ⟨s, hs⟩ := C36_correct_total exEsf_ok exCp_ok exCF (fun _ _ _ => zero_le_one) [3] exCS 1 exCS_dist
    (by simp [Aligned, exCS]) (by simp [exCS]) (by simp [exCS])
  have hr : Cphd.run ⟨fun _ _ => 0, fun _ => []⟩ exEsf exCp exCS [.correct exCF [3]] = .ok s := by
    simp only [Cphd.run, Cphd.step, hs]
  rcases C127_cphd_intensity ⟨fun _ _ => 0, fun _ => []⟩ exEsf exCp [.correct exCF [3]] (by simp [Recursion]) _ _ h with
    ⟨e, e', k1, _⟩ | ⟨s', t', k1, k2, k3⟩
  · rw [hr] at k1
    exact (nomatch k1)
  · rw [hr] at k1
    obtain rfl := Except.ok.inj k1
    refine ⟨s, t', hs, ?_, k3⟩
    obtain ⟨t1, j1, j2⟩ := crun_cons _ exEsf exCp _ (.correct exCF [3]) [] k2
    obtain rfl := Except.ok.inj j2
    exact j1

end cphd

/-- Non-vacuity: one birth against the same birth in two halves, the measurements in two orders; a later prediction and
correction. The two results are different mixtures of the same intensity. -/
example : List.Forall₂ SameInput
      ([.predict exFilt [⟨[1], [5], [1]⟩], .correct exFilt [1, 7], .predict exFilt []] : List (Op ℚ ℚ ℚ ℚ))
      [.predict exFilt [⟨[1 / 2], [5], [1]⟩, ⟨[1 / 2], [5], [1]⟩], .correct exFilt [7, 1], .predict exFilt []] ∧
    (run exEnv exParams init [.predict exFilt [⟨[1], [5], [1]⟩], .correct exFilt [1, 7],
      .predict exFilt []]).toOption.map (fun s => s.mix.ws.length) = some 3 ∧
    (run exEnv exParams init [.predict exFilt [⟨[1 / 2], [5], [1]⟩, ⟨[1 / 2], [5], [1]⟩], .correct exFilt [7, 1],
      .predict exFilt []]).toOption.map (fun s => s.mix.ws.length) = some 6 := by
  refine ⟨?_, by decide +kernel, by decide +kernel⟩
  refine .cons (.predict _ (by simp [Aligned]) (by simp [Aligned]) ⟨by simp [Aligned, unionMix], by simp [Aligned, unionMix],
    fun g => ?_⟩) (.cons (.correct _ (List.Perm.swap _ _ _)) (.cons (.predict _ (by simp) (by simp)
    ⟨by simp [Aligned, unionMix], by simp [Aligned, unionMix], fun g => rfl⟩) .nil))
  simp only [unionMix, List.flatMap_cons, List.flatMap_nil, List.append_nil, List.singleton_append, integ,
    List.zip_cons_cons, List.zip_nil_left, List.map_cons, List.map_nil, List.sum_cons, List.sum_nil]
  ring

end Gasur.Props
