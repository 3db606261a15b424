import Verif.Props.CphdHistory
import Verif.Props.PhdOrder

/-!
# Property C114 for the cardinalized PHD filter: the order of measurements and birth terms
-/

set_option linter.unusedSectionVars false

namespace Gasur.Props

open Gasur.Phd Gasur.Spec Gasur.Cphd

variable {V P Z : Type*} [AddCommGroup V] [Module ℝ V] [AddCommGroup P] [Module ℝ P]

/-- Elementary symmetric functions do not depend on the order. -/
theorem esf_perm {esf : List ℝ → List ℝ} (he : IsEsf esf) {l l' : List ℝ} (h : l.Perm l') : esf l = esf l' := by
  obtain ⟨a1, a2⟩ := he l
  obtain ⟨b1, b2⟩ := he l'
  have hl := h.length_eq
  apply List.ext_getElem?
  intro j
  by_cases hj : j ≤ l.length
  · rw [a2 j hj, b2 j (by omega), show (l : Multiset ℝ) = l' from Multiset.coe_eq_coe.2 h]
  · rw [List.getElem?_eq_none (by omega), List.getElem?_eq_none (by omega)]

theorem xi_perm {pdc : ℝ} {f : Filt ℝ V P Z} {cs cs' : List (ℝ × V × P)} (h : cs.Perm cs') : xi pdc f cs = xi pdc f cs' := by
  funext z
  unfold xi
  rw [(h.map _).sum_eq]

/-- A sum over positions that uses the other elements only up to order. -/
theorem flatMap_erase_perm {β : Type*} (x : Z → ℝ) (G : Z → List ℝ → List β)
    (hG : ∀ z l l', l.Perm l' → G z l = G z l') {zs zs' : List Z} (h : zs.Perm zs') :
    (zs.zipIdx.flatMap fun ze => G ze.1 ((zs.map x).eraseIdx ze.2)).Perm
      (zs'.zipIdx.flatMap fun ze => G ze.1 ((zs'.map x).eraseIdx ze.2)) := by
  classical
  have aux : ∀ ws : List Z, (ws.zipIdx.flatMap fun ze => G ze.1 ((ws.map x).eraseIdx ze.2)) =
      ws.flatMap fun z => G z ((ws.map x).erase (x z)) := by
    intro ws
    have e : ws.flatMap (fun z => G z ((ws.map x).erase (x z))) =
        (ws.zipIdx.map Prod.fst).flatMap fun z => G z ((ws.map x).erase (x z)) := by rw [List.zipIdx_map_fst]
    rw [e, List.flatMap_map]
    apply List.flatMap_congr
    rintro ⟨z, i⟩ hz
    apply hG
    have hi := List.mem_zipIdx_iff_getElem?.1 hz
    have hi' : (ws.map x)[i]? = some (x z) := by rw [List.getElem?_map, hi]; rfl
    obtain ⟨hlt, hget⟩ := List.getElem?_eq_some_iff.1 hi'
    have h1 : (x z :: (ws.map x).eraseIdx i).Perm (ws.map x) := by
      have := List.getElem_cons_eraseIdx_perm hlt
      rwa [hget] at this
    have h2 : (ws.map x).Perm (x z :: (ws.map x).erase (x z)) := List.perm_cons_erase (List.mem_of_getElem? hi')
    exact (h1.trans h2).cons_inv
  rw [aux, aux]
  refine (h.flatMap_right _).trans ?_
  rw [List.flatMap_congr fun z _ => hG z _ _ ((h.map x).erase (x z))]

/-- The correction for permuted measurements and components. -/
theorem correctComps_same {esf : List ℝ → List ℝ} (he : IsEsf esf) (pr : Params ℝ) (f : Filt ℝ V P Z)
    (hcov : ∀ z z' v p, (f.fcor z v p).2.2 = (f.fcor z' v p).2.2) {zs zs' : List Z} (hz : zs.Perm zs')
    {cs cs' : List (ℝ × V × P)} (hp : cs.Perm cs') (card : List ℝ) :
    (∃ e, correctComps esf pr f zs cs card = .error e ∧ correctComps esf pr f zs' cs' card = .error e) ∨
    ∃ (ds ds' : List (ℝ × V × P)) (c : List ℝ), correctComps esf pr f zs cs card = .ok (ds, c) ∧
      correctComps esf pr f zs' cs' card = .ok (ds', c) ∧ ds.Perm ds' := by
  unfold correctComps
  have hxi : (zs.map (xi (pr.probDetection / pr.clutterDen) f cs)).Perm
      (zs'.map (xi (pr.probDetection / pr.clutterDen) f cs')) := by
    rw [xi_perm hp]
    exact hz.map _
  have hW : (cs.map fun c => c.1).sum = (cs'.map fun c => c.1).sum := (hp.map _).sum_eq
  have hesf := esf_perm he hxi
  by_cases hn : cs = []
  · have hn' : cs' = [] := by subst hn; exact hp.nil_eq.symm
    rw [if_pos hn, if_pos hn']
    exact .inl ⟨_, rfl, rfl⟩
  have hn' : cs' ≠ [] := by rintro rfl; exact hn hp.eq_nil
  rw [if_neg hn, if_neg hn']
  by_cases hc : pr.clutterDen = 0
  · rw [if_pos hc, if_pos hc]
    exact .inl ⟨_, rfl, rfl⟩
  rw [if_neg hc, if_neg hc]
  dsimp only
  rw [← hW, ← hesf, ← hz.length_eq]
  by_cases hpos : pr.clutterRate ≤ 0 ∨ probDeath pr ≤ 0 ∨ (cs.map fun c => c.1).sum ≤ 0
  · rw [if_pos hpos, if_pos hpos]
    exact .inl ⟨_, rfl, rfl⟩
  rw [if_neg hpos, if_neg hpos]
  by_cases hd : dotCard (ups0 pr.clutterRate (probDeath pr) (cs.map fun c => c.1).sum zs.length
      (esf (zs.map (xi (pr.probDetection / pr.clutterDen) f cs)))) card = 0
  · rw [if_pos hd, if_pos hd]
    exact .inl ⟨_, rfl, rfl⟩
  rw [if_neg hd, if_neg hd]
  cases normalize ((List.range card.length).map fun n => ups0 pr.clutterRate (probDeath pr) (cs.map fun c => c.1).sum zs.length
      (esf (zs.map (xi (pr.probDetection / pr.clutterDen) f cs))) n * at' card n) with
  | error e => exact .inl ⟨e, rfl, rfl⟩
  | ok c =>
    refine .inr ⟨_, _, c, rfl, rfl, List.Perm.append ?_ ?_⟩
    · unfold missWeights
      rw [List.zipWith_map_left, List.zipWith_self, List.zipWith_map_left, List.zipWith_self]
      exact hp.map _
    · set W := (cs.map fun c => c.1).sum
      set d0 := dotCard (ups0 pr.clutterRate (probDeath pr) W zs.length
        (esf (zs.map (xi (pr.probDetection / pr.clutterDen) f cs)))) card
      have hdet : ∀ (r : ℝ) (zl zl' z : Z), (detComps pr.probDetection pr.clutterDen r f zl z cs).Perm
          (detComps pr.probDetection pr.clutterDen r f zl' z cs') := by
        intro r zl zl' z
        unfold detComps
        have e : (fun c : ℝ × V × P => (r * (pr.probDetection * (f.fcor z c.2.1 c.2.2).2.1 / pr.clutterDen * c.1),
            (f.fcor z c.2.1 c.2.2).1, (f.fcor zl c.2.1 c.2.2).2.2)) = fun c => (r * (pr.probDetection *
            (f.fcor z c.2.1 c.2.2).2.1 / pr.clutterDen * c.1), (f.fcor z c.2.1 c.2.2).1, (f.fcor zl' c.2.1 c.2.2).2.2) := by
          funext c
          rw [hcov zl zl']
        rw [e]
        exact hp.map _
      have hfm := flatMap_erase_perm (xi (pr.probDetection / pr.clutterDen) f cs) (fun z l =>
        detComps pr.probDetection pr.clutterDen (dotCard (ups1 pr.clutterRate (probDeath pr) W (zs.length - 1) (esf l)) card / d0)
          f z z cs) (fun z l l' h => by rw [esf_perm he h]) hz
      refine (List.Perm.flatMap_left _ fun ze _ => ?_).trans (hfm.trans (List.Perm.flatMap_left _ fun ze _ => ?_))
      · unfold detComps
        rw [List.map_congr_left (g := fun c => _)]
        intro c _
        rw [hcov _ ze.1]
      · rw [← xi_perm hp]
        exact hdet _ _ _ _

/-! ### Extraction -/

theorem mode_unique {c : List ℝ} {n m : ℕ} (h : IsMode c n) (h' : IsMode c m) : n = m := by
  obtain ⟨p, a1, a2, a3⟩ := h
  obtain ⟨q, b1, b2, b3⟩ := h'
  have e : p = q := le_antisymm (b2 p (List.mem_of_getElem? a1)) (a2 q (List.mem_of_getElem? b1))
  subst e
  rcases lt_trichotomy n m with h | h | h
  · exact absurd (b3 n p h a1) (lt_irrefl _)
  · exact h
  · exact absurd (a3 m p h b1) (lt_irrefl _)

/-- If no two weights are equal, there is only one report. -/
theorem report_unique {card : List ℝ} {cs cs' : List (ℝ × V × P)} (hp : cs.Perm cs') (hn : (cs.map fun c => c.1).Nodup)
    {m m' : List V} {p p' : List P} {a a' : List ℤ} (h : IsReport card cs m p a) (h' : IsReport card cs' m' p' a') :
    m = m' ∧ p = p' ∧ a = a' := by
  obtain ⟨srt, k, n, x1, x2, x3, x4, rfl, rfl, rfl, x8, x9, x10⟩ := h
  obtain ⟨srt', k', n', y1, y2, y3, y4, rfl, rfl, rfl, y8, y9, y10⟩ := h'
  obtain rfl := mode_unique x3 y3
  have hs : srt = srt' := by
    have hns : (srt.map fun c => c.1).Nodup := (x1.map _).nodup_iff.2 hn
    refine (x1.trans (hp.trans y1.symm)).eq_of_pairwise (le := fun a b => b.1 ≤ a.1) ?_ x2 y2
    intro a b ha hb h1 h2
    exact List.inj_on_of_nodup_map hns ha ((x1.trans (hp.trans y1.symm)).symm.subset hb) (le_antisymm h2 h1)
  subst hs
  have aux : ∀ k k' : ℕ, k' ≤ srt.length → (∀ c ∈ srt.take k', 1 ≤ pyRound c.1) →
      (∀ i < k', ((srt.take i).map fun c => pyRound c.1).sum < n) →
      (k = srt.length ∨ n ≤ ((srt.take k).map fun c => pyRound c.1).sum ∨ ∃ c, srt[k]? = some c ∧ pyRound c.1 ≤ 0) → ¬ k < k' := by
    intro k k' h1 h2 h3 h4 hlt
    rcases h4 with h | h | ⟨c, hc, hr⟩
    · omega
    · have := h3 k hlt
      omega
    · have hm : c ∈ srt.take k' := by
        refine List.mem_of_getElem? (i := k) ?_
        rw [List.getElem?_take_of_lt hlt]
        exact hc
      have := h2 c hm
      omega
  have hk : k = k' := by
    have a1 := aux k k' y4 y8 y9 x10
    have a2 := aux k' k x4 x8 x9 y10
    omega
  subst hk
  exact ⟨rfl, rfl, rfl⟩

/-! ### Runs -/

/-- The same call, perhaps with the birth terms or the measurements in a different order. -/
def CSameOp : Cphd.Op V P Z → Cphd.Op V P Z → Prop
  | .predict f b, .predict f' b' => f = f' ∧ b.Perm b'
  | .correct f z, .correct f' z' => f = f' ∧ z.Perm z'
  | .cleanup bp bm bc be, .cleanup bp' bm' bc' be' => bp = bp' ∧ bm = bm' ∧ bc = bc' ∧ be = be'
  | .extract, .extract => True
  | .setMax n, .setMax n' => n = n'
  | _, _ => False

/-- The call merges, caps or extracts. -/
def CReduces : Cphd.Op V P Z → Bool
  | .cleanup _ bm bc be => bm || bc || be
  | .extract => true
  | _ => false

/-- The covariance that the inner filter of a correction computes does not depend on the measurement (as for a Kalman
filter). -/
def CovFree : Cphd.Op V P Z → Prop
  | .correct f _ => ∀ z z' v p, (f.fcor z v p).2.2 = (f.fcor z' v p).2.2
  | _ => True

/-- Same components up to order; same cardinality distribution, histories and numbers of agents. -/
def CSame (s t : CState V P) : Prop :=
  SameMix s.mix t.mix ∧ s.card = t.card ∧ s.hist = t.hist ∧ s.states = t.states ∧ s.agents = t.agents

/-- Both fail in the same way, or both succeed with the same state. -/
def CSameRes (r r' : Except CErr (CState V P)) : Prop :=
  (∃ e, r = .error e ∧ r' = .error e) ∨ ∃ s t : CState V P, r = .ok s ∧ r' = .ok t ∧ CSame s t

theorem firstWeights_same {b b' : List (Mix ℝ V P)} (h : b.Perm b') :
    (firstWeights b = .error .index ∧ firstWeights b' = .error .index) ∨
    ∃ l l' : List ℝ, firstWeights b = .ok l ∧ firstWeights b' = .ok l' ∧ l.Perm l' := by
  have aux : ∀ b : List (Mix ℝ V P), ((∃ x ∈ b, x.ws = []) → firstWeights b = .error .index) ∧
      ((∀ x ∈ b, x.ws ≠ []) → firstWeights b = .ok (b.map fun x => x.ws.headD 0)) := by
    intro b
    induction b with
    | nil => exact ⟨fun h => by simp at h, fun _ => rfl⟩
    | cons a b ih =>
      constructor
      · rintro ⟨x, hx, h0⟩
        unfold firstWeights
        cases hw : a.ws with
        | nil => rfl
        | cons w ws =>
          dsimp only
          rcases List.mem_cons.1 hx with rfl | hx
          · rw [hw] at h0; exact (nomatch h0)
          · rw [ih.1 ⟨x, hx, h0⟩]
      · intro hne
        unfold firstWeights
        cases hw : a.ws with
        | nil => exact absurd hw (hne a List.mem_cons_self)
        | cons w ws =>
          dsimp only
          rw [ih.2 fun x hx => hne x (List.mem_cons_of_mem _ hx)]
          simp [hw]
  by_cases hx : ∃ x ∈ b, x.ws = []
  · left
    refine ⟨(aux b).1 hx, (aux b').1 ?_⟩
    obtain ⟨x, h1, h2⟩ := hx
    exact ⟨x, h.subset h1, h2⟩
  · right
    push Not at hx
    exact ⟨_, _, (aux b).2 hx, (aux b').2 fun x hx' => hx x (h.symm.subset hx'), h.map _⟩

theorem cextract_same {argsort : List ℝ → List ℕ} (ha : ∀ ws, IsArgsort ws (argsort ws)) {s t : CState V P} (hs : CInv s)
    (h : CSame s t) (hn : s.mix.ws.Nodup) :
    ∃ s' t' : CState V P, Cphd.extract argsort s = .ok s' ∧ Cphd.extract argsort t = .ok t' ∧ CSame s' t' := by
  obtain ⟨⟨cs, cs', h1, h2, hp⟩, hc, hh, hst, hag⟩ := h
  have hne : s.card ≠ [] := by
    intro h0
    have := hs.1.length
    rw [h0] at this
    simp at this
  obtain ⟨srt, k, n, s1, e1, p1, p2, p3, p4, p5, p6, p7, p8, p9⟩ := C65_extract ha cs s h1 hne
  obtain ⟨srt', k', n', t1, e1', q1, q2, q3, q4, q5, q6, q7, q8, q9⟩ := C65_extract ha cs' t h2 (by rw [← hc]; exact hne)
  have hn' : (cs.map fun c => c.1).Nodup := by
    rw [h1] at hn
    exact hn
  rw [← hc] at q3
  have r : IsReport s.card cs ((srt.take k).map fun c => c.2.1) ((srt.take k).map fun c => c.2.2) s1.agents :=
    ⟨srt, k, n, p1, p2, p3, p4, rfl, rfl, p6, p7, p8, p9⟩
  have r' : IsReport s.card cs' ((srt'.take k').map fun c => c.2.1) ((srt'.take k').map fun c => c.2.2) t1.agents :=
    ⟨srt', k', n', q1, q2, q3, q4, rfl, rfl, q6, q7, q8, q9⟩
  obtain ⟨u1, u2, u3⟩ := report_unique hp hn' r r'
  obtain ⟨f1, f2⟩ := extract_frame e1
  obtain ⟨g1, g2⟩ := extract_frame e1'
  have hist : ∀ {s s' : CState V P}, Cphd.extract argsort s = .ok s' → s'.hist = s.hist := by
    intro s s' h
    unfold Cphd.extract at h
    split at h
    · exact (nomatch h)
    · obtain rfl := Except.ok.inj h
      rfl
  refine ⟨s1, t1, e1, e1', ⟨cs, cs', f1.trans h1, g1.trans h2, hp⟩, by rw [f2, g2, hc], by rw [hist e1, hist e1', hh], ?_, u3⟩
  rw [p5, q5, hst, u1, u2]

/-- Distinct weights stay distinct when the mixture is capped. -/
theorem cap_nodup {argsort : List ℝ → List ℕ} (ha : ∀ ws, IsArgsort ws (argsort ws)) (pr : Params ℝ)
    {cs : List (ℝ × V × P)} (hw : ∀ c ∈ cs, 0 ≤ c.1) (hn : (cs.map fun c => c.1).Nodup) {m : Mix ℝ V P}
    (h : cap argsort pr (ofComps cs) = .ok m) : m.ws.Nodup := by
  by_cases hgt : pr.maxGauss < cs.length
  swap
  · unfold cap at h
    rw [if_neg (by simpa [ofComps] using hgt)] at h
    obtain rfl := Except.ok.inj h
    exact hn
  by_cases h0 : pr.maxGauss = 0
  · rcases cap_zero (argsort := argsort) pr cs h0 with h' | h'
    · rw [h'] at h
      obtain rfl := Except.ok.inj h
      exact hn
    · rw [h'] at h
      exact (nomatch h)
  obtain ⟨S, _, _, _, _, h5⟩ := cap_ofComps pr cs (ha _) hgt (Nat.pos_of_ne_zero h0)
  rw [h5] at h
  split at h
  · exact (nomatch h)
  rename_i hk
  obtain rfl := Except.ok.inj h
  have hsub := keep_sublist S cs
  have hkw : ∀ c ∈ keep S cs, 0 ≤ c.1 := fun c hc => hw c (hsub.subset hc)
  have hpos : 0 < mass (keep S cs) := by
    refine lt_of_le_of_ne ?_ (Ne.symm hk)
    refine List.sum_nonneg fun x hx => ?_
    obtain ⟨c, hc, rfl⟩ := List.mem_map.1 hx
    exact hkw c hc
  have hle : mass (keep S cs) ≤ mass cs :=
    (hsub.map _).sum_le_sum fun x hx => by
      obtain ⟨c, hc, rfl⟩ := List.mem_map.1 hx
      exact hw c hc
  have hr : mass cs / mass (keep S cs) ≠ 0 := (div_pos (lt_of_lt_of_le hpos hle) hpos).ne'
  show (((keep S cs).map fun c => (c.1 * (mass cs / mass (keep S cs)), c.2)).map fun c => c.1).Nodup
  rw [List.map_map]
  have e : ((fun c : ℝ × V × P => c.1) ∘ fun c : ℝ × V × P => (c.1 * (mass cs / mass (keep S cs)), c.2)) =
      (fun x => x * (mass cs / mass (keep S cs))) ∘ fun c : ℝ × V × P => c.1 := rfl
  rw [e, ← List.map_map]
  exact (hn.sublist (hsub.map _)).map (mul_left_injective₀ hr)

theorem cstep_same {env : Env ℝ V P Z} (henv : OkEnv env) {esf : List ℝ → List ℝ} (he : IsEsf esf) {pr : Params ℝ}
    (hpr : OkC pr) {s t : CState V P} (hs : CInv s) (h : CSame s t) {o o' : Cphd.Op V P Z} (ho : OkCOp o) (hcf : CovFree o)
    (hoo : CSameOp o o') (hdist : CReduces o = true → s.mix.ws.Nodup) :
    CSameRes (Cphd.step env esf pr s o) (Cphd.step env esf pr t o') := by
  have h' := h
  obtain ⟨⟨cs, cs', h1, h2, hp⟩, hc, hh, hst, hag⟩ := h'
  cases o with
  | predict f b =>
    cases o' with
    | predict f' b' =>
      obtain ⟨rfl, hb⟩ := hoo
      unfold Cphd.step Cphd.predict
      dsimp only
      rcases firstWeights_same hb with ⟨g1, g2⟩ | ⟨l, l', g1, g2, g3⟩
      · rw [g1, g2]; exact .inl ⟨_, rfl, rfl⟩
      rw [g1, g2]
      dsimp only
      have e1 : maxCard s = maxCard t := by unfold maxCard; rw [hc]
      rw [← e1, ← g3.sum_eq, ← hc]
      cases cardPredict (maxCard s) pr.probSurvive (probDeath pr) l.sum s.card with
      | error e => exact .inl ⟨e, rfl, rfl⟩
      | ok c =>
        refine .inr ⟨_, _, rfl, rfl, ?_, rfl, hh, hst, hag⟩
        have ho' : OkOp (K := ℝ) (.predict f b : Phd.Op ℝ V P Z) := ho
        rcases step_same (env := env) henv (pr := pr) hpr.ok (s := ⟨s.mix, []⟩) (t := ⟨t.mix, []⟩) hs.2
          ⟨⟨cs, cs', h1, h2, hp⟩, .nil⟩ (o := .predict f b) (o' := .predict f b') ho' ⟨rfl, hb⟩ (fun hr => (nomatch hr)) with
          ⟨k1, _⟩ | ⟨s', t', k1, k2, k3⟩
        · exact (nomatch k1)
        · obtain rfl := Except.ok.inj k1
          obtain rfl := Except.ok.inj k2
          exact k3.1
    | _ => exact hoo.elim
  | correct f z =>
    cases o' with
    | correct f' z' =>
      obtain ⟨rfl, hz⟩ := hoo
      unfold Cphd.step Cphd.correct
      dsimp only
      rw [h1, h2, if_pos (by simp [ofComps]), if_pos (by simp [ofComps]), comps_ofComps, comps_ofComps, ← hc]
      rcases correctComps_same he pr f hcf hz hp s.card with ⟨e, g1, g2⟩ | ⟨ds, ds', c, g1, g2, g3⟩
      · rw [g1, g2]; exact .inl ⟨e, rfl, rfl⟩
      · rw [g1, g2]
        refine .inr ⟨_, _, rfl, rfl, ⟨ds, ds', rfl, rfl, g3⟩, rfl, ?_, hst, hag⟩
        dsimp only
        rw [hh]
    | _ => exact hoo.elim
  | extract =>
    cases o' with
    | extract =>
      obtain ⟨s', t', k1, k2, k3⟩ := cextract_same henv.argsort hs h (hdist rfl)
      exact .inr ⟨s', t', k1, k2, k3⟩
    | _ => exact hoo.elim
  | setMax n =>
    cases o' with
    | setMax n' =>
      obtain rfl : n = n' := hoo
      exact .inr ⟨_, _, rfl, rfl, ⟨cs, cs', h1, h2, hp⟩, rfl, hh, hst, hag⟩
    | _ => exact hoo.elim
  | cleanup bp bm bc be =>
    cases o' with
    | cleanup bp' bm' bc' be' =>
      obtain ⟨rfl, rfl, rfl, rfl⟩ := hoo
      have hw : ∀ c ∈ cs, 0 ≤ c.1 := by
        intro c hc
        exact hs.2.2 c.1 (by rw [h1]; exact List.mem_map.2 ⟨c, hc, rfl⟩)
      obtain ⟨ds, ds', p1, p2, p3, p4⟩ : ∃ ds ds' : List (ℝ × V × P), optStep bp (prune pr) s.mix = .ok (ofComps ds) ∧
          optStep bp (prune pr) t.mix = .ok (ofComps ds') ∧ ds.Perm ds' ∧ ds.Sublist cs := by
        unfold optStep
        cases bp with
        | false => exact ⟨cs, cs', by simp [h1], by simp [h2], hp, List.Sublist.refl _⟩
        | true =>
          obtain ⟨ds, ds', g1, g2, g3, g4⟩ := prune_same pr hp
          exact ⟨ds, ds', by simpa [h1] using g1, by simpa [h2] using g2, g3, g4⟩
      have hws : s.mix.ws = cs.map fun c => c.1 := by rw [h1]; rfl
      have hwd : ∀ c ∈ ds, 0 ≤ c.1 := fun c hc => hw c (p4.subset hc)
      have hnd : (bm || bc || be) = true → (ds.map fun c => c.1).Nodup := by
        intro hr
        have := hdist hr
        rw [hws] at this
        exact this.sublist (p4.map _)
      unfold Cphd.step Cphd.cleanup
      dsimp only
      rw [p1, p2]
      simp only [liftE]
      have fin : ∀ m m' : Mix ℝ V P, Good m → SameMix m m' → (be = true → m.ws.Nodup) → CSameRes
          (if be = true then Cphd.extract env.argsort { s with mix := m } else .ok { s with mix := m })
          (if be = true then Cphd.extract env.argsort { t with mix := m' } else .ok { t with mix := m' }) := by
        intro m m' hg hm hn
        have hsm : CSame { s with mix := m } { t with mix := m' } := ⟨hm, hc, hh, hst, hag⟩
        cases be with
        | false => exact .inr ⟨_, _, rfl, rfl, hsm⟩
        | true =>
          obtain ⟨s', t', k1, k2, k3⟩ := cextract_same henv.argsort (s := { s with mix := m }) ⟨hs.1, hg⟩ hsm (hn rfl)
          exact .inr ⟨s', t', k1, k2, k3⟩
      have fin2 : ∀ m : Mix ℝ V P, Good m → CSameRes
          (if be = true then Cphd.extract env.argsort { s with mix := m } else .ok { s with mix := m })
          (if be = true then Cphd.extract env.argsort { t with mix := m } else .ok { t with mix := m }) := by
        intro m hm
        have e : ({ s with mix := m } : CState V P) = { t with mix := m } := by
          cases s; cases t
          simp only at hc hh hst hag
          rw [hc, hh, hst, hag]
        rw [e]
        obtain ⟨ms, e1, _⟩ := (good_iff m).1 hm
        cases be with
        | false => exact .inr ⟨_, _, rfl, rfl, ⟨ms, ms, e1, e1, List.Perm.refl _⟩, rfl, rfl, rfl, rfl⟩
        | true =>
          simp only [if_true]
          cases hx : Cphd.extract env.argsort { t with mix := m } with
          | error e => exact .inl ⟨e, rfl, rfl⟩
          | ok s' =>
            have := (extract_frame hx).1
            exact .inr ⟨_, _, rfl, rfl, ⟨ms, ms, this.trans e1, this.trans e1, List.Perm.refl _⟩, rfl, rfl, rfl, rfl⟩
      cases bm with
      | false =>
        simp only [optStep, Bool.false_eq_true, if_false]
        cases bc with
        | false =>
          simp only [Bool.false_eq_true, if_false]
          exact fin _ _ ((good_iff _).2 ⟨ds, rfl, hwd⟩) ⟨_, _, rfl, rfl, p3⟩ (fun hb => hnd (by rw [hb]; rfl))
        | true =>
          simp only [if_true]
          have hn := hnd rfl
          rcases cap_same henv.argsort pr p3 hn with ⟨g1, g2⟩ | ⟨m, m', g1, g2, g3⟩
          · rw [g1, g2]; exact .inl ⟨_, rfl, rfl⟩
          · rw [g1, g2]
            have hg : Good m := by
              rcases good_cap pr henv ((good_iff _).2 ⟨ds, rfl, hwd⟩) with ⟨m1, k1, k2⟩ | k1
              · rw [k1] at g1
                rwa [← Except.ok.inj g1]
              · rw [k1] at g1
                exact (nomatch g1)
            exact fin m m' hg g3 fun _ => cap_nodup henv.argsort pr hwd hn g1
      | true =>
        have hn := hnd rfl
        simp only [optStep, if_true]
        rw [← merge_same hpr.ok.thr henv.quad p3 hwd hn]
        rcases good_merge hpr.ok henv ((good_iff _).2 ⟨ds, rfl, hwd⟩) with ⟨m2, g1, g2⟩ | g1
        swap
        · rw [g1]; exact .inl ⟨_, rfl, rfl⟩
        rw [g1]
        dsimp only
        cases bc with
        | false =>
          simp only [Bool.false_eq_true, if_false]
          exact fin2 _ g2
        | true =>
          simp only [if_true]
          rcases good_cap pr henv g2 with ⟨m3, k1, k2⟩ | k1
          swap
          · rw [k1]; exact .inl ⟨_, rfl, rfl⟩
          rw [k1]
          exact fin2 _ k2
    | _ => exact hoo.elim

/-- **C114, CPHD, partial.** Two sequences of well-formed calls on new CPHD filters that differ only in the order of the birth
terms of each prediction and of the measurements of each correction, where the covariance of the inner filter does not depend
on the measurement and no two components have the same weight when the mixture is merged, capped or extracted: either both
fail in the same way, or both run through; then the components are the same up to order, and the cardinality distribution,
its history, all extracted states and the numbers of agents are equal.
*Missing:* inner filters whose covariance depends on the measurement (`C114_cphd_refuted`) and components of equal weight. -/
theorem C114_cphd_order_partial {env : Env ℝ V P Z} (henv : OkEnv env) {esf : List ℝ → List ℝ} (he : IsEsf esf) {pr : Params ℝ}
    (hpr : OkC pr) (N : ℕ) (ops ops' : List (Cphd.Op V P Z)) (hops : ∀ o ∈ ops, OkCOp o ∧ CovFree o)
    (hsame : List.Forall₂ CSameOp ops ops')
    (hdist : ∀ (pre post : List (Cphd.Op V P Z)) (o : Cphd.Op V P Z) (s : CState V P), ops = pre ++ o :: post →
      CReduces o = true → Cphd.run env esf pr (Cphd.init N) pre = .ok s → s.mix.ws.Nodup) :
    (∃ e, Cphd.run env esf pr (Cphd.init N) ops = .error e ∧ Cphd.run env esf pr (Cphd.init N) ops' = .error e) ∨
    ∃ s t : CState V P, Cphd.run env esf pr (Cphd.init N) ops = .ok s ∧ Cphd.run env esf pr (Cphd.init N) ops' = .ok t ∧
      CSame s t := by
  have key : ∀ (ops ops' : List (Cphd.Op V P Z)) (s t : CState V P), List.Forall₂ CSameOp ops ops' →
      (∀ o ∈ ops, OkCOp o ∧ CovFree o) →
      (∀ (pre post : List (Cphd.Op V P Z)) (o : Cphd.Op V P Z) (s1 : CState V P), ops = pre ++ o :: post →
        CReduces o = true → Cphd.run env esf pr s pre = .ok s1 → s1.mix.ws.Nodup) → CInv s → CSame s t →
      CSameRes (Cphd.run env esf pr s ops) (Cphd.run env esf pr t ops') := by
    intro ops ops' s t hf
    induction hf generalizing s t with
    | nil => intro _ _ _ h; exact .inr ⟨s, t, rfl, rfl, h⟩
    | @cons o o' os os' hoo _ ih =>
      intro hok hd hg h
      obtain ⟨ok1, ok2⟩ := hok o List.mem_cons_self
      rcases cstep_same henv he hpr hg h ok1 ok2 hoo (fun hr => hd [] os o s rfl hr rfl) with
        ⟨e, g1, g2⟩ | ⟨s', t', g1, g2, g3⟩
      · left
        unfold Cphd.run
        rw [g1, g2]
        exact ⟨e, rfl, rfl⟩
      · have hg' : CInv s' := step_inv henv he hpr hg o ok1 g1
        unfold Cphd.run
        rw [g1, g2]
        refine ih s' t' (fun o' ho' => hok o' (List.mem_cons_of_mem _ ho')) ?_ hg' g3
        intro pre post o1 s1 hsp hr hrun
        refine hd (o :: pre) post o1 s1 (by rw [hsp]; rfl) hr ?_
        unfold Cphd.run
        rw [g1]
        exact hrun
  exact key ops ops' _ _ hsame hops hdist (init_inv N)
    ⟨⟨[], [], rfl, rfl, List.Perm.refl _⟩, rfl, rfl, rfl, rfl⟩

theorem predict_birth {s1 : CState ℝ ℝ} {b : List (Mix ℝ ℝ ℝ)} (h : Cphd.predict exCp exCF b (Cphd.init 2) = .ok s1) :
    s1.mix = Phd.predict exCp exCF b ⟨[], [], []⟩ := by
  unfold Cphd.predict at h
  split at h
  · exact (nomatch h)
  split at h
  · exact (nomatch h)
  obtain rfl := Except.ok.inj h
  rfl

/-- **C114 is false of this code for the CPHD filter** with an inner filter whose covariance depends on the measurement: a
birth, then two measurements in the one or the other order; the two filters have components with different covariances. -/
theorem C114_cphd_refuted (env : Env ℝ ℝ ℝ ℝ) : ∃ s t : CState ℝ ℝ,
    Cphd.run env exEsf exCp (Cphd.init 2) [.predict exCF [exBirth], .correct exCZ [0, 1]] = .ok s ∧
    Cphd.run env exEsf exCp (Cphd.init 2) [.predict exCF [exBirth], .correct exCZ [1, 0]] = .ok t ∧
    s.mix.ps = [1, 1, 1] ∧ t.mix.ps = [1, 0, 0] ∧ ¬ CSame s t := by
  obtain ⟨s1, h1⟩ := C36_predict_total exCp_ok exCF [exBirth] (by simp [exBirth]) (by simp [exBirth]) (Cphd.init 2) 2 (by norm_num)
    (zeroCard_dist 2)
  have i1 := predict_inv exCp_ok (by simp [exBirth, Aligned]) (init_inv 2) h1
  have hm : s1.mix = ⟨[1], [0], [1]⟩ := by
    rw [predict_birth h1]
    simp [Phd.predict, exBirth, extend, predictDensity]
  have cov : ∀ (a b : ℝ), ∃ s', Cphd.correct exEsf exCp exCZ [a, b] s1 = .ok s' ∧ s'.mix.ps = [1, b, b] := by
    intro a b
    obtain ⟨s', hs'⟩ := C36_correct_total exEsf_ok exCp_ok exCZ (fun _ _ _ => zero_le_one) [a, b] s1 _ i1.1 i1.2.1
      (by rw [hm]; simp) (by rw [hm]; simp)
    refine ⟨s', hs', ?_⟩
    unfold Cphd.correct at hs'
    split at hs'
    · split at hs'
      · exact (nomatch hs')
      · rename_i cs' c' hc
        obtain rfl := Except.ok.inj hs'
        obtain ⟨xs, W, d0, _, _, _, _, _, _, _, _, _, _, hcs'⟩ := correctComps_ok exEsf_ok hc
        show (mixOf cs').ps = _
        rw [hcs', hm]
        simp [mixOf, detComps, exCZ, comps]
    · exact (nomatch hs')
  obtain ⟨s, hs, ps⟩ := cov 0 1
  obtain ⟨t, ht, pt⟩ := cov 1 0
  refine ⟨s, t, ?_, ?_, ps, pt, ?_⟩
  · simp only [Cphd.run, Cphd.step, h1, hs]
  · simp only [Cphd.run, Cphd.step, h1, ht]
  · rintro ⟨⟨cs, cs', e1, e2, hp⟩, _⟩
    have q1 : (cs.map fun c => c.2.2) = [1, 1, 1] := by rw [← ps, e1]; rfl
    have q2 : (cs'.map fun c => c.2.2) = [1, 0, 0] := by rw [← pt, e2]; rfl
    have := hp.map fun c => c.2.2
    rw [q1, q2] at this
    have h0 := this.symm.subset (show (0 : ℝ) ∈ [1, 0, 0] by simp)
    simp at h0

/-- Two sequences that meet the conditions of C114 for the CPHD filter: two birth terms and two measurements in different
order. -/
example : ∃ (env : Env ℝ ℝ ℝ ℝ), OkEnv env ∧
    ∃ ops ops' : List (Cphd.Op ℝ ℝ ℝ), ops ≠ ops' ∧ (∀ o ∈ ops, OkCOp o ∧ CovFree o) ∧ List.Forall₂ CSameOp ops ops' ∧
      (∃ s, Cphd.run env exEsf exCp (Cphd.init 2) ops = .ok s ∧ s.states.length = 1) ∧
      ∀ (pre post : List (Cphd.Op ℝ ℝ ℝ)) (o : Cphd.Op ℝ ℝ ℝ) (s : CState ℝ ℝ), ops = pre ++ o :: post →
        CReduces o = true → Cphd.run env exEsf exCp (Cphd.init 2) pre = .ok s → s.mix.ws.Nodup := by
  obtain ⟨argsort, ha⟩ := argsort_exists
  have henv : OkEnv (⟨fun _ _ => 0, argsort⟩ : Env ℝ ℝ ℝ ℝ) := ⟨fun _ => rfl, ha⟩
  obtain ⟨s1, h1⟩ := C36_predict_total exCp_ok exCF [exBirth, ⟨[2], [5], [1]⟩] (by simp [exBirth]) (by simp [exBirth]; norm_num)
    (Cphd.init 2) 2 (by norm_num) (zeroCard_dist 2)
  have i1 := predict_inv exCp_ok (by simp [exBirth, Aligned]) (init_inv 2) h1
  have hm : s1.mix = ⟨[1, 2], [0, 5], [1, 1]⟩ := by
    rw [predict_birth h1]
    simp [Phd.predict, exBirth, extend, predictDensity]
  obtain ⟨_, _, _, s2, h2, _, _, _, _, h2', _⟩ := C65_extract ha [(1, 0, 1), (2, 5, 1)] s1 hm (by
    intro h0
    have := i1.1.length
    rw [h0] at this
    simp at this)
  obtain ⟨f1, f2⟩ := extract_frame h2
  have i2 : CInv s2 := ⟨by unfold maxCard; rw [f2]; exact i1.1, by rw [f1]; exact i1.2⟩
  obtain ⟨s3, h3⟩ := C36_correct_total exEsf_ok exCp_ok exCF (by intro z s p; simp [exCF]) [0, 1] s2 _ i2.1 i2.2.1
    (by rw [f1, hm]; simp) (by rw [f1, hm]; simp; norm_num)
  have hr : Cphd.run (⟨fun _ _ => 0, argsort⟩ : Env ℝ ℝ ℝ ℝ) exEsf exCp (Cphd.init 2)
      [.predict exCF [exBirth, ⟨[2], [5], [1]⟩], .extract, .correct exCF [0, 1]] = .ok s3 := by
    simp only [Cphd.run, Cphd.step, h1, h2, h3]
  have hok : ∀ o ∈ ([.predict exCF [exBirth, ⟨[2], [5], [1]⟩], .extract, .correct exCF [0, 1]] : List (Cphd.Op ℝ ℝ ℝ)),
      OkCOp o ∧ CovFree o := by
    intro o ho
    simp only [List.mem_cons, List.not_mem_nil, or_false] at ho
    rcases ho with rfl | rfl | rfl <;> simp [OkCOp, exBirth, Aligned, exCF, CovFree]
  refine ⟨_, henv, [.predict exCF [exBirth, ⟨[2], [5], [1]⟩], .extract, .correct exCF [0, 1]],
    [.predict exCF [⟨[2], [5], [1]⟩, exBirth], .extract, .correct exCF [1, 0]], ?_, hok, ?_, ⟨s3, hr, ?_⟩, ?_⟩
  · intro h
    simp at h
  · exact .cons ⟨rfl, List.Perm.swap _ _ _⟩ (.cons trivial (.cons ⟨rfl, List.Perm.swap _ _ _⟩ .nil))
  · exact (C113_cphd_history henv exEsf_ok exCp_ok 2 _ (fun o ho => (hok o ho).1) hr).1
  · intro pre post o s hsplit hred hrun
    match pre, hsplit, hrun with
    | [], hsplit, _ =>
      obtain ⟨rfl, _⟩ := List.cons.inj hsplit
      exact (nomatch hred)
    | [_], hsplit, hrun =>
      obtain ⟨rfl, _⟩ := List.cons.inj hsplit
      simp only [Cphd.run, Cphd.step, h1, Except.ok.injEq] at hrun
      rw [← hrun, hm]
      simp
    | [_, _], hsplit, _ =>
      obtain ⟨_, h⟩ := List.cons.inj hsplit
      obtain ⟨_, h⟩ := List.cons.inj h
      obtain ⟨rfl, _⟩ := List.cons.inj h
      exact (nomatch hred)
    | _ :: _ :: _ :: _, hsplit, _ =>
      have := congrArg List.length hsplit
      simp at this

end Gasur.Props
