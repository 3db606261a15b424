import Verif.Proofs.JglmbBayes
import Verif.Proofs.JglmbMain
import Verif.Spec.JointExact

/-! The joint update when Gibbs sampling has returned every association. -/

set_option linter.unusedSectionVars false
set_option linter.unusedSimpArgs false

namespace Gasur.Jglmb

open Gasur.Glmb Gasur.Spec

variable {K τ F S C Z : Type*} [Field K] [LinearOrder K] [IsStrictOrderedRing K] [FloorRing K] [DecidableEq τ]

/-- The cost matrix of one hypothesis. -/
def costMat (env : Env K τ F S C Z) (jp : JParams K) (births : List (Birth K F S C)) (oldLen : ℕ)
    (blocks : List (List (Option (Entry K τ F S C) × K))) (h : Hyp K)
    (i : Fin (tinds births.length h).length)
    (j : Fin (2 * (tinds births.length h).length + numCols (tinds births.length h).length blocks.length)) : K :=
  env.num.negLog (costVal jp (avgSurv jp births oldLen) blocks (tinds births.length h) i j)

/-- Number of Gibbs iterations after the first solution. -/
def iters (env : Env K τ F S C Z) (jp : JParams K) (ss : K) (h : Hyp K) : ℕ :=
  (Phd.pyRound ((jp.base.reqUpd : K) * env.num.sqrt h.prob / ss)).toNat

/-- Gibbs sampling has returned every association of the hypothesis. -/
def Complete (env : Env K τ F S C Z) (jp : JParams K) (births : List (Birth K F S C)) (oldLen : ℕ)
    (blocks : List (List (Option (Entry K τ F S C) × K))) (ss : K) (u : ℕ → ℕ → K) (h : Hyp K) : Prop :=
  ∀ a, Function.Injective a → ∃ out, Gibbs.gibbs env.num.expNeg (costMat env jp births oldLen blocks h)
    (iters env jp ss h + 1) (fun s v => u s v.val) = .ok out ∧ ∃ c, (a, c) ∈ out

/-- The weight of one row. -/
def rowW (env : Env K τ F S C Z) (jp : JParams K) (births : List (Birth K F S C)) (oldLen : ℕ)
    (blocks : List (List (Option (Entry K τ F S C) × K))) (h : Hyp K)
    (a : Fin (tinds births.length h).length →
      Fin (2 * (tinds births.length h).length + numCols (tinds births.length h).length blocks.length)) : K :=
  env.num.expNeg jp.base.clutterRate * (jp.base.clutterRate * jp.base.clutterDen) ^ blocks.length * h.prob *
    env.num.expNeg (∑ i, costMat env jp births oldLen blocks h i (a i))

theorem corOne_rows {env : Env K τ F S C Z} {jp : JParams K} {births : List (Birth K F S C)} {oldLen tabLen : ℕ}
    {blocks : List (List (Option (Entry K τ F S C) × K))} {ss : K} {u : ℕ → ℕ → K} {h : Hyp K} {out}
    (hc : corOne env jp births oldLen tabLen blocks ss u h = .ok out) :
    ∃ rows, Gibbs.gibbs env.num.expNeg (costMat env jp births oldLen blocks h) (iters env jp ss h + 1)
        (fun s v => u s v.val) = .ok rows ∧
      out = rows.map fun ac => ⟨env.num.expNeg jp.base.clutterRate *
        (jp.base.clutterRate * jp.base.clutterDen) ^ blocks.length * h.prob * env.num.expNeg ac.2,
        rowTracks tabLen (tinds births.length h) ac.1⟩ := by
  unfold corOne at hc
  simp only at hc
  split at hc
  · simp at hc
  · split at hc
    · simp at hc
    · rename_i k hk
      obtain ⟨hss, hk⟩ := share_ok hk
      split at hc
      · simp at hc
      · rename_i rows hrows
        split at hc
        · simp at hc
        · simp only [Except.ok.injEq] at hc
          refine ⟨rows, ?_, hc.symm⟩
          rw [← hrows, hk]
          rfl

theorem rows_sum {A : Type*} [Fintype A] [DecidableEq A] (P : A → Prop) [DecidablePred P] (f : A → K) {l : List A}
    (hnd : l.Nodup) (hl : ∀ a, a ∈ l ↔ P a) : (l.map f).sum = ∑ a, if P a then f a else 0 := by
  rw [← List.sum_toFinset f hnd, ← Finset.sum_filter]
  congr 1
  ext a
  simp [hl]

theorem massOf_map {B : Type*} (q : Hyp K → Prop) [DecidablePred q] (g : B → Hyp K) (l : List B) :
    massOf q (l.map g) = (l.map fun b => if q (g b) then (g b).prob else 0).sum := by
  induction l with
  | nil => rfl
  | cons b l ih => rw [List.map_cons, massOf_cons, ih, List.map_cons, List.sum_cons]

theorem massOf_append (q : Hyp K → Prop) [DecidablePred q] (a b : List (Hyp K)) :
    massOf q (a ++ b) = massOf q a + massOf q b := by
  unfold massOf
  rw [List.filter_append, mass_append]

theorem massOf_flatten (q : Hyp K → Prop) [DecidablePred q] (ls : List (List (Hyp K))) :
    massOf q ls.flatten = (ls.map (massOf q)).sum := by
  induction ls with
  | nil => rfl
  | cons a ls ih => rw [List.flatten_cons, massOf_append, ih, List.map_cons, List.sum_cons]

/-- The mass made from one hypothesis. -/
theorem corOne_mass {env : Env K τ F S C Z} (hexp : ∀ x, 0 < env.num.expNeg x) {jp : JParams K}
    {births : List (Birth K F S C)} {oldLen tabLen : ℕ}
    {blocks : List (List (Option (Entry K τ F S C) × K))} {ss : K} {u : ℕ → ℕ → K}
    (hu : ∀ s v, 0 ≤ u s v ∧ u s v < 1) {h : Hyp K} {out}
    (hc : corOne env jp births oldLen tabLen blocks ss u h = .ok out)
    (hcomp : Complete env jp births oldLen blocks ss u h) (q : List ℕ → Prop) [DecidablePred q] :
    massOf (fun x => q x.tracks) out = ∑ a, open Classical in
      if Function.Injective a ∧ q (rowTracks tabLen (tinds births.length h) a) then
        rowW env jp births oldLen blocks h a else 0 := by
  classical
  obtain ⟨rows, hg, rfl⟩ := corOne_rows hc
  obtain ⟨rows', g1, _, g3, g4, _⟩ := Gasur.Props.C12_gibbs env.num.expNeg hexp
    (costMat env jp births oldLen blocks h) (by omega) (iters env jp ss h + 1) (by omega)
    (fun s v => u s v.val) (fun s v => hu s v.val)
  rw [hg, Except.ok.injEq] at g1
  subst g1
  have hmem : ∀ a, a ∈ rows.map Prod.fst ↔ Function.Injective a := by
    intro a
    constructor
    · intro ha
      obtain ⟨⟨a', c⟩, hac, rfl⟩ := List.mem_map.1 ha
      exact (g4 _ _ hac).1
    · intro ha
      obtain ⟨out, ho, c, hac⟩ := hcomp a ha
      rw [hg, Except.ok.injEq] at ho
      subst ho
      exact List.mem_map.2 ⟨_, hac, rfl⟩
  have hsum := rows_sum (fun a => Function.Injective a)
    (fun a => if q (rowTracks tabLen (tinds births.length h) a) then rowW env jp births oldLen blocks h a else 0)
    g3 hmem
  rw [massOf_map]
  rw [List.map_map] at hsum
  refine Eq.trans (congrArg List.sum (List.map_congr_left ?_)) (hsum.trans ?_)
  · rintro ⟨a, c⟩ hac
    simp only [Function.comp_apply]
    by_cases hq : q (rowTracks tabLen (tinds births.length h) a)
    · rw [if_pos hq, if_pos hq]
      unfold rowW
      rw [← (g4 a c hac).2]
    · rw [if_neg hq, if_neg hq]
  · refine Finset.sum_congr rfl fun a _ => ?_
    by_cases h1 : Function.Injective a <;> by_cases h2 : q (rowTracks tabLen (tinds births.length h) a) <;> simp [h1, h2]

theorem col_sum (n m : ℕ) (G : (Fin n → ℕ) → K) :
    ∑ a : Fin n → Fin (2 * n + numCols n m), G (fun i => (a i).val) =
      ∑ a : Fin n → Fin (2 * n + m), G (fun i => (a i).val) := by
  unfold numCols
  by_cases hn : n = 0
  · subst hn
    rw [Fintype.sum_unique, Fintype.sum_unique]
    congr 1
    funext i
    exact i.elim0
  · rw [if_neg hn]

theorem inj_val {n M : ℕ} (a : Fin n → Fin M) : Function.Injective a ↔ Function.Injective fun i => (a i).val :=
  ⟨fun h _ _ hij => h (Fin.ext hij), fun h _ _ hij => h (congrArg Fin.val hij)⟩

theorem choices_sel (ts : List ℕ) {M : ℕ} (a : Fin ts.length → Fin M) : jointChoices ts a = sel ts a := rfl

theorem ite_iff {P P' : Prop} [Decidable P] [Decidable P'] (h : P ↔ P') {x y : K} (hxy : x = y) :
    (if P then x else 0) = if P' then y else 0 := by
  subst hxy
  by_cases hp : P
  · rw [if_pos hp, if_pos (h.1 hp)]
  · rw [if_neg hp, if_neg (fun h' => hp (h.2 h'))]

/-- The likelihoods that the blocks contain. -/
def blockLik (blocks : List (List (Option (Entry K τ F S C) × K))) (t m : ℕ) : K :=
  ((((blocks[m]?).getD [])[t]?).map Prod.snd).getD 0

theorem rowW_eq {env : Env K τ F S C Z} (hx : ExpLog env.num) {jp : JParams K} (heps : 0 < jp.base.eps)
    {births : List (Birth K F S C)} {oldLen nMeas : ℕ}
    {blocks : List (List (Option (Entry K τ F S C) × K))} (hb : blocks.length = nMeas) {h : Hyp K}
    (hnd : h.tracks.Nodup) (hr : ∀ t ∈ tinds births.length h, t < births.length + oldLen) (a) :
    rowW env jp births oldLen blocks h a = jointWeight env.num.expNeg births jp.base.eps jp.base.clutterRate
      (jp.base.clutterRate * jp.base.clutterDen) jp.probSurvive jp.probDetect nMeas (blockLik blocks) h a := by
  subst hb
  unfold rowW jointWeight
  rw [hx.sum]
  congr 1
  refine Finset.prod_congr rfl fun i _ => ?_
  have e1 := costVal_eq (jp := jp) (oldLen := oldLen) (blocks := blocks) (tinds_nodup (nb := births.length) hnd)
    hr (i := i.val) (j := (a i).val) i.isLt
  unfold costMat
  rw [hx.inv]
  · exact e1
  · rw [e1]
    exact colWeight_pos heps _ _ _ _

theorem flat_mass {env : Env K τ F S C Z} (hexp : ∀ x, 0 < env.num.expNeg x) (hx : ExpLog env.num)
    {jp : JParams K} (heps : 0 < jp.base.eps) {births : List (Birth K F S C)} {oldLen tabLen nMeas : ℕ}
    {blocks : List (List (Option (Entry K τ F S C) × K))} (hb : blocks.length = nMeas) {ss : K}
    {draws : ℕ → ℕ → ℕ → K} (hd : DrawsOk draws) (hlen : births.length + oldLen = tabLen)
    (q : List ℕ → Prop) [DecidablePred q] (Q : List (ℕ × Option ℕ) → Prop)
    (hqQ : ∀ y : List (ℕ × Option ℕ), (∀ im ∈ y, im.1 < tabLen) → (q (y.map (enc tabLen)) ↔ Q y)) :
    ∀ (hyps : List (Hyp K)) (n : ℕ) (ls : List (List (Hyp K))),
      (∀ h ∈ hyps, h.tracks.Nodup) →
      List.Forall₂ (fun (hn : Hyp K × ℕ) out => corOne env jp births oldLen tabLen blocks ss (draws hn.2) hn.1 =
        .ok out) (hyps.zipIdx n) ls →
      (∀ hn ∈ hyps.zipIdx n, Complete env jp births oldLen blocks ss (draws hn.2) hn.1) →
      massOf (fun x => q x.tracks) ls.flatten = posteriorMass env.num.expNeg births jp.base.eps jp.base.clutterRate
        (jp.base.clutterRate * jp.base.clutterDen) jp.probSurvive jp.probDetect nMeas (blockLik blocks) hyps Q
  | [], n, ls, _, h, _ => by
    rw [List.zipIdx_nil, List.forall₂_nil_left_iff] at h
    subst h
    rfl
  | p :: hyps, n, ls, hnd, h, hcomp => by
    classical
    rw [List.zipIdx_cons] at h hcomp
    obtain ⟨out, ls', hc, hrest, rfl⟩ := List.forall₂_cons_left_iff.1 h
    have ih := flat_mass hexp hx heps hb hd hlen q Q hqQ hyps (n + 1) ls'
      (fun h hh => hnd h (List.mem_cons_of_mem _ hh)) hrest (fun hn hh => hcomp hn (List.mem_cons_of_mem _ hh))
    rw [List.flatten_cons, massOf_append, ih]
    unfold posteriorMass
    rw [List.map_cons, List.sum_cons]
    congr 1
    obtain ⟨hr, _⟩ := corOne_ok hexp (fun s v => hd _ s v) hc
    rw [corOne_mass hexp (fun s v => hd _ s v) hc (hcomp _ List.mem_cons_self) q]
    have hrow : ∀ a, rowW env jp births oldLen blocks p a = jointWeight env.num.expNeg births jp.base.eps
        jp.base.clutterRate (jp.base.clutterRate * jp.base.clutterDen) jp.probSurvive jp.probDetect nMeas
        (blockLik blocks) p a := fun a =>
      rowW_eq hx heps hb (hnd p List.mem_cons_self) (fun t ht => by rw [hlen]; exact hr t ht) a
    have hq : ∀ a : Fin (tinds births.length p).length → Fin (2 * (tinds births.length p).length +
        numCols (tinds births.length p).length blocks.length),
        (q (rowTracks tabLen (tinds births.length p) a) ↔ Q (jointChoices (tinds births.length p) a)) := by
      intro a
      rw [rowTracks_sel, choices_sel]
      apply hqQ
      intro im him
      exact hr _ ((sel_sublist _ a).subset (List.mem_map_of_mem him))
    have key := col_sum (K := K) (tinds births.length p).length blocks.length (fun b =>
      if Function.Injective b ∧ Q ((List.finRange (tinds births.length p).length).filterMap fun i =>
        pick (tinds births.length p).length (tinds births.length p)[i] (b i)) then
        env.num.expNeg jp.base.clutterRate * (jp.base.clutterRate * jp.base.clutterDen) ^ nMeas * p.prob *
        ∏ i : Fin (tinds births.length p).length, colWeight jp.base.eps (jp.base.clutterRate * jp.base.clutterDen)
          jp.probDetect (survProb births jp.probSurvive (tinds births.length p)[i])
          (blockLik blocks (tinds births.length p)[i]) (tinds births.length p).length i.val (b i)
      else 0)
    subst hb
    refine Eq.trans (Finset.sum_congr rfl fun a _ => ?_) (key.trans (Finset.sum_congr rfl fun a _ => ?_))
    · refine ite_iff ?_ (hrow a)
      rw [← inj_val, hq]
      rfl
    · exact ite_iff (and_congr (inj_val a).symm Iff.rfl) rfl

theorem massOf_div (q : List ℕ → Prop) [DecidablePred q] (c : K) (l : List (Hyp K)) :
    massOf (fun x => q x.tracks) (l.map fun h => ({ h with prob := h.prob / c } : Hyp K)) =
      massOf (fun x => q x.tracks) l / c := by
  induction l with
  | nil => simp [massOf_nil]
  | cons a l ih =>
    rw [List.map_cons, massOf_cons, massOf_cons, ih, add_div]
    congr 1
    split <;> simp

/-- No depletion: the update of a track exists. -/
theorem upTab_some {env : Env K τ F S C Z} {pr : Params K} {tab : List (Entry K τ F S C)} {meas : List Z}
    {blocks} (hb : corBlocks env pr tab meas = .ok blocks) {im : ℕ × Option ℕ} (ht : im.1 < tab.length)
    (hm : ∀ m, im.2 = some m → m < meas.length)
    (hnd : ∀ m e z, im.2 = some m → tab[im.1]? = some e → meas[m]? = some z → ¬ Depleted env z e) :
    ∃ e', (upTab tab blocks)[enc tab.length im]? = some (some e') := by
  obtain ⟨b1, b2, b3⟩ := corBlocks_ok hb
  obtain ⟨g1, g2⟩ := upTab_get b2 ht
  obtain ⟨t, m⟩ := im
  simp only at ht hm hnd g1 g2
  cases m with
  | none => exact ⟨_, by simpa [enc] using g1⟩
  | some j =>
    have hj := hm j rfl
    have hjb : j < blocks.length := by omega
    obtain ⟨z, hz, hbt⟩ := b3 j _ (List.getElem?_eq_getElem hjb)
    obtain ⟨o, c, hoc, hg⟩ := hbt t _ (List.getElem?_eq_getElem ht)
    have hnd' := hnd j _ z rfl (List.getElem?_eq_getElem ht) hz
    have ho : ∃ e, o = some e := by
      unfold correctEntry at hoc
      split at hoc
      · rename_i s w hs hw
        split at hoc
        · split at hoc
          · rename_i err herr
            exfalso
            apply hnd'
            refine ⟨s, w, hs, hw, ?_⟩
            by_contra hno
            obtain ⟨r, hr⟩ := traverseE_total (fun x : F × S × K => optE (env.corF z x.1 x.2.1 x.2.2))
              (tab[t].fStates.zip (s.zip w)) (by
                intro x hx
                cases hcf : env.corF z x.1 x.2.1 x.2.2 with
                | none => exact absurd ⟨x, hx, hcf⟩ hno
                | some r => exact ⟨r, rfl⟩)
            rw [hr] at herr
            simp at herr
          · split at hoc
            · simp at hoc
            · simp only [Except.ok.injEq, Prod.mk.injEq] at hoc
              exact ⟨_, hoc.1.symm⟩
        · simp at hoc
      · simp at hoc
    obtain ⟨e, rfl⟩ := ho
    refine ⟨addMeas (some j) e, ?_⟩
    have := g2 j
    rw [List.getElem?_eq_getElem hjb, Option.bind_some, hg] at this
    simpa [enc] using this

/-- **The joint update is exact** if Gibbs sampling returned every association of every hypothesis. -/
theorem correct_exact {env : Env K τ F S C Z} (hexp : ∀ x, 0 < env.num.expNeg x) (hx : ExpLog env.num)
    {jp : JParams K} (heps : 0 < jp.base.eps) {births : List (Birth K F S C)}
    {draws : ℕ → ℕ → ℕ → K} (hd : DrawsOk draws) {meas : List Z}
    {st st' : JSt K τ F S C} (hI : ∀ h ∈ st.g.hyps, h.tracks.Nodup)
    (h : correct env jp births draws meas st = .ok st') {blocks}
    (hblk : corBlocks env jp.base st.g.tab meas = .ok blocks)
    (hcomp : ∀ hn ∈ st.g.hyps.zipIdx, Complete env jp births st.oldLen blocks (sumSqrt env st.g.hyps)
      (draws hn.2) hn.1) :
    (∀ h' ∈ st'.g.hyps, ∃ s : List (ℕ × Option ℕ),
        List.Forall₂ (fun im t' => ∃ e e', st.g.tab[im.1]? = some e ∧ st'.g.tab[t']? = some e' ∧
          IsUpdate env jp.base meas e im.2 e') s h'.tracks ∧
        h'.prob = posteriorMass env.num.expNeg births jp.base.eps jp.base.clutterRate
            (jp.base.clutterRate * jp.base.clutterDen) jp.probSurvive jp.probDetect meas.length
            (blockLik blocks) st.g.hyps (fun y => y.Perm s) /
          posteriorMass env.num.expNeg births jp.base.eps jp.base.clutterRate
            (jp.base.clutterRate * jp.base.clutterDen) jp.probSurvive jp.probDetect meas.length
            (blockLik blocks) st.g.hyps (fun _ => True)) ∧
    ∀ p ∈ st.g.hyps, ∀ a : Fin (candidates births.length p).length →
        Fin (2 * (candidates births.length p).length + meas.length), Function.Injective a →
      (∀ t m e z, (t, some m) ∈ jointChoices (candidates births.length p) a → st.g.tab[t]? = some e →
        meas[m]? = some z → ¬ Depleted env z e) →
      ∃ h' ∈ st'.g.hyps, ∃ s : List (ℕ × Option ℕ), s.Perm (jointChoices (candidates births.length p) a) ∧
        List.Forall₂ (fun im t' => ∃ e e', st.g.tab[im.1]? = some e ∧ st'.g.tab[t']? = some e' ∧
          IsUpdate env jp.base meas e im.2 e') s h'.tracks := by
  obtain ⟨blocks', ls, hs, h1, hlen, h2, h3, h4, _⟩ := correct_ok h
  rw [hblk, Except.ok.injEq] at h1
  subst h1
  obtain ⟨b1, b2, b3⟩ := corBlocks_ok hblk
  obtain ⟨_, _, hidx, _, hhyps⟩ := cleanUpd_ok h4
  -- every row of every hypothesis
  have hrows : ∀ x ∈ ls.flatten, ∃ y : List (ℕ × Option ℕ), x.tracks = y.map (enc st.g.tab.length) ∧
      ∀ im ∈ y, im.1 < st.g.tab.length := by
    intro x hxm
    obtain ⟨out, hout, hxo⟩ := List.mem_flatten.1 hxm
    obtain ⟨hn, hmem, hc⟩ := forall₂_mem_right h2 hout
    obtain ⟨c1, c2, c3, rows, r1, r2, r3, r4, rfl⟩ := corOne_ok hexp (fun s v => hd _ s v) hc
    obtain ⟨⟨a, c⟩, hac, rfl⟩ := List.mem_map.1 hxo
    refine ⟨sel _ a, rowTracks_sel _ _ _, ?_⟩
    intro im him
    exact c1 _ ((sel_sublist _ a).subset (List.mem_map_of_mem him))
  have hup : ∀ (y : List (ℕ × Option ℕ)), (∀ im ∈ y, im.1 < st.g.tab.length) →
      (∀ im ∈ y, enc st.g.tab.length im ∈ usedInds (upTab st.g.tab blocks) (cleanPred hs)) →
      List.Forall₂ (fun im t' => ∃ e e', st.g.tab[im.1]? = some e ∧ st'.g.tab[t']? = some e' ∧
          IsUpdate env jp.base meas e im.2 e') y ((y.map (enc st.g.tab.length)).map fun i =>
            (usedInds (upTab st.g.tab blocks) (cleanPred hs)).idxOf i) := by
    intro y hy hu
    rw [List.map_map, List.forall₂_map_right_iff, List.forall₂_same]
    intro im him
    have hmem := hu im him
    obtain ⟨u1, u2⟩ := hidx _ hmem
    obtain ⟨e', he'⟩ := (mem_usedInds.1 hmem).1
    rw [he', Option.some.injEq] at u2
    exact ⟨st.g.tab[im.1]'(hy im him), e', List.getElem?_eq_getElem _, u2, upTab_enc hblk (hy im him) he'⟩
  refine ⟨?_, ?_⟩
  · intro h' hh'
    rw [hhyps] at hh'
    obtain ⟨q, hq, rfl⟩ := List.mem_map.1 hh'
    rw [List.mem_filter, List.all_eq_true] at hq
    obtain ⟨hq, hall⟩ := hq
    obtain ⟨q0, hq0, hqt⟩ := cleanPred_mem hq
    obtain ⟨x0, hx0, hx0t, _⟩ := normHyps_mem h3 hq0
    obtain ⟨y, hy1, hy2⟩ := hrows x0 hx0
    have hqy : q.tracks = y.map (enc st.g.tab.length) := by rw [hqt, hx0t, hy1]
    refine ⟨y, ?_, ?_⟩
    · simp only
      rw [hqy]
      refine hup y hy2 fun im him => ?_
      have := hall (enc st.g.tab.length im) (by rw [hqy]; exact List.mem_map_of_mem him)
      simpa using this
    · have e1 := massOf_self (cleanPred_keys hs) hq
      have e2 := cleanPred_massOf (fun l => l.Perm q.tracks)
        (fun a b hab => ⟨fun h => hab.symm.trans h, fun h => hab.trans h⟩) hs
      simp only
      rw [← e1, e2, (normHyps_ok h3).2, massOf_div (fun l => l.Perm q.tracks)]
      rw [flat_mass hexp hx heps b1 hd hlen (fun l => l.Perm q.tracks) (fun z => z.Perm y) (by
        intro z hz
        rw [hqy]
        exact enc_perm hz hy2) st.g.hyps 0 ls hI h2 hcomp]
      have e4 : (ls.flatten.map fun h => h.prob).sum = massOf (fun x => (fun _ => True) x.tracks) ls.flatten :=
        (massOf_true ls.flatten).symm
      rw [e4, flat_mass hexp hx heps b1 hd hlen (fun _ => True) (fun _ => True) (fun _ _ => Iff.rfl)
        st.g.hyps 0 ls hI h2 hcomp]
  · intro p hp a ha hdep
    obtain ⟨i, hi⟩ := List.mem_iff_getElem?.1 hp
    have hmem : (p, i) ∈ st.g.hyps.zipIdx := by
      apply List.mem_of_getElem? (i := i)
      rw [List.getElem?_zipIdx, hi]
      simp
    obtain ⟨out, hout, hc⟩ := forall₂_mem_left h2 hmem
    obtain ⟨c1, _⟩ := corOne_ok hexp (fun s v => hd _ s v) hc
    -- the same association over the columns that the code uses
    obtain ⟨b, hb⟩ : ∃ b : Fin (tinds births.length p).length → Fin (2 * (tinds births.length p).length +
        numCols (tinds births.length p).length blocks.length), ∀ i, (b i).val = (a i).val := by
      refine ⟨fun i => ⟨(a i).val, ?_⟩, fun i => rfl⟩
      have hl := (a i).isLt
      have hn : (tinds births.length p).length ≠ 0 := by
        have := i.isLt
        omega
      unfold numCols
      rw [if_neg hn, b1]
      exact hl
    have hbi : Function.Injective b := by
      intro i j hij
      apply ha
      apply Fin.ext
      rw [← hb i, ← hb j, hij]
    have hch : jointChoices (candidates births.length p) a = sel (tinds births.length p) b := by
      unfold jointChoices sel
      congr 1
      funext i
      exact congrArg (fun k => pick (tinds births.length p).length (tinds births.length p)[i] k) (hb i).symm
    obtain ⟨rows, hg, rfl⟩ := corOne_rows hc
    obtain ⟨rows', hg', c, hbc⟩ := hcomp _ hmem b hbi
    rw [hg, Except.ok.injEq] at hg'
    subst hg'
    have hxo := List.mem_map_of_mem (f := fun ac => (⟨env.num.expNeg jp.base.clutterRate *
        (jp.base.clutterRate * jp.base.clutterDen) ^ blocks.length * p.prob * env.num.expNeg ac.2,
        rowTracks st.g.tab.length (tinds births.length p) ac.1⟩ : Hyp K)) hbc
    have hxf := List.mem_flatten.2 ⟨_, hout, hxo⟩
    have hx2 := List.mem_map_of_mem (f := fun h : Hyp K => ({ h with prob := h.prob /
      (ls.flatten.map fun h => h.prob).sum } : Hyp K)) hxf
    rw [← (normHyps_ok h3).2] at hx2
    obtain ⟨y, hy, hyp⟩ := cleanPred_cover hs _ hx2
    simp only at hyp
    rw [rowTracks_sel] at hyp
    obtain ⟨q0, hq0, hqt⟩ := cleanPred_mem hy
    obtain ⟨x0, hx0, hx0t, _⟩ := normHyps_mem h3 hq0
    obtain ⟨s, hs1, hs2⟩ := hrows x0 hx0
    have hys : y.tracks = s.map (enc st.g.tab.length) := by rw [hqt, hx0t, hs1]
    have hb2 : ∀ im ∈ sel (tinds births.length p) b, im.1 < st.g.tab.length := by
      intro im him
      exact c1 _ ((sel_sublist _ b).subset (List.mem_map_of_mem him))
    have hperm : s.Perm (sel (tinds births.length p) b) := by
      rw [hys] at hyp
      exact (enc_perm hs2 hb2).1 hyp
    have hus : ∀ im ∈ s, enc st.g.tab.length im ∈ usedInds (upTab st.g.tab blocks) (cleanPred hs) := by
      intro im him
      have him' := hperm.subset him
      obtain ⟨e', he'⟩ := upTab_some (im := im) hblk (hs2 im him) (by
        intro m hm
        obtain ⟨i, _, hi⟩ := List.mem_filterMap.1 him'
        have h5 : (pick (tinds births.length p).length (tinds births.length p)[i] (b i).val).bind Prod.snd =
            some m := by rw [hi, Option.bind_some, hm]
        have h6 := pick_snd h5
        have := (b i).isLt
        have : numCols (tinds births.length p).length blocks.length ≤ blocks.length := by
          unfold numCols
          split <;> omega
        omega) (by
        intro m e z hm he hz
        refine hdep im.1 m e z ?_ he hz
        rw [hch, ← hm]
        exact him')
      exact mem_usedInds.2 ⟨⟨e', he'⟩, y, hy, by rw [hys]; exact List.mem_map_of_mem him⟩
    refine ⟨⟨y.prob, y.tracks.map fun i => (usedInds (upTab st.g.tab blocks) (cleanPred hs)).idxOf i⟩, ?_, s, ?_, ?_⟩
    · rw [hhyps]
      refine List.mem_map.2 ⟨y, List.mem_filter.2 ⟨hy, ?_⟩, rfl⟩
      rw [List.all_eq_true, hys]
      intro t ht
      obtain ⟨im, him, rfl⟩ := List.mem_map.1 ht
      simpa using hus im him
    · rw [hch]
      exact hperm
    · simp only
      rw [hys]
      exact hup s hs2 hus

theorem blockLik_spec {env : Env K τ F S C Z} {pr : Params K} {tab : List (Entry K τ F S C)} {meas : List Z} {blocks}
    (hblk : corBlocks env pr tab meas = .ok blocks) (t m : ℕ) (e : Entry K τ F S C) (z : Z)
    (ht : tab[t]? = some e) (hm : meas[m]? = some z) :
    IsLik env pr z e (blockLik blocks t m) ∨ (Depleted env z e ∧ blockLik blocks t m = 0) := by
  obtain ⟨b1, b2, b3⟩ := corBlocks_ok hblk
  have hml : m < blocks.length := by rw [b1]; exact (List.getElem?_eq_some_iff.1 hm).1
  obtain ⟨z', hz', hzt⟩ := b3 m _ (List.getElem?_eq_getElem hml)
  rw [hm, Option.some.injEq] at hz'
  subst hz'
  obtain ⟨o, c, hoc, hbt⟩ := hzt t e ht
  have hlik : blockLik blocks t m = c := by
    unfold blockLik
    rw [List.getElem?_eq_getElem hml, Option.getD_some, hbt]
    rfl
  rw [hlik]
  exact correctEntry_cost hoc

end Gasur.Jglmb
