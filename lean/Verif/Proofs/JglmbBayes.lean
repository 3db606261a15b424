import Verif.Proofs.JglmbMain
import Verif.Spec.Jglmb

/-! The weights of the joint GLMB update. -/

set_option linter.unusedSectionVars false
set_option linter.unusedSimpArgs false

namespace Gasur.Jglmb

open Gasur.Glmb Gasur.Spec

variable {K τ F S C Z : Type*} [Field K] [LinearOrder K] [IsStrictOrderedRing K] [FloorRing K]
  [DecidableEq τ]

theorem exists_forall₂ {α β : Type*} {R : α → β → Prop} : ∀ (l : List α), (∀ x ∈ l, ∃ y, R x y) →
    ∃ l', List.Forall₂ R l l'
  | [], _ => ⟨[], .nil⟩
  | a :: l, h => by
    obtain ⟨y, hy⟩ := h a List.mem_cons_self
    obtain ⟨l', hl⟩ := exists_forall₂ l fun x hx => h x (List.mem_cons_of_mem _ hx)
    exact ⟨y :: l', .cons hy hl⟩

/-- Inverse of `enc`. -/
def dec (L k : ℕ) : ℕ × Option ℕ := (k % L, if k / L = 0 then none else some (k / L - 1))

theorem dec_enc {L : ℕ} {im : ℕ × Option ℕ} (h : im.1 < L) : dec L (enc L im) = im := by
  obtain ⟨t, m⟩ := im
  simp only at h
  have hL : 0 < L := by omega
  cases m with
  | none =>
    simp [dec, enc, Nat.mod_eq_of_lt h, Nat.div_eq_of_lt h]
  | some j =>
    simp only [dec, enc, Option.map_some, Option.getD_some, Nat.add_mul_mod_self_left,
      Nat.mod_eq_of_lt h, Nat.add_mul_div_left _ _ hL, Nat.div_eq_of_lt h]
    simp

theorem enc_perm {L : ℕ} {a b : List (ℕ × Option ℕ)} (ha : ∀ x ∈ a, x.1 < L) (hb : ∀ x ∈ b, x.1 < L) :
    (a.map (enc L)).Perm (b.map (enc L)) ↔ a.Perm b := by
  constructor
  · intro h
    have h2 := h.map (dec L)
    rw [List.map_map, List.map_map] at h2
    have e : ∀ l : List (ℕ × Option ℕ), (∀ x ∈ l, x.1 < L) → l.map (dec L ∘ enc L) = l := by
      intro l hl
      conv_rhs => rw [← List.map_id l]
      apply List.map_congr_left
      intro x hx
      exact dec_enc (hl x hx)
    rwa [e a ha, e b hb] at h2
  · intro h
    exact h.map _

/-- The total weight of the only element with the key of `q`. -/
theorem massOf_self {l : List (Hyp K)} (h : l.Pairwise fun a b => ¬ a.tracks.Perm b.tracks) {q : Hyp K}
    (hq : q ∈ l) : massOf (fun x => x.tracks.Perm q.tracks) l = q.prob := by
  induction l with
  | nil => simp at hq
  | cons a l ih =>
    obtain ⟨h1, h2⟩ := List.pairwise_cons.1 h
    rw [massOf_cons]
    rcases List.mem_cons.1 hq with rfl | hq
    · rw [if_pos (List.Perm.refl _)]
      have : massOf (fun x => x.tracks.Perm q.tracks) l = 0 := by
        unfold massOf Glmb.mass
        rw [List.filter_eq_nil_iff.2]
        · simp
        · intro x hx
          simpa using fun hp => h1 x hx (List.Perm.symm hp)
      rw [this, add_zero]
    · rw [if_neg (h1 q hq), zero_add]
      exact ih h2 hq

theorem massOf_forall₂ {α : Type*} {l : List (Hyp K)} {l' : List (K × α)} {p : Hyp K → Prop}
    {p' : K × α → Prop} [DecidablePred p] [DecidablePred p']
    (h : List.Forall₂ (fun x y => x.prob = y.1 ∧ (p x ↔ p' y)) l l') :
    massOf p l = ((l'.filter fun y => decide (p' y)).map Prod.fst).sum := by
  induction h with
  | nil => rfl
  | @cons x y l l' hxy _ ih =>
    rw [massOf_cons, List.filter_cons, ih]
    by_cases hp : p x
    · rw [if_pos hp, if_pos (by simpa using hxy.2.1 hp), List.map_cons, List.sum_cons, hxy.1]
    · rw [if_neg hp, if_neg (by simpa using fun hc => hp (hxy.2.2 hc)), zero_add]

/-- The likelihood of an entry, or zero if the inner filter reported depletion. -/
theorem correctEntry_cost {env : Env K τ F S C Z} {pr : Params K} {z : Z} {e : Entry K τ F S C} {o c}
    (h : correctEntry env pr z e = .ok (o, c)) : IsLik env pr z e c ∨ (Depleted env z e ∧ c = 0) := by
  unfold correctEntry at h
  split at h
  · rename_i s w hs hw
    split at h
    · split at h
      · rename_i herr
        simp only [Except.ok.injEq, Prod.mk.injEq] at h
        refine .inr ⟨⟨s, w, hs, hw, ?_⟩, h.2.symm⟩
        by_contra hno
        obtain ⟨r, hr⟩ := traverseE_total (fun x : F × S × K => optE (env.corF z x.1 x.2.1 x.2.2))
          (e.fStates.zip (s.zip w)) (by
            intro x hx
            cases hc : env.corF z x.1 x.2.1 x.2.2 with
            | none => exact absurd ⟨x, hx, hc⟩ hno
            | some y => exact ⟨y, by simp [optE]⟩)
        rw [hr] at herr
        simp at herr
      · rename_i rs hrs
        split at h
        · simp at h
        · simp only [Except.ok.injEq, Prod.mk.injEq] at h
          exact .inl ⟨s, w, rs, hs, hw, traverseE_optE (fun x : F × S × K => env.corF z x.1 x.2.1 x.2.2) hrs,
            h.2.symm⟩
    · simp at h
  · simp at h

theorem avgSurv_get (jp : JParams K) (births : List (Birth K F S C)) {oldLen t : ℕ}
    (ht : t < births.length + oldLen) :
    ((avgSurv jp births oldLen)[t]?).getD 0 = survProb births jp.probSurvive t := by
  unfold avgSurv survProb
  by_cases h : t < births.length
  · rw [List.getElem?_append_left (by simpa using h), List.getElem?_map, List.getElem?_eq_getElem h]
    rfl
  · rw [List.getElem?_append_right (by simpa using h), List.getElem?_replicate,
      if_pos (by rw [List.length_map]; omega), List.getElem?_eq_none (by omega)]
    rfl

theorem costVal_eq {jp : JParams K} {births : List (Birth K F S C)} {oldLen : ℕ}
    {blocks : List (List (Option (Entry K τ F S C) × K))} {ts : List ℕ} (hnd : ts.Nodup)
    (hr : ∀ t ∈ ts, t < births.length + oldLen) {i j : ℕ} (hi : i < ts.length) :
    costVal jp (avgSurv jp births oldLen) blocks ts i j =
      colWeight jp.base.eps (jp.base.clutterRate * jp.base.clutterDen) jp.probDetect
        (survProb births jp.probSurvive ts[i])
        (fun m => ((((blocks[m]?).getD [])[ts[i]]?).map Prod.snd).getD 0) ts.length i j := by
  have hraw : jointCost jp (avgSurv jp births oldLen) blocks ts i j =
      (if j < ts.length then (if j = i then 1 - survProb births jp.probSurvive ts[i] else 0)
    else if j < 2 * ts.length then (if j = ts.length + i then
      survProb births jp.probSurvive ts[i] * (1 - jp.probDetect) else 0)
    else survProb births jp.probSurvive ts[i] * jp.probDetect *
      ((((blocks[j - 2 * ts.length]?).getD [])[ts[i]]?).map Prod.snd).getD 0 /
        (jp.base.clutterRate * jp.base.clutterDen)) := by
    unfold jointCost
    simp only
    rw [List.getElem?_eq_getElem hi, Option.getD_some,
      avgSurv_get jp births (hr _ (List.getElem_mem hi))]
    by_cases h1 : j < ts.length
    · rw [if_pos h1, if_pos h1, List.getElem?_eq_getElem h1, Option.getD_some]
      have : ts[j] = ts[i] ↔ j = i := List.Nodup.getElem_inj_iff hnd
      simp only [this]
    · rw [if_neg h1, if_neg h1]
      by_cases h2 : j < 2 * ts.length
      · rw [if_pos h2, if_pos h2]
        have h3 : j - ts.length < ts.length := by omega
        rw [List.getElem?_eq_getElem h3, Option.getD_some]
        have : ts[j - ts.length] = ts[i] ↔ j = ts.length + i := by
          rw [List.Nodup.getElem_inj_iff hnd]
          omega
        simp only [this]
      · rw [if_neg h2, if_neg h2]
  unfold costVal colWeight
  simp only
  rw [hraw]

theorem colWeight_pos {eps clutter pd s : K} (h : 0 < eps) (lik : ℕ → K) (n i j : ℕ) :
    0 < colWeight eps clutter pd s lik n i j := by
  unfold colWeight
  simp only
  generalize (if j < n then (if j = i then 1 - s else 0)
    else if j < 2 * n then (if j = n + i then s * (1 - pd) else 0)
    else s * pd * lik (j - 2 * n) / clutter) = r
  by_cases hr : r ≤ 0
  · rw [if_pos hr]; exact h
  · rw [if_neg hr]; exact not_le.1 hr

/-- **Weights after the joint update.** -/
theorem correct_weight {env : Env K τ F S C Z} (hexp : ∀ x, 0 < env.num.expNeg x) (hx : ExpLog env.num)
    {jp : JParams K} (heps : 0 < jp.base.eps) {births : List (Birth K F S C)}
    {draws : ℕ → ℕ → ℕ → K} (hd : DrawsOk draws) {meas : List Z}
    {st st' : JSt K τ F S C} (hI : ∀ h ∈ st.g.hyps, h.tracks.Nodup)
    (h : correct env jp births draws meas st = .ok st') :
    ∃ lik : ℕ → ℕ → K,
      (∀ (t m : ℕ) (e : Entry K τ F S C) (z : Z), st.g.tab[t]? = some e → meas[m]? = some z →
        IsLik env jp.base z e (lik t m) ∨ (Depleted env z e ∧ lik t m = 0)) ∧
    ∃ pre : List (K × List (ℕ × Option ℕ)),
      (∀ x ∈ pre, ∃ p ∈ st.g.hyps, IsSample env.num.expNeg births jp.base.eps jp.base.clutterRate
        (jp.base.clutterRate * jp.base.clutterDen) jp.probSurvive jp.probDetect meas.length lik p x) ∧
      (∀ p ∈ st.g.hyps, ∃ x ∈ pre, IsSample env.num.expNeg births jp.base.eps jp.base.clutterRate
        (jp.base.clutterRate * jp.base.clutterDen) jp.probSurvive jp.probDetect meas.length lik p x) ∧
      ((∃ h' , h' ∈ st'.g.hyps) → (pre.map Prod.fst).sum ≠ 0) ∧
      ∀ h' ∈ st'.g.hyps, ∃ s : List (ℕ × Option ℕ),
        List.Forall₂ (fun im t' => ∃ e e', st.g.tab[im.1]? = some e ∧ st'.g.tab[t']? = some e' ∧
          IsUpdate env jp.base meas e im.2 e') s h'.tracks ∧
        h'.prob * (pre.map Prod.fst).sum =
          ((pre.filter fun x => decide (x.2.Perm s)).map Prod.fst).sum := by
  obtain ⟨blocks, ls, hs, h1, hlen, h2, h3, h4, _⟩ := correct_ok h
  obtain ⟨b1, b2, b3⟩ := corBlocks_ok h1
  let lik : ℕ → ℕ → K := fun t m => ((((blocks[m]?).getD [])[t]?).map Prod.snd).getD 0
  have hzip : ∀ {hn : Hyp K × ℕ}, hn ∈ st.g.hyps.zipIdx → hn.1 ∈ st.g.hyps := by
    intro hn hmem
    obtain ⟨i, hi⟩ := List.mem_iff_getElem?.1 hmem
    rw [List.getElem?_zipIdx, Option.map_eq_some_iff] at hi
    obtain ⟨y, hy, rfl⟩ := hi
    exact List.mem_of_getElem? hy
  -- the samples of one hypothesis
  have hone : ∀ {hn : Hyp K × ℕ} {out}, hn ∈ st.g.hyps.zipIdx → corOne env jp births st.oldLen
      st.g.tab.length blocks (sumSqrt env st.g.hyps) (draws hn.2) hn.1 = .ok out →
      out ≠ [] ∧ ∀ x ∈ out, ∃ y : K × List (ℕ × Option ℕ), x.prob = y.1 ∧
        x.tracks = y.2.map (enc st.g.tab.length) ∧ (∀ im ∈ y.2, im.1 < st.g.tab.length) ∧
        IsSample env.num.expNeg births jp.base.eps jp.base.clutterRate
        (jp.base.clutterRate * jp.base.clutterDen) jp.probSurvive jp.probDetect meas.length lik hn.1 y := by
    intro hn out hmem hc
    obtain ⟨c1, c2, c3, rows, r1, r2, r3, r4, rfl⟩ := corOne_ok hexp (fun s v => hd _ s v) hc
    refine ⟨by simpa using r1, ?_⟩
    intro x hxo
    obtain ⟨⟨a, c⟩, hac, rfl⟩ := List.mem_map.1 hxo
    obtain ⟨hinj, hcs⟩ := r4 a c hac
    have hnd := tinds_nodup (nb := births.length) (hI hn.1 (hzip hmem))
    refine ⟨(_, sel _ a), rfl, rowTracks_sel _ _ _, ?_, ?_⟩
    · intro im him
      exact c1 _ ((sel_sublist _ a).subset (List.mem_map_of_mem him))
    · refine ⟨fun i => (a i).val, fun i j hij => hinj (Fin.ext hij), ?_, rfl, ?_⟩
      · intro i
        have := (a i).isLt
        have h0 : numCols (tinds births.length hn.1).length blocks.length ≤ meas.length := by
          unfold numCols
          split <;> omega
        have h1 : (tinds births.length hn.1).length =
          (candidates births.length hn.1).length := rfl
        show (a i).val < _
        omega
      · simp only
        have hp : (jp.base.clutterRate * jp.base.clutterDen) ^ blocks.length =
            (jp.base.clutterRate * jp.base.clutterDen) ^ meas.length := by rw [b1]
        rw [hcs, hx.sum, hp]
        congr 1
        apply Finset.prod_congr rfl
        intro i _
        have e1 := costVal_eq (jp := jp) (oldLen := st.oldLen) (blocks := blocks) hnd
          (fun t ht => by rw [hlen]; exact c1 t ht) (i := i.val) (j := (a i).val) i.isLt
        rw [hx.inv]
        · exact e1
        · rw [e1]
          exact colWeight_pos heps _ _ _ _
  obtain ⟨pre, hpre⟩ := exists_forall₂ (R := fun (x : Hyp K) (y : K × List (ℕ × Option ℕ)) =>
      x.prob = y.1 ∧ x.tracks = y.2.map (enc st.g.tab.length) ∧ (∀ im ∈ y.2, im.1 < st.g.tab.length) ∧
        ∃ hn ∈ st.g.hyps.zipIdx, (∃ out ∈ ls, x ∈ out ∧ corOne env jp births st.oldLen
      st.g.tab.length blocks (sumSqrt env st.g.hyps) (draws hn.2) hn.1 = .ok out) ∧
          IsSample env.num.expNeg births jp.base.eps jp.base.clutterRate
        (jp.base.clutterRate * jp.base.clutterDen) jp.probSurvive jp.probDetect meas.length lik hn.1 y) ls.flatten (by
    intro x hxm
    obtain ⟨out, hout, hxo⟩ := List.mem_flatten.1 hxm
    obtain ⟨hn, hmem, hc⟩ := forall₂_mem_right h2 hout
    obtain ⟨y, y1, y2, y3, y4⟩ := (hone hmem hc).2 x hxo
    exact ⟨y, y1, y2, y3, hn, hmem, ⟨out, hout, hxo, hc⟩, y4⟩)
  have hsum : Glmb.mass ls.flatten = (pre.map Prod.fst).sum := by
    have := massOf_forall₂ (p := fun _ => True) (p' := fun _ => True)
      (hpre.imp fun x y hxy => ⟨hxy.1, Iff.rfl⟩)
    rw [massOf_true] at this
    rw [this]
    simp
  refine ⟨lik, ?_, pre, ?_, ?_, ?_, ?_⟩
  · intro t m e z ht hm
    have hml : m < blocks.length := by rw [b1]; exact (List.getElem?_eq_some_iff.1 hm).1
    obtain ⟨z', hz', hzt⟩ := b3 m _ (List.getElem?_eq_getElem hml)
    rw [hm, Option.some.injEq] at hz'
    subst hz'
    obtain ⟨o, c, hoc, hbt⟩ := hzt t e ht
    have hlik : lik t m = c := by
      simp only [lik]
      rw [List.getElem?_eq_getElem hml, Option.getD_some, hbt]
      rfl
    rw [hlik]
    exact correctEntry_cost hoc
  · intro y hy
    obtain ⟨x, _, _, _, _, hn, hmem, _, hsam⟩ := forall₂_mem_right hpre hy
    exact ⟨hn.1, hzip hmem, hsam⟩
  · intro p hp
    obtain ⟨i, hi⟩ := List.mem_iff_getElem?.1 hp
    have hmem : (p, i) ∈ st.g.hyps.zipIdx := by
      apply List.mem_of_getElem? (i := i)
      rw [List.getElem?_zipIdx, hi]
      simp
    obtain ⟨out, hout, hc⟩ := forall₂_mem_left h2 hmem
    obtain ⟨hne, hall⟩ := hone hmem hc
    obtain ⟨x, hxo⟩ := List.exists_mem_of_ne_nil _ hne
    have hxf : x ∈ ls.flatten := List.mem_flatten.2 ⟨out, hout, hxo⟩
    -- all samples of the same list position come from this hypothesis up to equality of outputs
    obtain ⟨y, hy, y1, y2, y3, _⟩ := forall₂_mem_left hpre hxf
    obtain ⟨y', z1, z2, z3, z4⟩ := hall x hxo
    refine ⟨y, hy, ?_⟩
    have e1 : y = y' := by
      apply Prod.ext
      · rw [← y1, z1]
      · have hmm : y.2.map (enc st.g.tab.length) = y'.2.map (enc st.g.tab.length) := by rw [← y2, z2]
        have h2 := congrArg (List.map (dec st.g.tab.length)) hmm
        rw [List.map_map, List.map_map] at h2
        have e : ∀ l : List (ℕ × Option ℕ), (∀ x ∈ l, x.1 < st.g.tab.length) →
            l.map (dec st.g.tab.length ∘ enc st.g.tab.length) = l := by
          intro l hl
          conv_rhs => rw [← List.map_id l]
          apply List.map_congr_left
          intro x hx
          exact dec_enc (hl x hx)
        rwa [e _ y3, e _ z3] at h2
    rw [e1]
    exact z4
  · rintro ⟨h', hh'⟩ h0
    obtain ⟨_, _, _, _, hhyps⟩ := cleanUpd_ok h4
    rw [hhyps] at hh'
    obtain ⟨q, hq, _⟩ := List.mem_map.1 hh'
    obtain ⟨q0, hq0, _⟩ := cleanPred_mem (List.mem_filter.1 hq).1
    obtain ⟨y, hy, _, _⟩ := normHyps_mem h3 hq0
    rcases (normHyps_ok h3).1 with hnil | hne
    · rw [hnil] at hy; simp at hy
    · exact hne (hsum.trans h0)
  · intro h' hh'
    obtain ⟨_, _, hidx, _, hhyps⟩ := cleanUpd_ok h4
    rw [hhyps] at hh'
    obtain ⟨q, hq, rfl⟩ := List.mem_map.1 hh'
    rw [List.mem_filter, List.all_eq_true] at hq
    obtain ⟨hq, hall⟩ := hq
    obtain ⟨q0, hq0, hqt⟩ := cleanPred_mem hq
    obtain ⟨x0, hx0, hx0t, _⟩ := normHyps_mem h3 hq0
    obtain ⟨y, hy, y1, y2, y3, _⟩ := forall₂_mem_left hpre hx0
    have hqy : q.tracks = y.2.map (enc st.g.tab.length) := by rw [hqt, hx0t, y2]
    refine ⟨y.2, ?_, ?_⟩
    · simp only
      rw [hqy] at hall ⊢
      rw [List.map_map, List.forall₂_map_right_iff, List.forall₂_same]
      intro im him
      have hmem : enc st.g.tab.length im ∈ usedInds (upTab st.g.tab blocks) (cleanPred hs) := by
        simpa using hall _ (List.mem_map_of_mem him)
      obtain ⟨u1, u2⟩ := hidx _ hmem
      obtain ⟨e', he'⟩ := (mem_usedInds.1 hmem).1
      rw [he', Option.some.injEq] at u2
      exact ⟨st.g.tab[im.1]'(y3 im him), e', List.getElem?_eq_getElem _, u2, upTab_enc h1 (y3 im him) he'⟩
    · have hkeys := cleanPred_keys hs
      have e1 := massOf_self hkeys hq
      have e2 := cleanPred_massOf (fun l => l.Perm q.tracks)
        (fun a b hab => ⟨fun h => hab.symm.trans h, fun h => hab.trans h⟩) hs
      have e3 : massOf (fun x => x.tracks.Perm q.tracks) hs * (pre.map Prod.fst).sum =
          massOf (fun x => x.tracks.Perm q.tracks) ls.flatten := by
        have hne : (pre.map Prod.fst).sum ≠ 0 := by
          intro h0
          rcases (normHyps_ok h3).1 with hnil | hne
          · rw [hnil] at hx0; simp at hx0
          · exact hne (hsum.trans h0)
        have : ∀ l : List (Hyp K), ∀ c : K, massOf (fun x => x.tracks.Perm q.tracks)
            (l.map fun h => ({ h with prob := h.prob / c } : Hyp K)) =
            massOf (fun x => x.tracks.Perm q.tracks) l / c := by
          intro l c
          induction l with
          | nil => simp [massOf_nil]
          | cons a l ih =>
            rw [List.map_cons, massOf_cons, massOf_cons, ih, add_div]
            congr 1
            split <;> simp
        rw [(normHyps_ok h3).2, this, show (ls.flatten.map fun h => h.prob).sum = (pre.map Prod.fst).sum
          from hsum, div_mul_cancel₀ _ hne]
      simp only
      rw [← e1, e2, e3]
      apply massOf_forall₂
      refine hpre.imp ?_
      intro x y' hxy
      refine ⟨hxy.1, ?_⟩
      rw [hxy.2.1, hqy]
      exact enc_perm hxy.2.2.1 y3

end Gasur.Jglmb
