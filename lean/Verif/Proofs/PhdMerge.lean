import Verif.Proofs.Phd

/-! Proofs about `_merge`. -/

set_option linter.unusedSectionVars false
set_option linter.unusedSimpArgs false

namespace Gasur.Phd

open Gasur.Spec

variable {K V P Z : Type*} [Field K] [LinearOrder K] [IsStrictOrderedRing K]
variable [AddCommGroup V] [Module K V] [AddCommGroup P] [Module K P]

theorem argmax_some : ∀ {ws : List K}, ws ≠ [] → ∃ j w, argmax ws = some j ∧ ws[j]? = some w ∧
    ∀ x ∈ ws, x ≤ w
  | [], h => absurd rfl h
  | x :: l, _ => by
    unfold argmax
    cases l with
    | nil => exact ⟨0, x, rfl, rfl, by simp⟩
    | cons y l =>
      obtain ⟨j, w, h1, h2, h3⟩ := argmax_some (ws := y :: l) (by simp)
      rw [h1]
      simp only
      rw [h2]
      simp only
      split
      · rename_i hlt
        refine ⟨j + 1, w, rfl, by simpa using h2, ?_⟩
        intro z hz
        rcases List.mem_cons.1 hz with rfl | hz
        · exact hlt.le
        · exact h3 z hz
      · rename_i hlt
        refine ⟨0, x, rfl, rfl, ?_⟩
        intro z hz
        rcases List.mem_cons.1 hz with rfl | hz
        · exact le_refl _
        · exact (h3 z hz).trans (not_lt.1 hlt)

theorem mark_length (ws : List K) (is : List ℕ) : (mark ws is).length = ws.length := by
  unfold mark
  induction is generalizing ws with
  | nil => rfl
  | cons i is ih => rw [List.foldl_cons, ih, List.length_set]

theorem mark_getElem? : ∀ (is : List ℕ) (ws : List K) (i : ℕ),
    (mark ws is)[i]? = if i ∈ is then (if i < ws.length then some (-1) else none) else ws[i]?
  | [], ws, i => by simp [mark]
  | j :: is, ws, i => by
    have h1 : mark ws (j :: is) = mark (ws.set j (-1)) is := rfl
    rw [h1, mark_getElem? is (ws.set j (-1)) i]
    by_cases hi : i ∈ is
    · simp [hi]
    · rw [if_neg hi, List.getElem?_set]
      by_cases hij : j = i
      · subst hij; simp
      · rw [if_neg hij, if_neg]
        simp only [List.mem_cons, not_or]
        exact ⟨fun h => hij h.symm, hi⟩

/-- Weight, mean and covariance at a position (0 outside). -/
def cw (cs : List (K × V × P)) (i : ℕ) : K := ((cs[i]?).map fun c => c.1).getD 0
/-- Mean at a position. -/
def cm (cs : List (K × V × P)) (i : ℕ) : V := ((cs[i]?).map fun c => c.2.1).getD 0
/-- Covariance at a position. -/
def cp (cs : List (K × V × P)) (i : ℕ) : P := ((cs[i]?).map fun c => c.2.2).getD 0

/-- Total weight of a group of positions. -/
def gw (cs : List (K × V × P)) (g : List ℕ) : K := (g.map (cw cs)).sum
/-- Weighted sum of means of a group. -/
def gm (cs : List (K × V × P)) (g : List ℕ) : V := (g.map fun i => cw cs i • cm cs i).sum
/-- Weighted sum of covariances of a group. -/
def gp (cs : List (K × V × P)) (g : List ℕ) : P := (g.map fun i => cw cs i • cp cs i).sum

/-- The merged component of a group. -/
def mergedComp (cs : List (K × V × P)) (g : List ℕ) : K × V × P :=
  (gw cs g, (gw cs g)⁻¹ • gm cs g, (gw cs g)⁻¹ • gp cs g)

theorem wtot_eq (cs : List (K × V × P)) (ws : List K) : ∀ (is : List ℕ),
    (∀ i ∈ is, ws[i]? = some (cw cs i)) → wtot ws is = some (gw cs is)
  | [], _ => rfl
  | i :: is, h => by
    unfold wtot
    rw [h i List.mem_cons_self, wtot_eq cs ws is (fun j hj => h j (List.mem_cons_of_mem _ hj))]
    simp [gw]

theorem wsum_eq {E : Type*} [AddCommMonoid E] [Module K E] (cs : List (K × V × P)) (ws : List K)
    (xs : List E) (f : ℕ → E) : ∀ (is : List ℕ),
    (∀ i ∈ is, ws[i]? = some (cw cs i)) → (∀ i ∈ is, xs[i]? = some (f i)) →
    wsum ws xs is = some ((is.map fun i => cw cs i • f i).sum)
  | [], _, _ => by simp [wsum]
  | i :: is, h, hx => by
    unfold wsum
    rw [h i List.mem_cons_self, hx i List.mem_cons_self,
      wsum_eq cs ws xs f is (fun j hj => h j (List.mem_cons_of_mem _ hj))
        (fun j hj => hx j (List.mem_cons_of_mem _ hj))]
    simp

theorem compInds_eq (quad : P → V → K) (thr : K) (cs : List (K × V × P)) (p : P) (mj : V) :
    ∀ (is : List ℕ), (∀ i ∈ is, (ofComps cs).ms[i]? = some (cm cs i)) →
    compInds quad thr (ofComps cs).ms p mj is =
      some (is.filter fun i => decide (quad p (cm cs i - mj) ≤ thr))
  | [], _ => rfl
  | i :: is, h => by
    unfold compInds
    rw [h i List.mem_cons_self,
      compInds_eq quad thr cs p mj is (fun j hj => h j (List.mem_cons_of_mem _ hj))]
    simp only [List.filter_cons, decide_eq_true_eq]
    split <;> rfl

theorem filter_compl (is : List ℕ) (q : ℕ → Bool) :
    (is.filter fun x => decide (x ∉ is.filter q)) = is.filter fun x => !q x := by
  apply List.filter_congr
  intro x hx
  simp only [List.mem_filter, hx, true_and]
  cases q x <;> simp

theorem getElem?_lists {cs : List (K × V × P)} {i : ℕ} (h : i < cs.length) :
    (ofComps cs).ws[i]? = some (cw cs i) ∧ (ofComps cs).ms[i]? = some (cm cs i) ∧
    (ofComps cs).ps[i]? = some (cp cs i) := by
  simp [ofComps, cw, cm, cp, h]

/-- Group `g` consists of all remaining positions close to its leader `jj`, and the leader is one of
the heaviest remaining ones. -/
structure IsGroup (quad : P → V → K) (thr : K) (cs : List (K × V × P)) (remaining g : List ℕ) :
    Prop where
  leader : ∃ jj ∈ g, (∀ i ∈ remaining, cw cs i ≤ cw cs jj) ∧
    g = remaining.filter fun i => decide (quad (cp cs jj) (cm cs i - cm cs jj) ≤ thr)

/-- `groups` is obtained by repeatedly taking a group out of the remaining positions. -/
inductive Grouping (quad : P → V → K) (thr : K) (cs : List (K × V × P)) :
    List ℕ → List (List ℕ) → Prop
  | nil : Grouping quad thr cs [] []
  | cons {rem g gs} : IsGroup quad thr cs rem g →
      Grouping quad thr cs (rem.filter fun i => decide (i ∉ g)) gs →
      Grouping quad thr cs rem (g :: gs)

theorem Grouping.perm {quad : P → V → K} {thr : K} {cs : List (K × V × P)} {rem gs}
    (h : Grouping quad thr cs rem gs) : gs.flatten.Perm rem := by
  induction h with
  | nil => simp
  | @cons rem g gs hg _ ih =>
    rw [List.flatten_cons]
    obtain ⟨jj, _, _, h3⟩ := hg.leader
    refine (List.Perm.append_left g ih).trans ?_
    have : (rem.filter fun i => decide (i ∉ g)) = rem.filter fun x =>
        !decide (quad (cp cs jj) (cm cs x - cm cs jj) ≤ thr) := by
      conv_lhs => rw [h3]
      exact filter_compl rem _
    rw [this]
    conv_lhs => rw [h3]
    exact List.filter_append_perm _ rem

theorem Grouping.nonempty {quad : P → V → K} {thr : K} {cs : List (K × V × P)} {rem gs}
    (h : Grouping quad thr cs rem gs) : ∀ g ∈ gs, g ≠ [] := by
  induction h with
  | nil => simp
  | @cons rem g gs hg _ ih =>
    intro g' hg'
    rcases List.mem_cons.1 hg' with rfl | hg'
    · obtain ⟨jj, h, _⟩ := hg.leader
      exact List.ne_nil_of_mem h
    · exact ih g' hg'

theorem mergeLoop_spec (quad : P → V → K) (thr : K) (hthr : 0 ≤ thr) (hq : ∀ p, quad p 0 = 0)
    (cs : List (K × V × P)) (hw : ∀ c ∈ cs, 0 ≤ c.1) : ∀ (fuel : ℕ) (inds : List ℕ) (ws : List K)
    (acc : List (K × V × P)), inds.length ≤ fuel → (∀ i ∈ inds, i < cs.length) →
    ws.length = cs.length →
    (∀ i, i < cs.length → ws[i]? = if i ∈ inds then some (cw cs i) else some (-1)) →
    ∃ gs, Grouping quad thr cs inds gs ∧
      mergeLoop quad thr (ofComps cs).ms (ofComps cs).ps fuel inds ws (ofComps acc) =
        if ∃ g ∈ gs, gw cs g = 0 then .error .zeroDiv
        else .ok (ofComps (acc ++ gs.map (mergedComp cs)))
  | fuel, [], ws, acc, _, _, _, _ => by
    refine ⟨[], .nil, ?_⟩
    unfold mergeLoop
    simp
  | 0, i :: is, ws, acc, hf, _, _, _ => by simp at hf
  | fuel + 1, i :: is, ws, acc, hf, hlt, hlen, hws => by
    have hi := hlt i List.mem_cons_self
    have hcwnn : ∀ j, 0 ≤ cw cs j := by
      intro j
      unfold cw
      cases hj : cs[j]? with
      | none => simp
      | some c => simpa using hw c (List.mem_of_getElem? hj)
    have hne : ws ≠ [] := by
      intro h
      rw [h] at hlen
      simp at hlen
      omega
    obtain ⟨jj, w, ha, hjw, hmax⟩ := argmax_some hne
    have hjlt : jj < cs.length := by
      by_contra hc
      rw [List.getElem?_eq_none (by omega)] at hjw
      simp at hjw
    have hwi : ws[i]? = some (cw cs i) := by
      rw [hws i hi, if_pos List.mem_cons_self]
    have hjin : jj ∈ i :: is := by
      by_contra hc
      rw [hws jj hjlt, if_neg hc] at hjw
      simp only [Option.some.injEq] at hjw
      have h1 := hmax _ (List.mem_of_getElem? hwi)
      have h2 := hcwnn i
      rw [← hjw] at h1
      have h3 : (-1 : K) < 0 := by simp
      exact absurd (lt_of_lt_of_le h3 (h2.trans h1)) (lt_irrefl _)
    have hwjj : w = cw cs jj := by
      rw [hws jj hjlt, if_pos hjin] at hjw
      simpa using hjw.symm
    obtain ⟨_, hm, hp⟩ := getElem?_lists hjlt
    have hci := compInds_eq quad thr cs (cp cs jj) (cm cs jj) (i :: is)
      (fun k hk => (getElem?_lists (hlt k hk)).2.1)
    let comp := (i :: is).filter fun k => decide (quad (cp cs jj) (cm cs k - cm cs jj) ≤ thr)
    have hcomp : comp ⊆ i :: is := fun k hk => (List.mem_filter.1 hk).1
    have hjc : jj ∈ comp := by
      rw [List.mem_filter]
      refine ⟨hjin, ?_⟩
      rw [sub_self, hq]
      simpa using hthr
    have hgrp : IsGroup quad thr cs (i :: is) comp := by
      refine ⟨jj, hjc, ?_, rfl⟩
      intro k hk
      rw [← hwjj]
      apply hmax
      have := hws k (hlt k hk)
      rw [if_pos hk] at this
      exact List.mem_of_getElem? this
    have hwsc : ∀ k ∈ comp, ws[k]? = some (cw cs k) := by
      intro k hk
      rw [hws k (hlt k (hcomp hk)), if_pos (hcomp hk)]
    have hrem : ((i :: is).filter fun x => decide (x ∉ comp)).length ≤ fuel := by
      have h1 : ((i :: is).filter fun x => decide (x ∉ comp)).length < (i :: is).length := by
        rw [← List.countP_eq_length_filter]
        rcases lt_or_eq_of_le (List.countP_le_length (p := fun x => decide (x ∉ comp))
          (l := i :: is)) with h | h
        · exact h
        · rw [List.countP_eq_length] at h
          have := h jj hjin
          simp [hjc] at this
      omega
    obtain ⟨gs, hg, hrun⟩ := mergeLoop_spec quad thr hthr hq cs hw fuel
      ((i :: is).filter fun x => decide (x ∉ comp)) (mark ws comp) (acc ++ [mergedComp cs comp])
      hrem (fun k hk => hlt k (List.mem_filter.1 hk).1) (by rw [mark_length, hlen])
      (by
        intro k hk
        rw [mark_getElem?]
        by_cases hkc : k ∈ comp
        · rw [if_pos hkc, if_pos (by omega), if_neg]
          intro h
          have := (List.mem_filter.1 h).2
          simp [hkc] at this
        · rw [if_neg hkc, hws k hk]
          by_cases hki : k ∈ i :: is
          · rw [if_pos hki, if_pos]
            rw [List.mem_filter]
            exact ⟨hki, by simpa using hkc⟩
          · rw [if_neg hki, if_neg]
            intro h
            exact hki (List.mem_filter.1 h).1)
    refine ⟨comp :: gs, .cons hgrp hg, ?_⟩
    unfold mergeLoop
    rw [ha]
    simp only
    rw [hp, hm]
    simp only
    rw [hci]
    simp only
    rw [wtot_eq cs ws comp hwsc,
      wsum_eq cs ws _ (cm cs) comp hwsc (fun k hk => (getElem?_lists (hlt k (hcomp hk))).2.1),
      wsum_eq cs ws _ (cp cs) comp hwsc (fun k hk => (getElem?_lists (hlt k (hcomp hk))).2.2)]
    simp only
    by_cases h0 : gw cs comp = 0
    · rw [if_pos h0, if_pos ⟨comp, List.mem_cons_self, h0⟩]
    · rw [if_neg h0]
      have hacc : ({ ws := (ofComps acc).ws ++ [gw cs comp]
                     ms := (ofComps acc).ms ++
                      [(gw cs comp)⁻¹ • (comp.map fun i => cw cs i • cm cs i).sum]
                     ps := (ofComps acc).ps ++
                      [(gw cs comp)⁻¹ • (comp.map fun i => cw cs i • cp cs i).sum] } : Mix K V P) =
          ofComps (acc ++ [mergedComp cs comp]) := by
        simp [ofComps, mergedComp, gm, gp]
      rw [hacc, hrun]
      by_cases hz : ∃ g ∈ gs, gw cs g = 0
      · rw [if_pos hz, if_pos]
        obtain ⟨g, hg1, hg2⟩ := hz
        exact ⟨g, List.mem_cons_of_mem _ hg1, hg2⟩
      · rw [if_neg hz, if_neg]
        · simp
        · rintro ⟨g, hg1, hg2⟩
          rcases List.mem_cons.1 hg1 with rfl | hg1
          · exact h0 hg2
          · exact hz ⟨g, hg1, hg2⟩

theorem merge_spec (quad : P → V → K) (pr : Params K) (hthr : 0 ≤ pr.mergeThreshold)
    (hq : ∀ p, quad p 0 = 0) (cs : List (K × V × P)) (hw : ∀ c ∈ cs, 0 ≤ c.1) :
    ∃ gs, Grouping quad pr.mergeThreshold cs (List.range cs.length) gs ∧
      merge quad pr (ofComps cs) =
        if ∃ g ∈ gs, gw cs g = 0 then .error .zeroDiv else .ok (ofComps (gs.map (mergedComp cs))) := by
  have hl : (ofComps cs).ms.length = cs.length := by simp [ofComps]
  obtain ⟨gs, h1, h2⟩ := mergeLoop_spec quad pr.mergeThreshold hthr hq cs hw cs.length
    (List.range cs.length) (ofComps cs).ws [] (by simp) (by simp) (by simp [ofComps]) (by
      intro i hi
      rw [if_pos (List.mem_range.2 hi)]
      exact (getElem?_lists hi).1)
  refine ⟨gs, h1, ?_⟩
  unfold merge
  rw [hl]
  rw [List.nil_append] at h2
  exact h2

/-! ### sums -/

theorem sum_range_getElem {E : Type*} [AddCommMonoid E] (cs : List (K × V × P)) (f : ℕ → E)
    (g : K × V × P → E) (h : ∀ (i : ℕ) (c), cs[i]? = some c → f i = g c) :
    ((List.range cs.length).map f).sum = (cs.map g).sum := by
  congr 1
  apply List.ext_getElem
  · simp
  · intro i h1 h2
    simp only [List.length_map, List.length_range] at h1 h2
    simp only [List.getElem_map, List.getElem_range]
    exact h i _ (List.getElem?_eq_getElem h2)

theorem sum_flatten {E : Type*} [AddCommMonoid E] (f : ℕ → E) : ∀ (gs : List (List ℕ)),
    (gs.map fun g => (g.map f).sum).sum = (gs.flatten.map f).sum
  | [] => rfl
  | g :: gs => by simp [sum_flatten f gs]

theorem sum_groups {E : Type*} [AddCommMonoid E] (cs : List (K × V × P)) (f : ℕ → E)
    (g : K × V × P → E) (h : ∀ (i : ℕ) (c), cs[i]? = some c → f i = g c) {gs : List (List ℕ)}
    (hp : gs.flatten.Perm (List.range cs.length)) :
    (gs.map fun g => (g.map f).sum).sum = (cs.map g).sum := by
  rw [sum_flatten, ← sum_range_getElem cs f g h]
  exact (hp.map f).sum_eq

theorem merged_mass (cs : List (K × V × P)) {gs : List (List ℕ)}
    (hp : gs.flatten.Perm (List.range cs.length)) : mass (gs.map (mergedComp cs)) = mass cs := by
  unfold mass
  rw [List.map_map]
  exact sum_groups cs (cw cs) _ (fun i c h => by simp [cw, h]) hp

theorem merged_moment (cs : List (K × V × P)) {gs : List (List ℕ)}
    (hp : gs.flatten.Perm (List.range cs.length)) (h0 : ∀ g ∈ gs, gw cs g ≠ 0) :
    moment (gs.map (mergedComp cs)) = moment cs := by
  unfold moment
  rw [List.map_map]
  rw [← sum_groups cs (fun i => cw cs i • cm cs i) _ (fun i c h => by simp [cw, cm, h]) hp]
  congr 1
  apply List.map_congr_left
  intro g hg
  simp only [Function.comp, mergedComp]
  rw [smul_smul, mul_inv_cancel₀ (h0 g hg), one_smul]
  rfl

theorem merged_covMass (cs : List (K × V × P)) {gs : List (List ℕ)}
    (hp : gs.flatten.Perm (List.range cs.length)) (h0 : ∀ g ∈ gs, gw cs g ≠ 0) :
    covMass (gs.map (mergedComp cs)) = covMass cs := by
  unfold covMass
  rw [List.map_map]
  rw [← sum_groups cs (fun i => cw cs i • cp cs i) _ (fun i c h => by simp [cw, cp, h]) hp]
  congr 1
  apply List.map_congr_left
  intro g hg
  simp only [Function.comp, mergedComp]
  rw [smul_smul, mul_inv_cancel₀ (h0 g hg), one_smul]
  rfl

theorem groups_length {cs : List (K × V × P)} {gs : List (List ℕ)}
    (hp : gs.flatten.Perm (List.range cs.length)) (hne : ∀ g ∈ gs, g ≠ []) :
    gs.length ≤ cs.length := by
  have h1 : gs.flatten.length = cs.length := by rw [hp.length_eq, List.length_range]
  rw [← h1]
  clear h1 hp
  induction gs with
  | nil => simp
  | cons g gs ih =>
    rw [List.flatten_cons, List.length_append, List.length_cons]
    have := ih (fun g' hg' => hne g' (List.mem_cons_of_mem _ hg'))
    have : 0 < g.length := List.length_pos_iff.2 (hne g List.mem_cons_self)
    omega

theorem gw_nonneg {cs : List (K × V × P)} (hw : ∀ c ∈ cs, 0 ≤ c.1) (g : List ℕ) : 0 ≤ gw cs g := by
  unfold gw
  apply List.sum_nonneg
  intro x hx
  obtain ⟨j, _, rfl⟩ := List.mem_map.1 hx
  unfold cw
  cases hj : cs[j]? with
  | none => simp
  | some c => simpa using hw c (List.mem_of_getElem? hj)

theorem gw_pos {cs : List (K × V × P)} (hw : ∀ c ∈ cs, 0 < c.1) {g : List ℕ} (hg : g ≠ [])
    (hl : ∀ i ∈ g, i < cs.length) : 0 < gw cs g := by
  unfold gw
  have hpos : ∀ x ∈ g.map (cw cs), 0 < x := by
    intro x hx
    obtain ⟨j, hj, rfl⟩ := List.mem_map.1 hx
    unfold cw
    rw [List.getElem?_eq_getElem (hl j hj)]
    simpa using hw _ (List.getElem_mem _)
  cases g with
  | nil => exact absurd rfl hg
  | cons a g =>
    rw [List.map_cons, List.sum_cons]
    have h1 := hpos _ (List.mem_cons_self (a := cw cs a) (l := g.map (cw cs)))
    have h2 : 0 ≤ (g.map (cw cs)).sum := by
      apply List.sum_nonneg
      intro x hx
      exact (hpos x (List.mem_cons_of_mem _ hx)).le
    linarith

/-- Component at a position. -/
def comp (cs : List (K × V × P)) (i : ℕ) : K × V × P := (cw cs i, cm cs i, cp cs i)

theorem map_comp_range (cs : List (K × V × P)) : (List.range cs.length).map (comp cs) = cs := by
  apply List.ext_getElem
  · simp
  · intro i h1 h2
    simp [comp, cw, cm, cp, h2]

theorem mergeGroup_map (cs : List (K × V × P)) (g : List ℕ) :
    mergeGroup (g.map (comp cs)) = mergedComp cs g := by
  simp only [mergeGroup, mergedComp, mass, moment, covMass, gw, gm, gp, List.map_map]
  rfl

theorem Grouping.mergesTo {quad : P → V → K} {thr : K} {cs : List (K × V × P)} {rem gs}
    (h : Grouping quad thr cs rem gs) :
    MergesTo quad thr (rem.map (comp cs)) (gs.map (mergedComp cs)) := by
  induction h with
  | nil => exact .nil
  | @cons rem g gs hg _ ih =>
    obtain ⟨jj, h1, h2, h3⟩ := hg.leader
    have hjr : jj ∈ rem := by rw [h3] at h1; exact (List.mem_filter.1 h1).1
    have e1 : mergedComp cs g = mergeGroup ((rem.map (comp cs)).filter fun c =>
        decide (quad (comp cs jj).2.2 (c.2.1 - (comp cs jj).2.1) ≤ thr)) := by
      rw [← mergeGroup_map]
      conv_lhs => rw [h3]
      rw [List.filter_map]
      rfl
    have e2 : (rem.filter fun i => decide (i ∉ g)).map (comp cs) = (rem.map (comp cs)).filter fun c =>
        decide (thr < quad (comp cs jj).2.2 (c.2.1 - (comp cs jj).2.1)) := by
      rw [List.filter_map]
      congr 1
      have : (rem.filter fun i => decide (i ∉ g)) = rem.filter fun x =>
          !decide (quad (cp cs jj) (cm cs x - cm cs jj) ≤ thr) := by
        conv_lhs => rw [h3]
        exact filter_compl rem _
      rw [this]
      apply List.filter_congr
      intro i _
      rw [Bool.eq_iff_iff]
      simp only [comp, Function.comp, Bool.not_eq_true', decide_eq_false_iff_not, not_le, decide_eq_true_eq]
      exact (decide_eq_true_iff).symm
    rw [List.map_cons, e1]
    rw [e2] at ih
    refine .cons (comp cs jj) (List.mem_map_of_mem hjr) ?_ ih
    intro c hc
    obtain ⟨i, hi, rfl⟩ := List.mem_map.1 hc
    exact h2 i hi

end Gasur.Phd
