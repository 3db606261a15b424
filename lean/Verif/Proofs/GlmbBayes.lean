import Verif.Proofs.GlmbTotal
import Mathlib.Algebra.BigOperators.Fin
import Mathlib.Algebra.BigOperators.Field

/-! Weights of the updated hypotheses of the GLMB filter. -/

set_option linter.unusedSectionVars false
set_option linter.unusedSimpArgs false

namespace Gasur.Glmb

open Gasur.KShortest Gasur.Murty Gasur.Spec

variable {K τ F S C Z : Type*} [Field K] [LinearOrder K] [IsStrictOrderedRing K] [FloorRing K]

/-- `exp` and `log` are inverse homomorphisms. -/
structure ExpLog (num : Num K) : Prop where
  add : ∀ x y, num.expNeg (x + y) = num.expNeg x * num.expNeg y
  zero : num.expNeg 0 = 1
  inv : ∀ x, 0 < x → num.expNeg (num.negLog x) = x

theorem ExpLog.sum {num : Num K} (h : ExpLog num) {ι : Type*} (s : Finset ι) (f : ι → K) :
    num.expNeg (∑ i ∈ s, f i) = ∏ i ∈ s, num.expNeg (f i) := by
  classical
  induction s using Finset.induction_on with
  | empty => simp [h.zero]
  | insert a s ha ih => rw [Finset.sum_insert ha, Finset.prod_insert ha, h.add, ih]

/-- The likelihood that the inner filter assigns to measurement `z` for track `e`: the sum over the
components of the returned values, each increased by `eps`. -/
def IsLik (env : Env K τ F S C Z) (pr : Params K) (z : Z) (e : Entry K τ F S C) (c : K) : Prop :=
  ∃ s w rs, e.sHist.getLast? = some s ∧ e.wHist.getLast? = some w ∧
    List.Forall₂ (fun (x : F × S × K) r => env.corF z x.1 x.2.1 x.2.2 = some r) (e.fStates.zip (s.zip w)) rs ∧
    c = (rs.map fun r => r.2.2.2 + pr.eps).sum

theorem correctEntry_lik {env : Env K τ F S C Z} {pr : Params K} {z : Z} {e e0 : Entry K τ F S C} {c : K}
    (h : correctEntry env pr z e = .ok (some e0, c)) (heps : 0 < pr.eps) (hl : LikAt env e)
    (hne : ∀ w, e.wHist.getLast? = some w → w ≠ []) : IsLik env pr z e c ∧ 0 < c := by
  unfold correctEntry at h
  split at h
  · rename_i s w hs hw
    split at h
    · rename_i hlen
      split at h
      · simp at h
      · rename_i rs hrs
        split at h
        · simp at h
        · simp only [Except.ok.injEq, Prod.mk.injEq] at h
          have hrs' := traverseE_optE (fun x : F × S × K => env.corF z x.1 x.2.1 x.2.2) hrs
          refine ⟨⟨s, w, rs, hs, hw, hrs', h.2.symm⟩, ?_⟩
          rw [← h.2]
          apply List.sum_pos
          · intro x hx
            obtain ⟨r, hr, rfl⟩ := List.mem_map.1 hx
            obtain ⟨y, hm, hy⟩ := forall₂_mem_right hrs' hr
            have := hl y.1 (List.of_mem_zip hm).1 _ _ _ _ hy
            linarith
          · have h1 := hrs'.length_eq
            intro h0
            rw [List.map_eq_nil_iff] at h0
            rw [h0] at h1
            simp only [List.length_zip, List.length_nil] at h1
            have : w.length ≠ 0 := by
              have := hne w hw
              simpa using this
            omega
    · simp at h
  · simp at h

theorem costRows_get {env : Env K τ F S C Z} {pr : Params K}
    {blocks : List (List (Option (Entry K τ F S C) × K))} {tracks : List ℕ}
    {ents : List (Entry K τ F S C)} {rows : List (List K)} (hl : tracks.length = ents.length)
    (h : costRows env pr blocks tracks ents = .ok rows) {i : ℕ} (hi : i < tracks.length) {j : ℕ}
    (hj : j < blocks.length) : ∃ x o c, ((rows[i]?).getD [])[j]? = some x ∧
      (blocks[j])[tracks[i]]? = some (o, c) ∧
      costEntry pr (pr.clutterRate * pr.clutterDen) (env.pdet (ents[i]'(hl ▸ hi))) c = .ok x := by
  unfold costRows at h
  have h1 := List.forall₂_iff_get.1 ((traverseE_ok _ _ _).1 h)
  have hlz : i < (tracks.zip ents).length := by simp [hl ▸ hi, hi]
  have hir : i < rows.length := by rw [← h1.1]; exact hlz
  have h2 := h1.2 i hlz hir
  simp only [List.get_eq_getElem, List.getElem_zip] at h2
  have h3 := List.forall₂_iff_get.1 ((traverseE_ok _ _ _).1 h2)
  have hjr : j < rows[i].length := by rw [← h3.1]; exact hj
  have h4 := h3.2 j hj hjr
  simp only [List.get_eq_getElem] at h4
  unfold blockCost at h4
  split at h4
  · simp at h4
  · rename_i x hx
    refine ⟨rows[i][j], x.1, x.2, ?_, getE_ok.1 hx, h4⟩
    rw [List.getElem?_eq_getElem hir]
    simp

theorem costEntry_pos {pr : Params K} {clutter pd c x : K} (h : costEntry pr clutter pd c = .ok x)
    (hcl : 0 < clutter) (h0 : 0 < pd) (h1 : pd < 1) (hc : 0 < c) :
    0 < x ∧ (1 - pd) * x = pd * c / clutter := by
  unfold costEntry at h
  have hq : 0 < 1 - pd := by linarith
  rw [if_neg hq.ne'] at h
  have hpos : 0 < pd / (1 - pd) * c / clutter := by positivity
  rw [if_neg (not_le.2 hpos)] at h
  simp only [Except.ok.injEq] at h
  subst h
  refine ⟨hpos, ?_⟩
  field_simp

theorem finProd_list {n : ℕ} (l : List K) (h : l.length = n) (f : Fin n → K)
    (hf : ∀ (i : Fin n), l[i.val]'(h ▸ i.isLt) = f i) : l.prod = ∏ i, f i := by
  subst h
  rw [← List.prod_ofFn]
  congr 1
  apply List.ext_getElem
  · simp
  · intro i h1 h2
    rw [hf ⟨i, h1⟩]
    simp

/-- Weights of the hypotheses made by `corOne` (before normalisation), for those whose entries exist. -/
theorem corOne_weight {env : Env K τ F S C Z} {pr : Params K} (hx : ExpLog env.num) (heps : 0 < pr.eps)
    {tab : List (Entry K τ F S C)} (hl : ∀ e ∈ tab, LikAt env e)
    (hdet : ∀ e ∈ tab, 0 < env.pdet e ∧ env.pdet e < 1)
    (hcomp : ∀ e ∈ tab, ∀ w, e.wHist.getLast? = some w → w ≠ []) {meas : List Z}
    {blocks : List (List (Option (Entry K τ F S C) × K))} (hb : corBlocks env pr tab meas = .ok blocks)
    {ss : K} {h : Hyp K} {out} (hc : corOne env pr tab blocks ss h = .ok out) {h'} (hh : h' ∈ out) :
    ∃ a : Fin h.tracks.length → ℕ, (∀ i, a i ≤ blocks.length) ∧
      (∀ i i', a i = a i' → a i ≠ 0 → i = i') ∧
      (h'.tracks = (List.finRange h.tracks.length).map fun i => h.tracks[i] + tab.length * a i) ∧
      ((∀ k ∈ h'.tracks, ∃ e, (upTab tab blocks)[k]? = some (some e)) →
        ∃ g : Fin h.tracks.length → K,
          (∀ i, ∃ e, tab[h.tracks[i]]? = some e ∧
            ((a i = 0 ∧ g i = 1 - env.pdet e) ∨
             ∃ j z c, a i = j + 1 ∧ meas[j]? = some z ∧ IsLik env pr z e c ∧
              g i = env.pdet e * c / (pr.clutterRate * pr.clutterDen))) ∧
          h'.prob = env.num.expNeg pr.clutterRate * (pr.clutterRate * pr.clutterDen) ^ meas.length *
            h.prob * ∏ i, g i) := by
  have hzero : h.tracks = (List.finRange h.tracks.length).map fun i =>
      h.tracks[i] + tab.length * (0 : ℕ) := by
    simp only [Nat.mul_zero, Nat.add_zero]
    apply List.ext_getElem
    · simp
    · intro i h1 h2
      simp
  obtain ⟨b1, b2, b3⟩ := corBlocks_ok hb
  obtain ⟨ents, hents, hcase⟩ := corOne_ok hc
  have hel := hents.length_eq
  have heget : ∀ i : Fin h.tracks.length, tab[h.tracks[i]]? = some (ents[i.val]'(hel ▸ i.isLt)) := by
    intro i
    have := (List.forall₂_iff_get.1 hents).2 i.val i.isLt (hel ▸ i.isLt)
    simpa using this
  have hpmd : (ents.map fun e => 1 - env.pdet e).prod =
      ∏ i : Fin h.tracks.length, (1 - env.pdet (ents[i.val]'(hel ▸ i.isLt))) :=
    finProd_list _ (by rw [List.length_map, hel]) _ (by intro i; simp)
  rcases hcase with h1 | h1 | h1
  · obtain ⟨h0, rfl⟩ := h1
    rw [List.mem_singleton] at hh
    subst hh
    refine ⟨fun _ => 0, by simp, by simp, hzero, fun _ =>
      ⟨fun i => 1 - env.pdet (ents[i.val]'(hel ▸ i.isLt)), fun i => ⟨_, heget i, .inl ⟨rfl, rfl⟩⟩, ?_⟩⟩
    simp only
    rw [hpmd, ← b1, h0]
    simp only [List.length_nil, pow_zero, mul_one]
    ring
  · obtain ⟨_, _, ht, rfl⟩ := h1
    rw [List.mem_singleton] at hh
    subst hh
    have hz : ∀ i : Fin h.tracks.length, False := fun i => by
      have h1 := i.isLt
      have h2 : h.tracks.length = 0 := by simp [ht]
      omega
    refine ⟨fun _ => 0, by simp, by simp, hzero, fun _ => ⟨fun i => (hz i).elim, fun i => (hz i).elim, ?_⟩⟩
    have : (Finset.univ : Finset (Fin h.tracks.length)) = ∅ := by
      ext i; exact (hz i).elim
    simp only [this, Finset.prod_empty, mul_one]
    rw [b1]
  · obtain ⟨_, hcl, hne, _, rows, assigns, hrows, hm, rfl⟩ := h1
    obtain ⟨ac, hac, rfl⟩ := List.mem_map.1 hh
    obtain ⟨g1, g2, _, g4⟩ := Gasur.Props.C05_murty_rows _ _ (List.length_pos_iff.2 hne) _ hm ac hac
    refine ⟨ac.1, g1, g2, rfl, ?_⟩
    intro hex
    let rc : Fin h.tracks.length → K := fun i => ∑ j : Fin blocks.length,
      if ac.1 i = j.val + 1 then
        (costMat env rows h.tracks.length blocks.length i j).untopD 0 else 0
    have key : ∀ i : Fin h.tracks.length,
        (ac.1 i = 0 ∧ (1 - env.pdet (ents[i.val]'(hel ▸ i.isLt))) * env.num.expNeg (rc i) =
          1 - env.pdet (ents[i.val]'(hel ▸ i.isLt))) ∨
        ∃ j z c, ac.1 i = j + 1 ∧ meas[j]? = some z ∧
          IsLik env pr z (ents[i.val]'(hel ▸ i.isLt)) c ∧
          (1 - env.pdet (ents[i.val]'(hel ▸ i.isLt))) * env.num.expNeg (rc i) =
          env.pdet (ents[i.val]'(hel ▸ i.isLt)) * c / (pr.clutterRate * pr.clutterDen) := by
      intro i
      by_cases h0 : ac.1 i = 0
      · left
        refine ⟨h0, ?_⟩
        have : rc i = 0 := by
          apply Finset.sum_eq_zero
          intro j _
          rw [if_neg (by omega)]
        rw [this, hx.zero, mul_one]
      · right
        obtain ⟨j, hj⟩ : ∃ j, ac.1 i = j + 1 := ⟨ac.1 i - 1, by omega⟩
        have hjl : j < blocks.length := by have := g1 i; omega
        have hrc : rc i = (costMat env rows h.tracks.length blocks.length i ⟨j, hjl⟩).untopD 0 := by
          show (∑ j' : Fin blocks.length, _) = _
          rw [Finset.sum_eq_single ⟨j, hjl⟩]
          · rw [if_pos (by simpa using hj)]
          · intro b _ hb
            rw [if_neg]
            intro hc
            exact hb (Fin.ext (by simp only; omega))
          · simp
        obtain ⟨x, o, c, hx1, hx2, hx3⟩ := costRows_get hel hrows i.isLt hjl
        obtain ⟨z, hz, hzt⟩ := b3 j _ (List.getElem?_eq_getElem hjl)
        obtain ⟨o', c', hoc, hbt⟩ := hzt _ _ (heget i)
        have hoc2 : (o, c) = (o'.map (addMeas (some j)), c') := by
          have := hx2.symm.trans hbt
          simpa using this
        have hcc : c = c' := congrArg Prod.snd hoc2
        subst hcc
        -- the entry is not depleted
        have hmem : h.tracks[i] + tab.length * (j + 1) ∈
            (List.finRange h.tracks.length).map fun i => h.tracks[i] + tab.length * ac.1 i :=
          List.mem_map.2 ⟨i, List.mem_finRange i, by rw [hj]⟩
        obtain ⟨e', he'⟩ := hex _ hmem
        have hti : h.tracks[i] < tab.length := (List.getElem?_eq_some_iff.1 (heget i)).1
        have hg := (upTab_get b2 hti).2 j
        rw [he', List.getElem?_eq_getElem hjl] at hg
        simp only [Option.bind_some] at hg
        rw [hbt] at hg
        simp only [Option.map_some, Option.some.injEq] at hg
        cases ho : o' with
        | none => rw [ho] at hg; simp at hg
        | some e0 =>
          rw [ho] at hoc
          have hmemtab : ents[i.val]'(hel ▸ i.isLt) ∈ tab := List.mem_of_getElem? (heget i)
          obtain ⟨k1, k2⟩ := correctEntry_lik hoc heps (hl _ hmemtab) (hcomp _ hmemtab)
          obtain ⟨d0, d1⟩ := hdet (ents[i.val]'(hel ▸ i.isLt)) hmemtab
          obtain ⟨p1, p2⟩ := costEntry_pos hx3 hcl d0 d1 k2
          refine ⟨j, z, c, hj, hz, k1, ?_⟩
          rw [hrc]
          unfold costMat
          simp only [hx1, Option.getD_some]
          rw [WithTop.untopD_coe, hx.inv x p1]
          exact p2
    refine ⟨fun i => (1 - env.pdet (ents[i.val]'(hel ▸ i.isLt))) * env.num.expNeg (rc i), ?_, ?_⟩
    · intro i
      refine ⟨_, heget i, ?_⟩
      rcases key i with ⟨k1, k2⟩ | ⟨j, z, c, k1, k2, k3, k4⟩
      · exact .inl ⟨k1, k2⟩
      · exact .inr ⟨j, z, c, k1, k2, k3, k4⟩
    · have g4' : ac.2 = ∑ i, rc i := g4
      simp only
      rw [g4', hx.sum, Finset.prod_mul_distrib, hpmd, ← b1]
      ring

variable [DecidableEq τ]

/-- Weights of the hypotheses after `correct`. -/
theorem correct_weight {env : Env K τ F S C Z} {pr : Params K} (hx : ExpLog env.num) (heps : 0 < pr.eps)
    {st st' : St K τ F S C} (hl : ∀ e ∈ st.tab, LikAt env e)
    (hdet : ∀ e ∈ st.tab, 0 < env.pdet e ∧ env.pdet e < 1)
    (hcomp : ∀ e ∈ st.tab, ∀ w, e.wHist.getLast? = some w → w ≠ []) {meas : List Z}
    (hI : IdxInv st) (h : correct env pr meas st = .ok st') :
    ∃ Zc, (st'.hyps ≠ [] → Zc ≠ 0) ∧ ∀ h' ∈ st'.hyps, ∃ p ∈ st.hyps,
      ∃ (a : Fin p.tracks.length → Option ℕ) (g : Fin p.tracks.length → K),
      (∀ i i' m, a i = some m → a i' = some m → i = i') ∧
      h'.prob * Zc = env.num.expNeg pr.clutterRate *
        (pr.clutterRate * pr.clutterDen) ^ meas.length * p.prob * ∏ i, g i ∧
      ∃ hlen : h'.tracks.length = p.tracks.length,
      ∀ i : Fin p.tracks.length, ∃ e e', st.tab[p.tracks[i]]? = some e ∧
        st'.tab[h'.tracks[i.val]'(by rw [hlen]; exact i.isLt)]? = some e' ∧
        e'.mHist = e.mHist ++ [a i] ∧ e'.label = e.label ∧
        (a i = none → g i = 1 - env.pdet e) ∧
        ∀ j, a i = some j → ∃ z c, meas[j]? = some z ∧ IsLik env pr z e c ∧
          g i = env.pdet e * c / (pr.clutterRate * pr.clutterDen) := by
  obtain ⟨blocks, hs, h1, h2, h3, _⟩ := correct_ok h
  obtain ⟨hr, _, hidx, _, hhyps⟩ := cleanUpd_ok h3
  obtain ⟨b1, b2, b3⟩ := corBlocks_ok h1
  unfold corHyps at h2
  split at h2
  · simp at h2
  rename_i ls hls
  obtain ⟨hn1, hn2⟩ := normHyps_ok h2
  refine ⟨(ls.flatten.map fun h => h.prob).sum, ?_, ?_⟩
  · intro hne h0
    have hc : ls.flatten = [] := hn1.resolve_right fun hc => hc h0
    rw [hc] at hn2
    simp only [List.map_nil] at hn2
    apply hne
    rw [hhyps, hn2]
    rfl
  intro h' hh
  rw [hhyps] at hh
  obtain ⟨q, hq, rfl⟩ := List.mem_map.1 hh
  rw [List.mem_filter, List.all_eq_true] at hq
  obtain ⟨hq, hall⟩ := hq
  obtain ⟨y, hy, ht, hyp⟩ := normHyps_mem h2 hq
  obtain ⟨l, hll, hyl⟩ := List.mem_flatten.1 hy
  obtain ⟨p, hp, hsv⟩ := forall₂_mem_right ((traverseE_ok _ _ _).1 hls) hll
  have hS : (ls.flatten.map fun h => h.prob).sum ≠ 0 := hn1.resolve_left (List.ne_nil_of_mem hy)
  obtain ⟨a, a1, a2, a3, a4⟩ := corOne_weight hx heps hl hdet hcomp h1 hsv hyl
  obtain ⟨g, g1, g2⟩ := a4 (by
    intro k hk
    have := hall k (by rw [ht]; exact hk)
    exact (mem_usedInds.1 (by simpa using this)).1)
  refine ⟨p, hp, fun i => if a i = 0 then none else some (a i - 1), g, ?_, ?_, by simp [ht, a3], ?_⟩
  · intro i i' m hi hi'
    simp only at hi hi'
    split at hi
    · simp at hi
    · split at hi'
      · simp at hi'
      · rename_i n1 n2
        simp only [Option.some.injEq] at hi hi'
        exact a2 i i' (by omega) n1
  · simp only
    rw [hyp, div_mul_cancel₀ _ hS, g2]
  · intro i
    obtain ⟨e, he, hcase⟩ := g1 i
    have hti : p.tracks[i] < st.tab.length := (List.getElem?_eq_some_iff.1 he).1
    have hqi : q.tracks[i.val]'(by simp [ht, a3]) = p.tracks[i] + st.tab.length * a i := by
      simp [ht, a3]
    have hmem : p.tracks[i] + st.tab.length * a i ∈ usedInds (upTab st.tab blocks) hs := by
      have := hall _ (List.getElem_mem (l := q.tracks) (n := i.val) (by simp [ht, a3]))
      rw [hqi] at this
      simpa using this
    obtain ⟨u1, u2⟩ := hidx _ hmem
    obtain ⟨e', he'⟩ := (mem_usedInds.1 hmem).1
    rw [he', Option.some.injEq] at u2
    refine ⟨e, e', he, ?_, ?_⟩
    · simp only [List.getElem_map]
      rw [hqi]
      exact u2
    · obtain ⟨t1, t2⟩ := upTab_get b2 hti
      have hee : st.tab[p.tracks[i]]'hti = e := (List.getElem?_eq_some_iff.1 he).2
      rcases hcase with ⟨c1, c2⟩ | ⟨j, z, c, c1, c2, c3, c4⟩
      · rw [c1, Nat.mul_zero, Nat.add_zero, t1, hee] at he'
        simp only [Option.some.injEq] at he'
        refine ⟨by rw [← he']; simp [addMeas, c1], by rw [← he']; rfl, fun _ => c2, fun j hj => ?_⟩
        simp [c1] at hj
      · have hg := t2 j
        rw [c1] at he'
        rw [he'] at hg
        cases hbj : blocks[j]? with
        | none => rw [hbj] at hg; simp at hg
        | some b =>
          rw [hbj] at hg
          obtain ⟨z', hz', hzt⟩ := b3 j b hbj
          obtain ⟨o, c', hoc, hbt⟩ := hzt _ _ he
          simp only [Option.bind_some] at hg
          rw [hbt] at hg
          simp only [Option.map_some, Option.some.injEq] at hg
          cases ho : o with
          | none => rw [ho] at hg; simp at hg
          | some e0 =>
            rw [ho] at hg hoc
            simp only [Option.map_some, Option.some.injEq] at hg
            obtain ⟨l1, l2, l3⟩ := correctEntry_label hoc
            refine ⟨?_, ?_, fun hc => ?_, fun j' hj' => ?_⟩
            · rw [hg]; simp [addMeas, c1, l3]
            · rw [hg]; simp [addMeas, l1]
            · simp [c1] at hc
            · have : j' = j := by simp [c1] at hj'; omega
              subst this
              exact ⟨z, c, c2, c3, c4⟩

end Gasur.Glmb
