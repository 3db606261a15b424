import Verif.Proofs.GlmbBayes
import Verif.Spec.Assoc
import Verif.Spec.Jglmb
import Mathlib.Algebra.Order.Floor.Ring

/-! The associations kept by the GLMB update are the heaviest ones. -/

set_option linter.unusedSectionVars false
set_option linter.unusedSimpArgs false

namespace Gasur.Glmb

open Gasur.KShortest Gasur.Murty Gasur.Spec

variable {K τ F S C Z : Type*} [Field K] [LinearOrder K] [IsStrictOrderedRing K] [FloorRing K]

/-! ### Lists and functions -/

/-- An assignment as a list. -/
def toL {r n : ℕ} (q : Fin r → Option (Fin n)) : List (Option ℕ) := List.ofFn fun i => (q i).map Fin.val

/-- An association as an assignment. -/
def ofL (r n : ℕ) (b : List (Option ℕ)) : Fin r → Option (Fin n) := fun i =>
  (b.getD i.val none).bind fun j => if h : j < n then some ⟨j, h⟩ else none

theorem toL_get {r n : ℕ} (q : Fin r → Option (Fin n)) (i : Fin r) : (toL q)[i.val]? = some ((q i).map Fin.val) := by
  unfold toL
  rw [List.getElem?_eq_getElem (by simp)]
  simp

theorem toL_length {r n : ℕ} (q : Fin r → Option (Fin n)) : (toL q).length = r := by simp [toL]

theorem toL_inj {r n : ℕ} {q q' : Fin r → Option (Fin n)} (h : toL q = toL q') : q = q' := by
  funext i
  have h1 := toL_get q i
  rw [h, toL_get q' i, Option.some.injEq] at h1
  exact (Option.map_injective Fin.val_injective h1).symm

theorem toL_assoc {r n : ℕ} {q : Fin r → Option (Fin n)} (h : ∀ i i' j, q i = some j → q i' = some j → i = i') :
    IsAssoc r n (toL q) := by
  refine ⟨toL_length q, ?_, ?_⟩
  · intro j hj
    obtain ⟨i, hi⟩ := List.mem_iff_getElem?.1 hj
    have hir : i < r := by rw [← toL_length q]; exact (List.getElem?_eq_some_iff.1 hi).1
    have := toL_get q ⟨i, hir⟩
    simp only at this
    rw [this, Option.some.injEq, Option.map_eq_some_iff] at hi
    obtain ⟨j', _, rfl⟩ := hi
    exact j'.isLt
  · intro i i' j hi hi'
    have hir : i < r := by rw [← toL_length q]; exact (List.getElem?_eq_some_iff.1 hi).1
    have hir' : i' < r := by rw [← toL_length q]; exact (List.getElem?_eq_some_iff.1 hi').1
    have h1 := toL_get q ⟨i, hir⟩
    have h2 := toL_get q ⟨i', hir'⟩
    simp only at h1 h2
    rw [h1, Option.some.injEq, Option.map_eq_some_iff] at hi
    rw [h2, Option.some.injEq, Option.map_eq_some_iff] at hi'
    obtain ⟨j1, g1, e1⟩ := hi
    obtain ⟨j2, g2, e2⟩ := hi'
    have : j1 = j2 := Fin.ext (e1.trans e2.symm)
    subst this
    exact congrArg Fin.val (h _ _ _ g1 g2)

theorem toL_ofL {r n : ℕ} {b : List (Option ℕ)} (h : IsAssoc r n b) : toL (ofL r n b) = b := by
  obtain ⟨h1, h2, _⟩ := h
  apply List.ext_getElem?
  intro i
  by_cases hi : i < r
  · rw [show i = (⟨i, hi⟩ : Fin r).val from rfl, toL_get]
    have hb : i < b.length := by omega
    unfold ofL
    simp only
    rw [List.getD_eq_getElem?_getD, List.getElem?_eq_getElem hb, Option.getD_some]
    cases hv : b[i] with
    | none => rfl
    | some j =>
      have := h2 j (hv ▸ List.getElem_mem hb)
      simp [this]
  · rw [List.getElem?_eq_none (by rw [toL_length]; omega), List.getElem?_eq_none (by omega)]

theorem ofL_inj {r n : ℕ} {b : List (Option ℕ)} (h : IsAssoc r n b) (i i' : Fin r) (j : Fin n) (h1 : ofL r n b i = some j)
    (h2 : ofL r n b i' = some j) : i = i' := by
  have e1 := toL_get (ofL r n b) i
  have e2 := toL_get (ofL r n b) i'
  rw [toL_ofL h, h1] at e1
  rw [toL_ofL h, h2] at e2
  exact Fin.ext (h.2.2 _ _ _ e1 e2)

/-- The table index of an update. -/
def upIdx (len t : ℕ) : Option ℕ → ℕ
  | none => t
  | some j => t + len * (j + 1)

/-! ### One hypothesis -/

theorem correctEntry_of_lik {env : Env K τ F S C Z} {pr : Params K} {z : Z} {e : Entry K τ F S C} {c' : K} {o c}
    (hl : TrackLikelihood env pr.eps z e c') (h : correctEntry env pr z e = .ok (o, c)) :
    c = c' ∧ ∃ e0, o = some e0 := by
  obtain ⟨s, w, rs, h1, h2, h3, h4⟩ := hl
  unfold correctEntry at h
  rw [h1, h2] at h
  simp only at h
  have ht : traverseE (fun x : F × S × K => optE (env.corF z x.1 x.2.1 x.2.2)) (e.fStates.zip (s.zip w)) = .ok rs := by
    rw [traverseE_ok]
    refine h3.imp ?_
    intro a b hab
    rw [hab]
    rfl
  split at h
  · rw [ht] at h
    simp only at h
    split at h
    · simp at h
    · simp only [Except.ok.injEq, Prod.mk.injEq] at h
      exact ⟨by rw [← h.2, h4], _, h.1.symm⟩
  · simp at h

/-- What is known of the likelihoods. -/
structure Liks (env : Env K τ F S C Z) (pr : Params K) (tab : List (Entry K τ F S C)) (meas : List Z) (pd : ℕ → K)
    (lik : ℕ → ℕ → K) : Prop where
  pd : ∀ (t : ℕ) (e : Entry K τ F S C), tab[t]? = some e → pd t = env.pdet e ∧ 0 < pd t ∧ pd t < 1
  lik : ∀ (t : ℕ) (e : Entry K τ F S C) (j : ℕ) (z : Z), tab[t]? = some e → meas[j]? = some z →
    TrackLikelihood env pr.eps z e (lik t j) ∧ 0 < lik t j

theorem corOne_best {env : Env K τ F S C Z} {pr : Params K} (hx : ExpLog env.num)
    (hanti : ∀ x y, x ≤ y → env.num.expNeg y ≤ env.num.expNeg x) (hexp : ∀ x, 0 < env.num.expNeg x)
    {tab : List (Entry K τ F S C)} {meas : List Z} {pd : ℕ → K} {lik : ℕ → ℕ → K} (hL : Liks env pr tab meas pd lik)
    {blocks : List (List (Option (Entry K τ F S C) × K))} (hb : corBlocks env pr tab meas = .ok blocks)
    {ss : K} {h : Hyp K} (hp : 0 ≤ h.prob) {out} (hc : corOne env pr tab blocks ss h = .ok out) :
    ∃ ks : List (List (Option ℕ)),
      (if h.tracks = [] ∨ meas = [] then ks = [List.replicate h.tracks.length none]
       else KBest h.tracks.length meas.length (Phd.pyRound ((pr.reqUpd : K) * env.num.sqrt h.prob / ss)).toNat
        (assocWeight (env.num.expNeg pr.clutterRate * (pr.clutterRate * pr.clutterDen) ^ meas.length)
          (pr.clutterRate * pr.clutterDen) pd lik h) ks) ∧
      List.Forall₂ (fun a (h' : Hyp K) => IsAssoc h.tracks.length meas.length a ∧
        h'.prob = assocWeight (env.num.expNeg pr.clutterRate * (pr.clutterRate * pr.clutterDen) ^ meas.length)
          (pr.clutterRate * pr.clutterDen) pd lik h a ∧
        h'.tracks = List.zipWith (upIdx tab.length) h.tracks a) ks out := by
  obtain ⟨b1, b2, b3⟩ := corBlocks_ok hb
  obtain ⟨ents, hents, hcase⟩ := corOne_ok hc
  have hel := hents.length_eq
  have heget : ∀ i : Fin h.tracks.length, tab[h.tracks[i]]? = some (ents[i.val]'(hel ▸ i.isLt)) := by
    intro i
    have := (List.forall₂_iff_get.1 hents).2 i.val i.isLt (hel ▸ i.isLt)
    simpa using this
  have hpmd : (ents.map fun e => 1 - env.pdet e).prod = ∏ i : Fin h.tracks.length, (1 - pd h.tracks[i]) :=
    finProd_list _ (by rw [List.length_map, hel]) _ (by intro i; have := (hL.pd _ _ (heget i)).1; simpa using this.symm)
  have hassoc0 : IsAssoc h.tracks.length meas.length (List.replicate h.tracks.length none) := by
    refine ⟨by simp, ?_, ?_⟩
    · intro j hj
      have := List.eq_of_mem_replicate hj
      simp at this
    · intro i i' j hi _
      have := List.eq_of_mem_replicate (List.mem_of_getElem? hi)
      simp at this
  have hup0 : h.tracks = List.zipWith (upIdx tab.length) h.tracks (List.replicate h.tracks.length none) := by
    apply List.ext_getElem
    · simp
    · intro i h1 h2
      simp [upIdx]
  have hw0 : ((h.tracks.zip (List.replicate h.tracks.length (none : Option ℕ))).map fun x => assocFactor
      (pr.clutterRate * pr.clutterDen) pd lik x.1 x.2).prod = ∏ i : Fin h.tracks.length, (1 - pd h.tracks[i]) :=
    finProd_list _ (by simp) _ (by intro i; simp [assocFactor])
  have hmlen : blocks = [] ↔ meas = [] := by
    rw [← List.length_eq_zero_iff, ← List.length_eq_zero_iff, b1]
  rcases hcase with h1 | h1 | h1
  · obtain ⟨h0, rfl⟩ := h1
    refine ⟨[List.replicate h.tracks.length none], by rw [if_pos (.inr (hmlen.1 h0))], .cons ⟨hassoc0, ?_, hup0⟩ .nil⟩
    unfold assocWeight
    simp only
    rw [hw0, hpmd, ← b1, h0, List.length_nil, pow_zero, mul_one]
    ring
  · obtain ⟨_, _, ht, rfl⟩ := h1
    refine ⟨[List.replicate h.tracks.length none], by rw [if_pos (.inl ht)], .cons ⟨hassoc0, ?_, hup0⟩ .nil⟩
    unfold assocWeight
    simp only
    rw [b1, ht]
    simp
  · obtain ⟨hbne, hcl, hne, _, rows, assigns, hrows, hm, rfl⟩ := h1
    obtain ⟨mo, hm', ho1, ho2, ho3, ho4, ho5⟩ := murty_spec (costMat env rows h.tracks.length blocks.length)
      (Phd.pyRound ((pr.reqUpd : K) * env.num.sqrt h.prob / ss)).toNat (List.length_pos_iff.2 hne)
    rw [hm', Except.ok.injEq] at hm
    subst hm
    -- weight of an assignment
    have hrow : ∀ (q : Fin h.tracks.length → Option (Fin blocks.length)) (i : Fin h.tracks.length),
        (1 - pd h.tracks[i]) * env.num.expNeg (rowCost (costMat env rows h.tracks.length blocks.length) q i) =
          assocFactor (pr.clutterRate * pr.clutterDen) pd lik h.tracks[i] ((q i).map Fin.val) := by
      intro q i
      unfold rowCost
      cases hq : q i with
      | none => simp [assocFactor, hx.zero]
      | some j =>
        obtain ⟨x, o, c, hx1, hx2, hx3⟩ := costRows_get hel hrows i.isLt j.isLt
        obtain ⟨z, hz, hzt⟩ := b3 j.val _ (List.getElem?_eq_getElem j.isLt)
        obtain ⟨o', c', hoc, hbt⟩ := hzt _ _ (heget i)
        have hoc2 : (o, c) = (o'.map (addMeas (some j.val)), c') := by
          have := hx2.symm.trans hbt
          simpa using this
        have hcc : c = c' := congrArg Prod.snd hoc2
        subst hcc
        obtain ⟨l1, l2⟩ := hL.lik _ _ _ _ (heget i) hz
        obtain ⟨e1, _⟩ := correctEntry_of_lik l1 hoc
        subst e1
        obtain ⟨d1, d2, d3⟩ := hL.pd _ _ (heget i)
        rw [← d1] at hx3
        obtain ⟨p1, p2⟩ := costEntry_pos hx3 hcl d2 d3 l2
        unfold costMat
        simp only [hx1, Option.getD_some]
        rw [WithTop.untopD_coe, hx.inv x p1]
        exact p2
    have hwt : ∀ q : Fin h.tracks.length → Option (Fin blocks.length),
        env.num.expNeg pr.clutterRate * (pr.clutterRate * pr.clutterDen) ^ blocks.length *
          (ents.map fun e => 1 - env.pdet e).prod * h.prob *
          env.num.expNeg (assignCost (costMat env rows h.tracks.length blocks.length) q) =
        assocWeight (env.num.expNeg pr.clutterRate * (pr.clutterRate * pr.clutterDen) ^ meas.length)
          (pr.clutterRate * pr.clutterDen) pd lik h (toL q) := by
      intro q
      unfold assocWeight assignCost
      rw [hx.sum, hpmd, ← b1]
      have : ((h.tracks.zip (toL q)).map fun x => assocFactor (pr.clutterRate * pr.clutterDen) pd lik x.1 x.2).prod =
          ∏ i : Fin h.tracks.length, ((1 - pd h.tracks[i]) *
            env.num.expNeg (rowCost (costMat env rows h.tracks.length blocks.length) q i)) := by
        apply finProd_list
        · intro i
          rw [hrow]
          simp [toL]
        · simp [toL_length]
      rw [this, Finset.prod_mul_distrib]
      ring
    have hpos : 0 < env.num.expNeg pr.clutterRate * (pr.clutterRate * pr.clutterDen) ^ blocks.length *
          (ents.map fun e => 1 - env.pdet e).prod := by
      rw [hpmd]
      refine mul_pos (mul_pos (hexp _) (pow_pos hcl _)) (Finset.prod_pos fun i _ => ?_)
      have := (hL.pd _ _ (heget i)).2.2
      linarith
    have hmono : ∀ q q' : Fin h.tracks.length → Option (Fin blocks.length),
        assignCost (costMat env rows h.tracks.length blocks.length) q ≤
          assignCost (costMat env rows h.tracks.length blocks.length) q' →
        assocWeight (env.num.expNeg pr.clutterRate * (pr.clutterRate * pr.clutterDen) ^ meas.length)
          (pr.clutterRate * pr.clutterDen) pd lik h (toL q') ≤
        assocWeight (env.num.expNeg pr.clutterRate * (pr.clutterRate * pr.clutterDen) ^ meas.length)
          (pr.clutterRate * pr.clutterDen) pd lik h (toL q) := by
      intro q q' hqq
      rw [← hwt, ← hwt]
      exact mul_le_mul_of_nonneg_left (hanti _ _ hqq) (mul_nonneg hpos.le hp)
    refine ⟨mo.map fun x => toL x.1, ?_, ?_⟩
    · rw [if_neg (by rintro (h0 | h0); exacts [hne h0, hbne (hmlen.2 h0)])]
      refine ⟨?_, ?_, ?_, by rw [List.length_map]; exact ho4, ?_⟩
      · have : (mo.map fun x => toL x.1) = (mo.map Prod.fst).map toL := by rw [List.map_map]; rfl
        rw [this]
        exact ho2.map fun a b hab => toL_inj hab
      · intro a ha
        obtain ⟨x, hx', rfl⟩ := List.mem_map.1 ha
        rw [← b1]
        exact toL_assoc (ho1 x hx').1.inj
      · rw [List.pairwise_map]
        refine ho3.imp_of_mem ?_
        intro x y hx' hy' hxy
        rw [(ho1 x hx').2, (ho1 y hy').2] at hxy
        exact hmono _ _ hxy
      · intro b hb' hn
        rw [← b1] at hb'
        have hass : IsAssignment (costMat env rows h.tracks.length blocks.length) (ofL _ _ b) :=
          ⟨ofL_inj hb', fun i j _ => by simp [costMat]⟩
        obtain ⟨k1, k2⟩ := ho5 _ hass (by
          intro hc'
          apply hn
          obtain ⟨x, hx', hxe⟩ := List.mem_map.1 hc'
          exact List.mem_map.2 ⟨x, hx', by rw [hxe, toL_ofL hb']⟩)
        refine ⟨by rw [List.length_map]; exact k1, ?_⟩
        intro a ha
        obtain ⟨x, hx', rfl⟩ := List.mem_map.1 ha
        have := k2 x hx'
        rw [(ho1 x hx').2] at this
        have := hmono _ _ this
        rwa [toL_ofL hb'] at this
    · rw [List.map_map, List.forall₂_map_left_iff, List.forall₂_map_right_iff, List.forall₂_same]
      intro x hx'
      refine ⟨by rw [← b1]; exact toL_assoc (ho1 x hx').1.inj, ?_, ?_⟩
      · simp only [Function.comp]
        rw [(ho1 x hx').2]
        exact hwt x.1
      · simp only [Function.comp]
        apply List.ext_getElem
        · simp [toL_length]
        · intro i h1 h2
          simp only [List.getElem_map, List.getElem_finRange, List.getElem_zipWith, Fin.getElem_fin]
          have hi : i < h.tracks.length := by simpa using h1
          have : (toL x.1)[i]'(by rw [toL_length]; exact hi) = (x.1 ⟨i, hi⟩).map Fin.val := by simp [toL]
          rw [this]
          unfold enc
          cases hv : x.1 ⟨i, hi⟩ with
          | none => simp [upIdx, hv]
          | some j => simp [upIdx, hv]

/-! ### All hypotheses -/

theorem pyRound_near (x : K) (hx : 0 ≤ x) : |((Phd.pyRound x).toNat : K) - x| ≤ 1 / 2 := by
  have h1 := Int.floor_le x
  have h2 := Int.lt_floor_add_one x
  have h3 : 0 ≤ ⌊x⌋ := Int.floor_nonneg.2 hx
  have key : ∀ z : ℤ, 0 ≤ z → ((z.toNat : ℕ) : K) = z := by
    intro z hz
    have : ((z.toNat : ℤ) : K) = z := by rw [Int.toNat_of_nonneg hz]
    exact_mod_cast this
  unfold Phd.pyRound
  split
  · rename_i h
    rw [key _ h3, abs_le]
    constructor <;> linarith
  · rename_i h
    split
    · rw [key _ (by omega), abs_le]
      push_cast
      constructor <;> linarith
    · split
      · rw [key _ h3, abs_le]
        constructor <;> linarith
      · rw [key _ (by omega), abs_le]
        push_cast
        constructor <;> linarith

theorem forall₂_and_mem {α β : Type*} {R : α → β → Prop} : ∀ {l : List α} {r : List β}, List.Forall₂ R l r →
    List.Forall₂ (fun a b => R a b ∧ b ∈ r) l r
  | _, _, .nil => .nil
  | _, _, .cons h1 h2 => .cons ⟨h1, by simp⟩ ((forall₂_and_mem h2).imp fun _ _ h => ⟨h.1, List.mem_cons_of_mem _ h.2⟩)

/-- The pairs (hypothesis, association), in order. -/
theorem forall₂_kids {α β γ : Type*} {R : α → List γ → Prop} {P : α → List β → Prop} {Q : α → β → γ → Prop} :
    ∀ {hyps : List α} {ls : List (List γ)}, List.Forall₂ R hyps ls →
    (∀ h ∈ hyps, ∀ l, R h l → ∃ ks, P h ks ∧ List.Forall₂ (Q h) ks l) →
    ∃ kids, List.Forall₂ P hyps kids ∧
      List.Forall₂ (fun (x : α × β) c => Q x.1 x.2 c) (familyPairs hyps kids) ls.flatten
  | _, _, .nil, _ => ⟨[], .nil, .nil⟩
  | h :: hyps, l :: ls, .cons h1 h2, hq => by
    obtain ⟨ks, k1, k2⟩ := hq h (by simp) l h1
    obtain ⟨kids, g1, g2⟩ := forall₂_kids h2 fun h' hh l' => hq h' (List.mem_cons_of_mem _ hh) l'
    refine ⟨ks :: kids, .cons k1 g1, ?_⟩
    unfold familyPairs at g2 ⊢
    rw [List.zipWith_cons_cons, List.flatten_cons, List.flatten_cons]
    refine List.rel_append ?_ g2
    rw [List.forall₂_map_left_iff]
    exact k2

variable [DecidableEq τ]

theorem map_eq_map_of_forall₂ {α β γ : Type*} {f : α → γ} {g : β → γ} {l : List α} {l' : List β}
    (h : List.Forall₂ (fun x y => f x = g y) l l') : l.map f = l'.map g := by
  induction h with
  | nil => rfl
  | cons h _ ih => rw [List.map_cons, List.map_cons, h, ih]


theorem correct_best {env : Env K τ F S C Z} {pr : Params K} (hx : ExpLog env.num)
    (hanti : ∀ x y, x ≤ y → env.num.expNeg y ≤ env.num.expNeg x) (hexp : ∀ x, 0 < env.num.expNeg x)
    (hsqrt : ∀ x, 0 ≤ env.num.sqrt x) {st st' : St K τ F S C} {meas : List Z} {pd : ℕ → K} {lik : ℕ → ℕ → K}
    (hL : Liks env pr st.tab meas pd lik) (hI : ∀ h ∈ st.hyps, ∀ i ∈ h.tracks, i < st.tab.length)
    (hp : ∀ h ∈ st.hyps, 0 ≤ h.prob) (h : correct env pr meas st = .ok st') :
    st'.card = calcCard st'.hyps ∧ ∃ Zc, (st'.hyps ≠ [] → Zc ≠ 0) ∧ ∃ kids : List (List (List (Option ℕ))),
      List.Forall₂ (fun (p : Hyp K) ks =>
        if p.tracks = [] ∨ meas = [] then ks = [List.replicate p.tracks.length none]
        else ∃ k : ℕ, k = (Phd.pyRound ((pr.reqUpd : K) * env.num.sqrt p.prob /
              (st.hyps.map fun h => env.num.sqrt h.prob).sum)).toNat ∧ |(k : K) - (pr.reqUpd : K) * env.num.sqrt p.prob / (st.hyps.map fun h => env.num.sqrt h.prob).sum|
            ≤ 1 / 2 ∧
          KBest p.tracks.length meas.length k
            (assocWeight (env.num.expNeg pr.clutterRate * (pr.clutterRate * pr.clutterDen) ^ meas.length)
              (pr.clutterRate * pr.clutterDen) pd lik p) ks) st.hyps kids ∧
      Zc = ((familyPairs st.hyps kids).map fun x => assocWeight
        (env.num.expNeg pr.clutterRate * (pr.clutterRate * pr.clutterDen) ^ meas.length)
        (pr.clutterRate * pr.clutterDen) pd lik x.1 x.2).sum ∧
      List.Forall₂ (fun (x : Hyp K × List (Option ℕ)) (h' : Hyp K) =>
        h'.prob * Zc = assocWeight (env.num.expNeg pr.clutterRate * (pr.clutterRate * pr.clutterDen) ^ meas.length)
          (pr.clutterRate * pr.clutterDen) pd lik x.1 x.2 ∧
        IsUpdated st.tab st'.tab x.1 x.2 h') (familyPairs st.hyps kids) st'.hyps := by
  obtain ⟨blocks, hs, h1, h2, h3, h4⟩ := correct_ok h
  obtain ⟨hr, _, hidx, _, hhyps⟩ := cleanUpd_ok h3
  obtain ⟨b1, b2, b3⟩ := corBlocks_ok h1
  unfold corHyps at h2
  split at h2
  · simp at h2
  rename_i ls hls
  obtain ⟨hn1, hn2⟩ := normHyps_ok h2
  obtain ⟨kids, k1, k2⟩ := forall₂_kids (P := fun (p : Hyp K) ks =>
        if p.tracks = [] ∨ meas = [] then ks = [List.replicate p.tracks.length none]
        else ∃ k : ℕ, k = (Phd.pyRound ((pr.reqUpd : K) * env.num.sqrt p.prob /
              (st.hyps.map fun h => env.num.sqrt h.prob).sum)).toNat ∧ |(k : K) - (pr.reqUpd : K) * env.num.sqrt p.prob / (st.hyps.map fun h => env.num.sqrt h.prob).sum|
            ≤ 1 / 2 ∧
          KBest p.tracks.length meas.length k
            (assocWeight (env.num.expNeg pr.clutterRate * (pr.clutterRate * pr.clutterDen) ^ meas.length)
              (pr.clutterRate * pr.clutterDen) pd lik p) ks)
      (Q := fun (p : Hyp K) a (h' : Hyp K) => p ∈ st.hyps ∧ IsAssoc p.tracks.length meas.length a ∧
        h'.prob = assocWeight (env.num.expNeg pr.clutterRate * (pr.clutterRate * pr.clutterDen) ^ meas.length)
          (pr.clutterRate * pr.clutterDen) pd lik p a ∧
        h'.tracks = List.zipWith (upIdx st.tab.length) p.tracks a)
      ((traverseE_ok _ _ _).1 hls) (by
        intro p hpm l hl
        obtain ⟨ks, c1, c2⟩ := corOne_best hx hanti hexp hL h1 (hp p hpm) hl
        refine ⟨ks, ?_, c2.imp fun a b hab => ⟨hpm, hab⟩⟩
        split
        · rename_i hc
          rwa [if_pos hc] at c1
        · rename_i hc
          rw [if_neg hc] at c1
          refine ⟨_, rfl, pyRound_near _ ?_, c1⟩
          refine div_nonneg (mul_nonneg (Nat.cast_nonneg _) (hsqrt _)) ?_
          exact List.sum_nonneg (by
            intro x hx'
            obtain ⟨y, _, rfl⟩ := List.mem_map.1 hx'
            exact hsqrt _))
  -- the updated entry of a track
  have hent : ∀ t e m, st.tab[t]? = some e → (∀ j, m = some j → j < meas.length) →
      ∃ e', (upTab st.tab blocks)[upIdx st.tab.length t m]? = some (some e') ∧ e'.label = e.label ∧
        e'.mHist = e.mHist ++ [m] := by
    intro t e m he hm
    have ht := (List.getElem?_eq_some_iff.1 he).1
    obtain ⟨u1, u2⟩ := upTab_get b2 ht
    cases m with
    | none =>
      refine ⟨addMeas none e, ?_, rfl, rfl⟩
      unfold upIdx
      simp only
      rw [u1, (List.getElem?_eq_some_iff.1 he).2]
    | some j =>
      have hj := hm j rfl
      have hjb : j < blocks.length := by omega
      obtain ⟨z, hz, hzt⟩ := b3 j _ (List.getElem?_eq_getElem hjb)
      obtain ⟨o, c, ho, hbt⟩ := hzt t e he
      obtain ⟨_, e0, rfl⟩ := correctEntry_of_lik (hL.lik t e j z he hz).1 ho
      obtain ⟨l1, _, l3⟩ := correctEntry_label ho
      refine ⟨addMeas (some j) e0, ?_, l1, by simp [addMeas, l3]⟩
      unfold upIdx
      simp only
      rw [u2 j, List.getElem?_eq_getElem hjb, Option.bind_some, hbt]
      rfl
  -- nothing is dropped
  have hkeep : (hs.filter fun h => h.tracks.all fun i => decide (i ∈ usedInds (upTab st.tab blocks) hs)) = hs := by
    rw [List.filter_eq_self]
    intro y hy
    rw [List.all_eq_true]
    intro i hi
    rw [decide_eq_true_eq, mem_usedInds]
    refine ⟨?_, y, hy, hi⟩
    obtain ⟨y', hy', ht, _⟩ := normHyps_mem h2 hy
    obtain ⟨⟨p, a⟩, _, q1, q2, _, q4⟩ := forall₂_mem_right k2 hy'
    rw [ht, q4] at hi
    obtain ⟨n, hn⟩ := List.mem_iff_getElem?.1 hi
    rw [List.getElem?_zipWith] at hn
    cases ht1 : p.tracks[n]? with
    | none => simp [ht1] at hn
    | some t =>
      cases ha1 : a[n]? with
      | none => simp [ht1, ha1] at hn
      | some m =>
        rw [ht1, ha1] at hn
        simp only [Option.some.injEq] at hn
        subst hn
        obtain ⟨e', he', _⟩ := hent t _ m (List.getElem?_eq_getElem (hI p q1 t (List.mem_of_getElem? ht1))) (by
          intro j hj
          exact q2.2.1 j (hj ▸ List.mem_of_getElem? ha1))
        exact ⟨e', he'⟩
  rw [hkeep] at hhyps
  refine ⟨by
    rw [h4, hhyps]
    refine calcCard_congr ?_
    rw [List.forall₂_map_right_iff, List.forall₂_same]
    exact fun x _ => ⟨rfl, by simp⟩, ?_⟩
  rw [hn2, List.map_map] at hhyps
  refine ⟨(ls.flatten.map fun h => h.prob).sum, ?_, kids, k1, ?_, ?_⟩
  rotate_left
  · congr 1
    symm
    apply map_eq_map_of_forall₂
    exact k2.imp fun x y hxy => hxy.2.2.1.symm
  rotate_left
  · intro hne h0
    have hc : ls.flatten = [] := hn1.resolve_right fun hc => hc h0
    rw [hc] at hhyps
    exact hne hhyps
  rw [hhyps, List.forall₂_map_right_iff]
  refine (forall₂_and_mem k2).imp ?_
  rintro ⟨p, a⟩ y ⟨⟨q1, q2, q3, q4⟩, hy⟩
  have hS : (ls.flatten.map fun h => h.prob).sum ≠ 0 := hn1.resolve_left (List.ne_nil_of_mem hy)
  refine ⟨by simp only [Function.comp]; rw [div_mul_cancel₀ _ hS]; exact q3, by simp [q4, q2.1], ?_⟩
  intro i t e m hti he hai
  simp only at hti hai
  obtain ⟨e', he', l1, l2⟩ := hent t e m he (by
    intro j hj
    exact q2.2.1 j (hj ▸ List.mem_of_getElem? hai))
  have hmem : upIdx st.tab.length t m ∈ usedInds (upTab st.tab blocks) hs := by
    rw [mem_usedInds]
    refine ⟨⟨e', he'⟩, { y with prob := y.prob / (ls.flatten.map fun h => h.prob).sum }, ?_, ?_⟩
    · rw [hn2]
      exact List.mem_map.2 ⟨y, hy, rfl⟩
    · simp only
      rw [q4]
      refine List.mem_iff_getElem?.2 ⟨i, ?_⟩
      rw [List.getElem?_zipWith, hti, hai]
  obtain ⟨u1, u2⟩ := hidx _ hmem
  rw [he', Option.some.injEq] at u2
  refine ⟨_, e', ?_, u2, l1, l2⟩
  simp only [Function.comp]
  rw [List.getElem?_map, q4, List.getElem?_zipWith, hti, hai]
  simp only [Option.map_some, Option.some.injEq]
  rw [← hn2]

end Gasur.Glmb
