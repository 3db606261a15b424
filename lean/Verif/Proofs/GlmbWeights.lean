import Verif.Proofs.GlmbMain
import Mathlib.Algebra.Order.BigOperators.GroupWithZero.List

/-! Weights and cardinality of the GLMB filter. -/

set_option linter.unusedSectionVars false
set_option linter.unusedSimpArgs false

namespace Gasur.Glmb

open Gasur.KShortest Gasur.Murty Gasur.Spec

variable {K τ F S C Z : Type*} [Field K] [LinearOrder K] [IsStrictOrderedRing K]

/-- Total probability of a hypothesis list. -/
def mass (l : List (Hyp K)) : K := (l.map fun h => h.prob).sum

/-- Total probability of the hypotheses satisfying `q`. -/
def massOf (q : Hyp K → Prop) [DecidablePred q] (l : List (Hyp K)) : K :=
  mass (l.filter fun h => decide (q h))

theorem mass_nil : mass ([] : List (Hyp K)) = 0 := rfl

theorem mass_cons (a : Hyp K) (l : List (Hyp K)) : mass (a :: l) = a.prob + mass l := by
  simp [mass]

theorem mass_append (a b : List (Hyp K)) : mass (a ++ b) = mass a + mass b := by simp [mass]

theorem mass_perm {a b : List (Hyp K)} (h : a.Perm b) : mass a = mass b := by
  unfold mass; exact (h.map _).sum_eq

theorem massOf_cons (q : Hyp K → Prop) [DecidablePred q] (a : Hyp K) (l : List (Hyp K)) :
    massOf q (a :: l) = (if q a then a.prob else 0) + massOf q l := by
  unfold massOf
  by_cases h : q a
  · simp [h, mass_cons]
  · simp [h]

theorem massOf_nil (q : Hyp K → Prop) [DecidablePred q] : massOf q ([] : List (Hyp K)) = 0 := rfl

theorem massOf_true (l : List (Hyp K)) : massOf (fun _ => True) l = mass l := by
  simp [massOf]

/-! ### `calcCard` -/

theorem foldr_max_le {l : List ℕ} {a : ℕ} (h : a ∈ l) : a ≤ l.foldr max 0 := by
  induction l with
  | nil => simp at h
  | cons b l ih =>
    rw [List.foldr_cons]
    rcases List.mem_cons.1 h with rfl | h
    · exact le_max_left _ _
    · exact (ih h).trans (le_max_right _ _)

/-- `calcCard` is the cardinality distribution of the hypothesis list. -/
theorem calcCard_get (hyps : List (Hyp K)) (hne : hyps ≠ []) (n : ℕ) :
    ((calcCard hyps)[n]?).getD 0 = massOf (fun h => h.tracks.length = n) hyps := by
  unfold calcCard
  rw [if_neg hne, List.getElem?_map]
  by_cases hn : n < (hyps.map fun h => h.tracks.length).foldr max 0 + 1
  · rw [List.getElem?_range hn]
    rfl
  · rw [List.getElem?_eq_none (by simpa using hn)]
    unfold massOf
    have : hyps.filter (fun h => decide (h.tracks.length = n)) = [] := by
      rw [List.filter_eq_nil_iff]
      intro a ha hc
      have := foldr_max_le (List.mem_map.2 ⟨a, ha, rfl⟩ : a.tracks.length ∈ hyps.map fun h => h.tracks.length)
      have h2 : a.tracks.length = n := by simpa using hc
      omega
    rw [this]
    rfl

/-! ### Clean-up of predictions -/

theorem key_eq_iff (a b : Hyp K) : key a = key b ↔ a.tracks.Perm b.tracks := by
  unfold key
  constructor
  · intro h
    exact (List.perm_insertionSort (· ≤ ·) a.tracks).symm.trans
      (h ▸ List.perm_insertionSort (· ≤ ·) b.tracks)
  · intro h
    refine List.Perm.eq_of_pairwise (le := (· ≤ ·)) (fun _ _ _ _ h1 h2 => le_antisymm h1 h2)
      (List.pairwise_insertionSort _ _) (List.pairwise_insertionSort _ _) ?_
    exact (List.perm_insertionSort (· ≤ ·) a.tracks).trans
      (h.trans (List.perm_insertionSort (· ≤ ·) b.tracks).symm)

theorem addHyp_massOf (q : List ℕ → Prop) [DecidablePred q]
    (hq : ∀ a b : List ℕ, a.Perm b → (q a ↔ q b)) : ∀ (l : List (Hyp K)) (h : Hyp K),
    massOf (fun x => q x.tracks) (addHyp l h) =
      massOf (fun x => q x.tracks) l + (if q h.tracks then h.prob else 0)
  | [], h => by simp [addHyp, massOf_cons, massOf_nil]
  | a :: l, h => by
    unfold addHyp
    split
    · rename_i hk
      rw [massOf_cons, massOf_cons]
      have := hq _ _ ((key_eq_iff a h).1 hk)
      by_cases h1 : q h.tracks
      · rw [if_pos h1, if_pos (by simpa using this.2 h1), if_pos (this.2 h1)]
        simp only
        ring
      · rw [if_neg h1, if_neg (by simpa [this] using h1), if_neg (by simpa [this] using h1)]
        ring
    · rw [massOf_cons, massOf_cons, addHyp_massOf q hq l h]
      ring

theorem cleanPred_massOf (q : List ℕ → Prop) [DecidablePred q]
    (hq : ∀ a b : List ℕ, a.Perm b → (q a ↔ q b)) (hyps : List (Hyp K)) :
    massOf (fun x => q x.tracks) (cleanPred hyps) = massOf (fun x => q x.tracks) hyps := by
  unfold cleanPred
  have : ∀ (l acc : List (Hyp K)), massOf (fun x => q x.tracks) (l.foldl addHyp acc) =
      massOf (fun x => q x.tracks) acc + massOf (fun x => q x.tracks) l := by
    intro l
    induction l with
    | nil => intro acc; simp [massOf_nil]
    | cons a l ih =>
      intro acc
      rw [List.foldl_cons, ih, addHyp_massOf q hq, massOf_cons]
      ring
  rw [this, massOf_nil, zero_add]

theorem addHyp_keys : ∀ (l : List (Hyp K)) (h : Hyp K),
    l.Pairwise (fun a b => key a ≠ key b) → (addHyp l h).Pairwise fun a b => key a ≠ key b
  | [], h, _ => by simp [addHyp]
  | a :: l, h, hp => by
    rw [List.pairwise_cons] at hp
    unfold addHyp
    split
    · rw [List.pairwise_cons]
      exact ⟨fun b hb => hp.1 b hb, hp.2⟩
    · rename_i hk
      rw [List.pairwise_cons]
      refine ⟨?_, addHyp_keys l h hp.2⟩
      intro b hb
      obtain ⟨y, hy | rfl, ht⟩ := addHyp_mem hb
      · have := hp.1 y hy
        unfold key at this ⊢
        rwa [ht]
      · unfold key at hk ⊢
        rwa [ht]

theorem cleanPred_keys (hyps : List (Hyp K)) :
    (cleanPred hyps).Pairwise fun a b => ¬ a.tracks.Perm b.tracks := by
  unfold cleanPred
  have : ∀ (l acc : List (Hyp K)), acc.Pairwise (fun a b => key a ≠ key b) →
      (l.foldl addHyp acc).Pairwise fun a b => key a ≠ key b := by
    intro l
    induction l with
    | nil => intro acc h; exact h
    | cons a l ih => intro acc h; exact ih _ (addHyp_keys _ _ h)
  refine (this hyps [] List.Pairwise.nil).imp ?_
  intro a b h hp
  exact h ((key_eq_iff a b).2 hp)

theorem addHyp_nonneg : ∀ (l : List (Hyp K)) (h : Hyp K), (∀ x ∈ l, 0 ≤ x.prob) → 0 ≤ h.prob →
    ∀ x ∈ addHyp l h, 0 ≤ x.prob
  | [], h, _, h0, x, hx => by
    simp only [addHyp, List.mem_singleton] at hx
    rw [hx]; exact h0
  | a :: l, h, hl, h0, x, hx => by
    unfold addHyp at hx
    split at hx
    · rcases List.mem_cons.1 hx with rfl | hx
      · have := hl a List.mem_cons_self
        simp only
        linarith
      · exact hl x (List.mem_cons_of_mem _ hx)
    · rcases List.mem_cons.1 hx with rfl | hx
      · exact hl x List.mem_cons_self
      · exact addHyp_nonneg l h (fun y hy => hl y (List.mem_cons_of_mem _ hy)) h0 x hx

theorem cleanPred_nonneg (hyps : List (Hyp K)) (h : ∀ x ∈ hyps, 0 ≤ x.prob) :
    ∀ x ∈ cleanPred hyps, 0 ≤ x.prob := by
  unfold cleanPred
  have : ∀ (l acc : List (Hyp K)), (∀ x ∈ acc, 0 ≤ x.prob) → (∀ x ∈ l, 0 ≤ x.prob) →
      ∀ x ∈ l.foldl addHyp acc, 0 ≤ x.prob := by
    intro l
    induction l with
    | nil => intro acc h _; exact h
    | cons a l ih =>
      intro acc h h2
      exact ih _ (addHyp_nonneg _ _ h (h2 a List.mem_cons_self))
        fun x hx => h2 x (List.mem_cons_of_mem _ hx)
  exact this hyps [] (by simp) h

theorem addHyp_ne (l : List (Hyp K)) (h : Hyp K) : addHyp l h ≠ [] := by
  cases l with
  | nil => simp [addHyp]
  | cons a l => unfold addHyp; split <;> simp

theorem cleanPred_eq_nil (hyps : List (Hyp K)) : cleanPred hyps = [] ↔ hyps = [] := by
  constructor
  · intro h
    cases hyps with
    | nil => rfl
    | cons a l =>
      exfalso
      unfold cleanPred at h
      have : ∀ (l acc : List (Hyp K)), acc ≠ [] → l.foldl addHyp acc ≠ [] := by
        intro l
        induction l with
        | nil => intro acc h; exact h
        | cons a l ih => intro acc _; exact ih _ (addHyp_ne _ _)
      exact this l _ (addHyp_ne _ _) h
  · rintro rfl; rfl

/-- The hypothesis weights are a probability distribution. -/
structure WInv (l : List (Hyp K)) : Prop where
  nonneg : ∀ h ∈ l, 0 ≤ h.prob
  sum : l ≠ [] → mass l = 1

theorem normHyps_winv {hyps hs : List (Hyp K)} (h : normHyps hyps = .ok hs)
    (hp : ∀ x ∈ hyps, 0 ≤ x.prob) : WInv hs :=
  ⟨normHyps_nonneg h hp, fun hne => normHyps_sum h hne⟩

variable [FloorRing K]

/-- Conditions on the external pieces under which weights stay non-negative. -/
structure EnvOk (env : Env K τ F S C Z) : Prop where
  exp : ∀ x, 0 ≤ env.num.expNeg x
  det : ∀ e, env.pdet e ≤ 1

theorem expNegTop_nonneg {env : Env K τ F S C Z} (hE : EnvOk env) (x : WithTop K) :
    0 ≤ expNegTop env x := by
  cases x with
  | top => exact le_refl _
  | coe x => exact hE.exp x

theorem prod_nonneg_list {α : Type*} {l : List α} {f : α → K} (h : ∀ a ∈ l, 0 ≤ f a) :
    0 ≤ (l.map f).prod := by
  apply List.prod_nonneg
  intro x hx
  obtain ⟨a, ha, rfl⟩ := List.mem_map.1 hx
  exact h a ha

theorem survOne_nonneg {env : Env K τ F S C Z} (hE : EnvOk env) {pr : Params K} (heps : 0 < pr.eps)
    {tab : List (Entry K τ F S C)} {ss : K} {h : Hyp K} {out} (hs : survOne env pr tab ss h = .ok out)
    (hp : 0 ≤ h.prob) : ∀ x ∈ out, 0 ≤ x.prob := by
  intro x hx
  rcases survOne_ok heps hs with ⟨_, rfl⟩ | ⟨_, ents, costs, paths, _, h2, _, _, h4⟩
  · rw [List.mem_singleton] at hx
    rw [hx]; exact hp
  · obtain ⟨pc, _, _, _, hpr⟩ := forall₂_mem_right h4 hx
    rw [hpr]
    refine mul_nonneg (mul_nonneg (prod_nonneg_list ?_) hp) (expNegTop_nonneg hE _)
    intro e he
    obtain ⟨c, _, h1⟩ := forall₂_mem_left h2 he
    linarith [h1.range.2]

theorem survHyps_winv {env : Env K τ F S C Z} (hE : EnvOk env) {pr : Params K} (heps : 0 < pr.eps)
    {tab : List (Entry K τ F S C)} {hyps : List (Hyp K)} {out}
    (hs : survHyps env pr tab hyps = .ok out) (hp : ∀ h ∈ hyps, 0 ≤ h.prob) : WInv out := by
  unfold survHyps at hs
  split at hs
  · simp at hs
  · rename_i ls hls
    refine normHyps_winv hs ?_
    intro x hx
    obtain ⟨l, hl, hxl⟩ := List.mem_flatten.1 hx
    obtain ⟨h, hh, hsv⟩ := forall₂_mem_right ((traverseE_ok _ _ _).1 hls) hl
    exact survOne_nonneg hE heps hsv (hp h hh) x hxl

theorem predict_winv {env : Env K τ F S C Z} (hE : EnvOk env) {pr : Params K} (heps : 0 < pr.eps)
    {lab : τ} {births : List (Birth K F S C)} {st st' : St K τ F S C}
    (hp : ∀ h ∈ st.hyps, 0 ≤ h.prob) (h : predict env pr lab births st = .ok st') : WInv st'.hyps := by
  obtain ⟨costs, paths, bh, survTab, sh, hs, h1, h2, h3, h4, h5, h6, rfl⟩ := predict_ok h
  have hbh : WInv bh := by
    refine normHyps_winv h3 ?_
    intro x hx
    obtain ⟨pc, _, rfl⟩ := List.mem_map.1 hx
    refine mul_nonneg (prod_nonneg_list ?_) (expNegTop_nonneg hE _)
    intro b hb
    obtain ⟨c, _, hb1⟩ := forall₂_mem_left h1 hb
    linarith [hb1.range.2]
  have hsh := survHyps_winv hE heps h5 hp
  have hhs : WInv hs := by
    refine normHyps_winv h6 ?_
    intro x hx
    obtain ⟨b, hb, hx⟩ := List.mem_flatMap.1 hx
    obtain ⟨s, hs', rfl⟩ := List.mem_map.1 hx
    exact mul_nonneg (hbh.nonneg b hb) (hsh.nonneg s hs')
  refine ⟨cleanPred_nonneg _ hhs.nonneg, ?_⟩
  intro hne
  have hne' : hs ≠ [] := fun h0 => hne ((cleanPred_eq_nil hs).2 h0)
  have := cleanPred_massOf (fun _ => True) (fun _ _ _ => Iff.rfl) hs
  rw [massOf_true, massOf_true] at this
  simp only
  rw [this]
  exact hhs.sum hne'

theorem corOne_nonneg {env : Env K τ F S C Z} (hE : EnvOk env) {pr : Params K}
    {tab : List (Entry K τ F S C)} {blocks : List (List (Option (Entry K τ F S C) × K))} {ss : K}
    {h : Hyp K} {out} (hc : corOne env pr tab blocks ss h = .ok out) (hp : 0 ≤ h.prob) :
    ∀ x ∈ out, 0 ≤ x.prob := by
  intro x hx
  obtain ⟨ents, _, h1 | h1 | h1⟩ := corOne_ok hc
  · obtain ⟨_, rfl⟩ := h1
    rw [List.mem_singleton] at hx
    subst hx
    refine mul_nonneg (mul_nonneg (hE.exp _) (prod_nonneg_list ?_)) hp
    intro e _
    have := hE.det e
    linarith
  · obtain ⟨_, hcl, _, rfl⟩ := h1
    rw [List.mem_singleton] at hx
    subst hx
    exact mul_nonneg (mul_nonneg (hE.exp _) (pow_nonneg hcl.le _)) hp
  · obtain ⟨_, hcl, _, _, rows, assigns, _, _, rfl⟩ := h1
    obtain ⟨ac, _, rfl⟩ := List.mem_map.1 hx
    refine mul_nonneg (mul_nonneg (mul_nonneg (mul_nonneg (hE.exp _) (pow_nonneg hcl.le _))
      (prod_nonneg_list ?_)) hp) (hE.exp _)
    intro e _
    have := hE.det e
    linarith

theorem corHyps_winv {env : Env K τ F S C Z} (hE : EnvOk env) {pr : Params K}
    {tab : List (Entry K τ F S C)} {blocks : List (List (Option (Entry K τ F S C) × K))}
    {hyps hs : List (Hyp K)} (hc : corHyps env pr tab blocks hyps = .ok hs)
    (hp : ∀ h ∈ hyps, 0 ≤ h.prob) : WInv hs := by
  unfold corHyps at hc
  split at hc
  · simp at hc
  · rename_i ls hls
    refine normHyps_winv hc ?_
    intro x hx
    obtain ⟨l, hl, hxl⟩ := List.mem_flatten.1 hx
    obtain ⟨h, hh, hsv⟩ := forall₂_mem_right ((traverseE_ok _ _ _).1 hls) hl
    exact corOne_nonneg hE hsv (hp h hh) x hxl

/-- The weights after removing hypotheses with a missing entry. -/
theorem cleanUpd_probs {tab : List (Option (Entry K τ F S C))} {hyps : List (Hyp K)} {tab' hyps'}
    (h : cleanUpd tab hyps = .ok (tab', hyps')) :
    mass hyps' = mass (hyps.filter fun h => h.tracks.all fun i => decide (i ∈ usedInds tab hyps)) := by
  obtain ⟨_, _, _, _, rfl⟩ := cleanUpd_ok h
  unfold mass
  rw [List.map_map]
  rfl

theorem mass_filter_le {l : List (Hyp K)} (h : ∀ x ∈ l, 0 ≤ x.prob) (q : Hyp K → Bool) :
    mass (l.filter q) ≤ mass l := by
  induction l with
  | nil => exact le_refl _
  | cons a l ih =>
    have ha := h a List.mem_cons_self
    have := ih fun x hx => h x (List.mem_cons_of_mem _ hx)
    rw [List.filter_cons]
    split
    · rw [mass_cons, mass_cons]; linarith
    · rw [mass_cons]; linarith

/-- Weights after `correct`: non-negative, summing to at most one. -/
theorem correct_nonneg {env : Env K τ F S C Z} (hE : EnvOk env) {pr : Params K} {meas : List Z}
    {st st' : St K τ F S C} (hp : ∀ h ∈ st.hyps, 0 ≤ h.prob) (h : correct env pr meas st = .ok st') :
    (∀ x ∈ st'.hyps, 0 ≤ x.prob) ∧ mass st'.hyps ≤ 1 := by
  obtain ⟨blocks, hs, h1, h2, h3, _⟩ := correct_ok h
  have hw := corHyps_winv hE h2 hp
  constructor
  · obtain ⟨_, _, _, _, hh⟩ := cleanUpd_ok h3
    rw [hh]
    intro x hx
    obtain ⟨q, hq, rfl⟩ := List.mem_map.1 hx
    exact hw.nonneg q (List.mem_filter.1 hq).1
  · rw [cleanUpd_probs h3]
    refine (mass_filter_le hw.nonneg _).trans ?_
    by_cases hne : hs = []
    · rw [hne]; exact zero_le_one
    · exact (hw.sum hne).le

/-- No inner filter update reports depletion. -/
def NoDepletion (env : Env K τ F S C Z) : Prop := ∀ z f s w, env.corF z f s w ≠ none

theorem correctEntry_isSome {env : Env K τ F S C Z} (hd : NoDepletion env) {pr : Params K} {z : Z}
    {e : Entry K τ F S C} {o c} (h : correctEntry env pr z e = .ok (o, c)) : o.isSome := by
  unfold correctEntry at h
  split at h
  · split at h
    · split at h
      · rename_i hx
        exfalso
        have htot : ∀ l : List (F × S × K),
            ∃ r, traverseE (fun x : F × S × K => optE (env.corF z x.1 x.2.1 x.2.2)) l = .ok r := by
          intro l
          apply traverseE_total
          intro a _
          cases hc : env.corF z a.1 a.2.1 a.2.2 with
          | none => exact absurd hc (hd _ _ _ _)
          | some r => exact ⟨r, rfl⟩
        obtain ⟨r, hr⟩ := htot _
        rw [hr] at hx
        simp at hx
      · split at h
        · simp at h
        · simp only [Except.ok.injEq, Prod.mk.injEq] at h
          rw [← h.1]; rfl
    · simp at h
  · simp at h

/-- Without depletion `correct` drops no hypothesis. -/
theorem correct_keepAll {env : Env K τ F S C Z} (hd : NoDepletion env) {pr : Params K} {meas : List Z}
    {st : St K τ F S C} {blocks hs} (hI : IdxInv st)
    (h1 : corBlocks env pr st.tab meas = .ok blocks)
    (h2 : corHyps env pr st.tab blocks st.hyps = .ok hs) :
    ∀ h ∈ hs, ∀ i ∈ h.tracks, i ∈ usedInds (upTab st.tab blocks) hs := by
  intro h hh i hi
  rw [mem_usedInds]
  refine ⟨?_, h, hh, hi⟩
  obtain ⟨b1, b2, b3⟩ := corBlocks_ok h1
  obtain ⟨p, hp, a, a1, _, a3⟩ := corHyps_mem h2 hh
  rw [a3] at hi
  obtain ⟨t, _, rfl⟩ := List.mem_map.1 hi
  have ht := hI.range p hp p.tracks[t] (List.getElem_mem _)
  obtain ⟨g1, g2⟩ := upTab_get (blocks := blocks) b2 ht
  cases hq : a t with
  | zero =>
    rw [Nat.mul_zero, Nat.add_zero]
    exact ⟨_, g1⟩
  | succ j =>
    rw [g2 j]
    have hj : j < blocks.length := by have := a1 t; omega
    rw [List.getElem?_eq_getElem hj]
    obtain ⟨z, hz, hzt⟩ := b3 j _ (List.getElem?_eq_getElem hj)
    obtain ⟨o, c, hoc, hbt⟩ := hzt _ _ (List.getElem?_eq_getElem ht)
    have := correctEntry_isSome hd hoc
    obtain ⟨e0, rfl⟩ := Option.isSome_iff_exists.1 this
    exact ⟨_, by rw [Option.bind_some, hbt]; rfl⟩

/-- `correct` without depletion: the new hypotheses are the normalised ones, renumbered. -/
theorem correct_noDepl {env : Env K τ F S C Z} (hd : NoDepletion env) {pr : Params K} {meas : List Z}
    {st st' : St K τ F S C} (hI : IdxInv st) (h : correct env pr meas st = .ok st') :
    ∃ blocks hs f, corBlocks env pr st.tab meas = .ok blocks ∧
      corHyps env pr st.tab blocks st.hyps = .ok hs ∧
      st'.hyps = hs.map (fun h => { h with tracks := h.tracks.map f }) ∧ st'.card = calcCard hs := by
  obtain ⟨blocks, hs, h1, h2, h3, h4⟩ := correct_ok h
  obtain ⟨_, _, _, _, hh⟩ := cleanUpd_ok h3
  refine ⟨blocks, hs, fun i => (usedInds (upTab st.tab blocks) hs).idxOf i, h1, h2, ?_, by rw [h4]⟩
  rw [hh, List.filter_eq_self.2]
  intro x hx
  rw [List.all_eq_true]
  intro i hi
  simpa using correct_keepAll hd hI h1 h2 x hx i hi

theorem calcCard_congr {a b : List (Hyp K)}
    (h : List.Forall₂ (fun x y : Hyp K => x.prob = y.prob ∧ x.tracks.length = y.tracks.length) a b) :
    calcCard a = calcCard b := by
  have h1 : a.map (fun h => h.tracks.length) = b.map fun h => h.tracks.length := by
    induction h with
    | nil => rfl
    | cons h1 _ ih => rw [List.map_cons, List.map_cons, h1.2, ih]
  have h2 : ∀ n, ((a.filter fun h => decide (h.tracks.length = n)).map fun h => h.prob).sum =
      ((b.filter fun h => decide (h.tracks.length = n)).map fun h => h.prob).sum := by
    intro n
    clear h1
    induction h with
    | nil => rfl
    | @cons x y l l' hxy _ ih =>
      rw [List.filter_cons, List.filter_cons, hxy.2]
      split
      · rw [List.map_cons, List.map_cons, List.sum_cons, List.sum_cons, hxy.1, ih]
      · exact ih
  have h3 : a = [] ↔ b = [] := by
    have := h.length_eq
    constructor
    · rintro rfl; exact List.length_eq_zero_iff.1 this.symm
    · rintro rfl; exact List.length_eq_zero_iff.1 this
  unfold calcCard
  by_cases hb : b = []
  · rw [if_pos hb, if_pos (h3.2 hb)]
  · rw [if_neg hb, if_neg (fun h => hb (h3.1 h)), h1]
    apply List.map_congr_left
    intro n _
    exact h2 n

theorem correct_card {env : Env K τ F S C Z} (hd : NoDepletion env) {pr : Params K} {meas : List Z}
    {st st' : St K τ F S C} (hI : IdxInv st) (h : correct env pr meas st = .ok st') :
    st'.card = calcCard st'.hyps := by
  obtain ⟨blocks, hs, f, _, _, h3, h4⟩ := correct_noDepl hd hI h
  rw [h4, h3]
  apply calcCard_congr
  rw [List.forall₂_map_right_iff]
  apply List.forall₂_same.2
  intro x _
  simp

theorem correct_winv {env : Env K τ F S C Z} (hE : EnvOk env) (hd : NoDepletion env) {pr : Params K}
    {meas : List Z} {st st' : St K τ F S C} (hI : IdxInv st) (hp : ∀ h ∈ st.hyps, 0 ≤ h.prob)
    (h : correct env pr meas st = .ok st') : WInv st'.hyps := by
  refine ⟨(correct_nonneg hE hp h).1, ?_⟩
  intro hne
  obtain ⟨blocks, hs, f, _, h2, h3, _⟩ := correct_noDepl hd hI h
  have hw := corHyps_winv hE h2 hp
  rw [h3]
  have : mass (hs.map fun h => ({ h with tracks := h.tracks.map f } : Hyp K)) = mass hs := by
    unfold mass
    rw [List.map_map]
    rfl
  rw [this]
  apply hw.sum
  rintro rfl
  rw [h3] at hne
  simp at hne

theorem prune_winv {pr : Params K} {st st' : St K τ F S C} (hp : ∀ h ∈ st.hyps, 0 ≤ h.prob)
    (h : prune pr st = .ok st') : WInv st'.hyps := by
  obtain ⟨hs, hn, rfl⟩ := prune_ok h
  exact normHyps_winv hn fun x hx => hp x (List.mem_filter.1 hx).1

theorem cap_winv {env : Env K τ F S C Z} {pr : Params K} {st st' : St K τ F S C}
    (hw : WInv st.hyps) (h : cap env pr st = .ok st') : WInv st'.hyps := by
  rcases cap_ok h with ⟨_, rfl⟩ | ⟨_, kept, hs, hk, hn, rfl⟩
  · exact hw
  · exact normHyps_winv hn fun x hx => hw.nonneg x (pick_subset hk hx)

end Gasur.Glmb
