import Verif.Props.GlmbExact

/-!
# Property C130: the order of the measurements does not matter for the GLMB update
-/

set_option linter.unusedSectionVars false

namespace Gasur.Spec

open Gasur.Glmb

/-- The labels of the tracks of a hypothesis, in order. -/
def hypLabels {K τ F S C : Type*} (tab : List (Entry K τ F S C)) (h : Hyp K) : List (Option (τ × ℕ)) :=
  h.tracks.map fun t => (tab[t]?).map fun e => e.label

end Gasur.Spec

namespace Gasur.Props

open Gasur.Glmb Gasur.Spec

section lists

variable {K : Type*} [LinearOrder K] {α : Type*}

/-- The weights of the `k` heaviest elements are the first `k` of all weights in decreasing order. -/
theorem topk_eq [DecidableEq α] {A ks : List α} {wt : α → K} {k : ℕ} (hA : A.Nodup) (hks : ks.Nodup) (hsub : ∀ a ∈ ks, a ∈ A)
    (hsort : ks.Pairwise fun a b => wt b ≤ wt a) (hlen : ks.length ≤ k)
    (hbest : ∀ b ∈ A, b ∉ ks → ks.length = k ∧ ∀ a ∈ ks, wt b ≤ wt a) {L : List K} (hL : L.Pairwise fun x y => y ≤ x)
    (hp : L.Perm (A.map wt)) : ks.map wt = L.take k := by
  set rest := A.filter fun b => decide (b ∉ ks) with hrest
  have hpA : A.Perm (ks ++ rest) := by
    rw [List.perm_ext_iff_of_nodup hA]
    · intro b
      rw [List.mem_append, hrest, List.mem_filter]
      constructor
      · intro hb
        by_cases hc : b ∈ ks
        · exact .inl hc
        · exact .inr ⟨hb, by simpa using hc⟩
      · rintro (hb | hb)
        · exact hsub b hb
        · exact hb.1
    · rw [List.nodup_append]
      refine ⟨hks, hA.filter _, ?_⟩
      rintro a ha b hb rfl
      rw [hrest, List.mem_filter] at hb
      simp only [decide_eq_true_eq] at hb
      exact hb.2 ha
  have hL2 : L = ks.map wt ++ (rest.map wt).insertionSort (fun x y => y ≤ x) := by
    refine List.Perm.eq_of_pairwise (le := fun x y => y ≤ x) (fun a b _ _ h h' => le_antisymm h' h) hL ?_ ?_
    · rw [List.pairwise_append]
      haveI : Std.Total (fun x y : K => y ≤ x) := ⟨fun a b => le_total b a⟩
      haveI : IsTrans K (fun x y : K => y ≤ x) := ⟨fun a b c h h' => le_trans h' h⟩
      refine ⟨List.pairwise_map.2 hsort, List.pairwise_insertionSort _ _, ?_⟩
      intro x hx y hy
      obtain ⟨p, hp, rfl⟩ := List.mem_map.1 hx
      obtain ⟨b, hb, rfl⟩ := List.mem_map.1 ((List.mem_insertionSort _).1 hy)
      rw [hrest, List.mem_filter] at hb
      exact (hbest b hb.1 (by simpa using hb.2)).2 p hp
    · refine hp.trans ((hpA.map _).trans ?_)
      rw [List.map_append]
      exact List.Perm.append_left _ (List.perm_insertionSort _ _).symm
  by_cases hr : rest = []
  · rw [hr] at hL2
    simp only [List.map_nil, List.insertionSort_nil, List.append_nil] at hL2
    rw [hL2, List.take_of_length_le (by simpa using hlen)]
  · obtain ⟨b, hb⟩ := List.exists_mem_of_ne_nil _ hr
    rw [hrest, List.mem_filter] at hb
    have hk := (hbest b hb.1 (by simpa using hb.2)).1
    rw [hL2, ← hk, List.take_append_of_le_length (by simp), List.take_of_length_le (by simp)]

end lists

variable {K τ F S C Z : Type*} [Field K] [LinearOrder K] [IsStrictOrderedRing K] [FloorRing K]
  [DecidableEq τ]

/-! ### Renumbering the measurements -/

/-- The measurements in another order: number `j` of the new list is number `π j` of the old one. -/
def reordered (meas : List Z) (π : Equiv.Perm (Fin meas.length)) : List Z := List.ofFn fun j => meas[π j]

/-- The permutation on all numbers. -/
def renum {m : ℕ} (π : Equiv.Perm (Fin m)) (j : ℕ) : ℕ := if h : j < m then (π ⟨j, h⟩).val else j

theorem renum_lt {m : ℕ} (π : Equiv.Perm (Fin m)) {j : ℕ} : renum π j < m ↔ j < m := by
  unfold renum
  split
  · rename_i h
    exact ⟨fun _ => h, fun _ => (π ⟨j, h⟩).isLt⟩
  · rfl

theorem renum_symm {m : ℕ} (π : Equiv.Perm (Fin m)) (j : ℕ) : renum π (renum π.symm j) = j := by
  by_cases h : j < m
  · have e : renum π.symm j = (π.symm ⟨j, h⟩).val := by unfold renum; rw [dif_pos h]
    rw [e]
    unfold renum
    rw [dif_pos (π.symm ⟨j, h⟩).isLt]
    simp
  · unfold renum
    rw [dif_neg h, dif_neg h]

theorem renum_inj {m : ℕ} (π : Equiv.Perm (Fin m)) : Function.Injective (renum π) := by
  intro a b h
  have := congrArg (renum π.symm) h
  have e := fun x => renum_symm π.symm x
  rw [Equiv.symm_symm] at e
  rwa [e, e] at this

/-- The same association for the old order. -/
def renumA {m : ℕ} (π : Equiv.Perm (Fin m)) (a : List (Option ℕ)) : List (Option ℕ) := a.map (Option.map (renum π))

theorem renumA_symm {m : ℕ} (π : Equiv.Perm (Fin m)) (a : List (Option ℕ)) : renumA π (renumA π.symm a) = a := by
  unfold renumA
  rw [List.map_map]
  conv_rhs => rw [← List.map_id a]
  refine List.map_congr_left fun o _ => ?_
  cases o with
  | none => rfl
  | some j => simp [renum_symm]

theorem renumA_inj {m : ℕ} (π : Equiv.Perm (Fin m)) : Function.Injective (renumA π) :=
  List.map_injective_iff.2 (Option.map_injective (renum_inj π))

theorem renumA_assoc {n m : ℕ} (π : Equiv.Perm (Fin m)) {a : List (Option ℕ)} (h : IsAssoc n m a) :
    IsAssoc n m (renumA π a) := by
  obtain ⟨h1, h2, h3⟩ := h
  refine ⟨by simp [renumA, h1], ?_, ?_⟩
  · intro j hj
    obtain ⟨o, ho, e⟩ := List.mem_map.1 hj
    obtain ⟨i, rfl, rfl⟩ := Option.map_eq_some_iff.1 e
    exact (renum_lt π).2 (h2 i ho)
  · intro i i' j hi hi'
    unfold renumA at hi hi'
    rw [List.getElem?_map, Option.map_eq_some_iff] at hi hi'
    obtain ⟨o, ho, e⟩ := hi
    obtain ⟨o', ho', e'⟩ := hi'
    obtain ⟨x, rfl, rfl⟩ := Option.map_eq_some_iff.1 e
    obtain ⟨y, rfl, e2⟩ := Option.map_eq_some_iff.1 e'
    rw [renum_inj π e2] at ho'
    exact h3 i i' x ho ho'

theorem assocWeight_renum (base κ : K) (pd : ℕ → K) (lik : ℕ → ℕ → K) {m : ℕ} (π : Equiv.Perm (Fin m)) (p : Hyp K)
    (a : List (Option ℕ)) : assocWeight base κ pd (fun t j => lik t (renum π j)) p a =
      assocWeight base κ pd lik p (renumA π a) := by
  unfold assocWeight renumA
  congr 2
  rw [List.zip_map_right, List.map_map]
  refine List.map_congr_left fun x _ => ?_
  cases hx : x.2 with
  | none => simp [assocFactor, hx]
  | some j => simp [assocFactor, hx]

/-- The weights of the kept associations are the same in both orders. -/
theorem kbest_renum {n m k : ℕ} (π : Equiv.Perm (Fin m)) {wt wt' : List (Option ℕ) → K}
    (hw : ∀ a, wt' a = wt (renumA π a)) {ks ks' : List (List (Option ℕ))} (h : KBest n m k wt ks)
    (h' : KBest n m k wt' ks') : ks.map wt = ks'.map wt' := by
  classical
  set A := ((allLists m n).dedup).filter fun a => decide (IsAssoc n m a) with hA
  have hmem : ∀ a, a ∈ A ↔ IsAssoc n m a := by
    intro a
    rw [hA, List.mem_filter, List.mem_dedup, decide_eq_true_eq]
    exact ⟨fun h => h.2, fun h => ⟨mem_allLists m n a h.1 h.2.1, h⟩⟩
  have hnd : A.Nodup := (List.nodup_dedup _).filter _
  have hperm : (A.map (renumA π)).Perm A := by
    rw [List.perm_ext_iff_of_nodup (hnd.map (renumA_inj π)) hnd]
    intro a
    rw [List.mem_map, hmem]
    constructor
    · rintro ⟨b, hb, rfl⟩
      exact renumA_assoc π ((hmem b).1 hb)
    · intro ha
      exact ⟨renumA π.symm a, (hmem _).2 (renumA_assoc _ ha), renumA_symm π a⟩
  have hpw : (A.map wt').Perm (A.map wt) := by
    have : A.map wt' = (A.map (renumA π)).map wt := by
      rw [List.map_map]
      exact List.map_congr_left fun a _ => hw a
    rw [this]
    exact hperm.map _
  haveI : Std.Total (fun x y : K => y ≤ x) := ⟨fun a b => le_total b a⟩
  haveI : IsTrans K (fun x y : K => y ≤ x) := ⟨fun a b c h h' => le_trans h' h⟩
  have key : ∀ {w : List (Option ℕ) → K} {l : List (List (Option ℕ))}, KBest n m k w l →
      ∀ {L : List K}, L.Pairwise (fun x y => y ≤ x) → L.Perm (A.map w) → l.map w = L.take k := by
    intro w l ⟨b1, b2, b3, b4, b5⟩ L hL hp
    exact topk_eq hnd b1 (fun a ha => (hmem a).2 (b2 a ha)) b3 b4 (fun b hb hn => b5 b ((hmem b).1 hb) hn) hL hp
  rw [key h (L := (A.map wt).insertionSort fun x y => y ≤ x) (List.pairwise_insertionSort _ _) (List.perm_insertionSort _ _),
    key h' (L := (A.map wt).insertionSort fun x y => y ≤ x) (List.pairwise_insertionSort _ _)
      ((List.perm_insertionSort _ _).trans hpw.symm)]

theorem updated_labels {tab tab' : List (Entry K τ F S C)} {p h' : Hyp K} {a : List (Option ℕ)}
    (h : IsUpdated tab tab' p a h') (ha : a.length = p.tracks.length) (hp : ∀ t ∈ p.tracks, t < tab.length) :
    hypLabels tab' h' = hypLabels tab p := by
  unfold hypLabels
  refine List.ext_getElem? fun i => ?_
  rw [List.getElem?_map, List.getElem?_map]
  by_cases hi : i < p.tracks.length
  · have e1 : p.tracks[i]? = some p.tracks[i] := List.getElem?_eq_getElem hi
    have ht := hp _ (List.getElem_mem hi)
    obtain ⟨t', e', k1, k2, k3, _⟩ := h.2 i _ _ _ e1 (List.getElem?_eq_getElem ht) (List.getElem?_eq_getElem (by omega : i < a.length))
    rw [k1, e1, Option.map_some, Option.map_some, k2, List.getElem?_eq_getElem ht, Option.map_some, Option.map_some, k3]
  · have h1 := h.1
    rw [List.getElem?_eq_none (by omega), List.getElem?_eq_none (by omega)]
    rfl

theorem families_renum {m : ℕ} (π : Equiv.Perm (Fin m)) {wt wt' : Hyp K → List (Option ℕ) → K}
    (hw : ∀ p a, wt' p a = wt p (renumA π a)) {k : Hyp K → ℕ} {Q : Hyp K → Prop} [DecidablePred Q] {n : Hyp K → ℕ} :
    ∀ {hyps : List (Hyp K)} {kids kids' : List (List (List (Option ℕ)))},
    List.Forall₂ (fun p ks => if Q p then ks = [List.replicate (n p) none] else KBest (n p) m (k p) (wt p) ks) hyps kids →
    List.Forall₂ (fun p ks => if Q p then ks = [List.replicate (n p) none] else KBest (n p) m (k p) (wt' p) ks) hyps kids' →
    List.Forall₂ (fun x x' : Hyp K × List (Option ℕ) => x.1 = x'.1 ∧ wt x.1 x.2 = wt' x'.1 x'.2 ∧ x.2.length = n x.1 ∧
      x'.2.length = n x'.1 ∧ x.1 ∈ hyps) (familyPairs hyps kids) (familyPairs hyps kids')
  | _, _, _, .nil, .nil => .nil
  | p :: hyps, ks :: kids, ks' :: kids', .cons h1 h2, .cons h1' h2' => by
    unfold familyPairs
    rw [List.zipWith_cons_cons, List.zipWith_cons_cons, List.flatten_cons, List.flatten_cons]
    refine List.rel_append ?_ ((families_renum π hw h2 h2').imp fun x x' h => ⟨h.1, h.2.1, h.2.2.1, h.2.2.2.1,
      List.mem_cons_of_mem _ h.2.2.2.2⟩)
    rw [List.forall₂_map_left_iff, List.forall₂_map_right_iff]
    have hlen : ∀ {w : Hyp K → List (Option ℕ) → K} {l : List (List (Option ℕ))},
        (if Q p then l = [List.replicate (n p) none] else KBest (n p) m (k p) (w p) l) → ∀ a ∈ l, a.length = n p := by
      intro w l h a ha
      split at h
      · subst h
        rw [List.mem_singleton.1 ha, List.length_replicate]
      · exact (h.2.1 a ha).1
    have hmap : ks.map (wt p) = ks'.map (wt' p) := by
      split at h1
      · rename_i hq
        rw [if_pos hq] at h1'
        rw [h1, h1']
        simp only [List.map_cons, List.map_nil, hw]
        simp [renumA]
      · rename_i hq
        rw [if_neg hq] at h1'
        exact kbest_renum π (hw p) h1 h1'
    have l1 := hlen h1
    have l2 := hlen h1'
    clear h1 h1' h2 h2' hlen
    induction ks generalizing ks' with
    | nil =>
      rw [List.map_nil, eq_comm, List.map_eq_nil_iff] at hmap
      subst hmap
      exact .nil
    | cons a ks ih =>
      cases ks' with
      | nil => simp at hmap
      | cons a' ks' =>
        rw [List.map_cons, List.map_cons, List.cons.injEq] at hmap
        exact .cons ⟨rfl, hmap.1, l1 a List.mem_cons_self, l2 a' List.mem_cons_self, List.mem_cons_self⟩
          (ih ks' hmap.2 (fun b hb => l1 b (List.mem_cons_of_mem _ hb)) fun b hb => l2 b (List.mem_cons_of_mem _ hb))

/-- **C130.** Given the same measurements in another order, the GLMB update yields the same hypotheses in the same
order, with the same weights and the same labels, and the same cardinality distribution, for any requested number of
updates. -/
theorem C130_measurement_order (env : Env K τ F S C Z) (pr : Params K)
    (hadd : ∀ x y, env.num.expNeg (x + y) = env.num.expNeg x * env.num.expNeg y)
    (hzero : env.num.expNeg 0 = 1) (hinv : ∀ x, 0 < x → env.num.expNeg (env.num.negLog x) = x)
    (hanti : ∀ x y, x ≤ y → env.num.expNeg y ≤ env.num.expNeg x) (hexp : ∀ x, 0 < env.num.expNeg x)
    (hsqrt : ∀ x, 0 ≤ env.num.sqrt x) (st st1 st2 : St K τ F S C) (meas : List Z)
    (π : Equiv.Perm (Fin meas.length)) (pd : ℕ → K) (lik : ℕ → ℕ → K)
    (hpd : ∀ (t : ℕ) (e : Entry K τ F S C), st.tab[t]? = some e → pd t = env.pdet e ∧ 0 < pd t ∧ pd t < 1)
    (hlik : ∀ (t : ℕ) (e : Entry K τ F S C) (j : ℕ) (z : Z), st.tab[t]? = some e → meas[j]? = some z →
      TrackLikelihood env pr.eps z e (lik t j) ∧ 0 < lik t j)
    (hidx : ∀ h ∈ st.hyps, ∀ i ∈ h.tracks, i < st.tab.length) (hp : ∀ h ∈ st.hyps, 0 ≤ h.prob)
    (h1 : correct env pr meas st = .ok st1) (h2 : correct env pr (reordered meas π) st = .ok st2) :
    List.Forall₂ (fun a b : Hyp K => a.prob = b.prob ∧ hypLabels st1.tab a = hypLabels st2.tab b) st1.hyps st2.hyps ∧
    st1.card = st2.card := by
  have hlen : (reordered meas π).length = meas.length := by simp [reordered]
  have hnil : reordered meas π = [] ↔ meas = [] := by
    rw [← List.length_eq_zero_iff, hlen, List.length_eq_zero_iff]
  have hlik' : ∀ (t : ℕ) (e : Entry K τ F S C) (j : ℕ) (z : Z), st.tab[t]? = some e → (reordered meas π)[j]? = some z →
      TrackLikelihood env pr.eps z e (lik t (renum π j)) ∧ 0 < lik t (renum π j) := by
    intro t e j z he hz
    have hj : j < meas.length := by
      rw [← hlen]
      exact (List.getElem?_eq_some_iff.1 hz).1
    have hr : renum π j = (π ⟨j, hj⟩).val := by unfold renum; rw [dif_pos hj]
    refine hlik t e _ z he ?_
    rw [hr, List.getElem?_eq_getElem (π ⟨j, hj⟩).isLt, ← hz]
    unfold reordered
    rw [List.getElem?_ofFn, dif_pos hj]
    rfl
  obtain ⟨c1, Z1, z1, kids1, k1, s1, f1⟩ := correct_best ⟨hadd, hzero, hinv⟩ hanti hexp hsqrt ⟨hpd, hlik⟩ hidx hp h1
  obtain ⟨c2, Z2, z2, kids2, k2, s2, f2⟩ := correct_best (pd := pd) (lik := fun t j => lik t (renum π j))
    ⟨hadd, hzero, hinv⟩ hanti hexp hsqrt ⟨hpd, hlik'⟩ hidx hp h2
  simp only [hlen, hnil] at k2 s2 f2
  have hfam := families_renum π (wt := assocWeight (env.num.expNeg pr.clutterRate * (pr.clutterRate * pr.clutterDen) ^
      meas.length) (pr.clutterRate * pr.clutterDen) pd lik)
    (wt' := assocWeight (env.num.expNeg pr.clutterRate * (pr.clutterRate * pr.clutterDen) ^ meas.length)
      (pr.clutterRate * pr.clutterDen) pd fun t j => lik t (renum π j))
    (fun p a => assocWeight_renum _ _ pd lik π p a) (Q := fun p => p.tracks = [] ∨ meas = []) (n := fun p => p.tracks.length)
    (k := fun p => (Phd.pyRound ((pr.reqUpd : K) * env.num.sqrt p.prob /
      (st.hyps.map fun h => env.num.sqrt h.prob).sum)).toNat)
    (k1.imp fun p ks hk => by
      split
      · rename_i hc; rwa [if_pos hc] at hk
      · rename_i hc
        rw [if_neg hc] at hk
        obtain ⟨k, rfl, _, hk⟩ := hk
        exact hk)
    (k2.imp fun p ks hk => by
      split
      · rename_i hc; rwa [if_pos hc] at hk
      · rename_i hc
        rw [if_neg hc] at hk
        obtain ⟨k, rfl, _, hk⟩ := hk
        exact hk)
  have hZ : Z1 = Z2 := by
    rw [s1, s2]
    congr 1
    exact map_eq_map_of_forall₂ (hfam.imp fun x x' h => h.2.1)
  have hmain : List.Forall₂ (fun a b : Hyp K => a.prob = b.prob ∧ hypLabels st1.tab a = hypLabels st2.tab b)
      st1.hyps st2.hyps := by
    subst hZ
    generalize familyPairs st.hyps kids1 = p1 at *
    generalize familyPairs st.hyps kids2 = p2 at *
    clear s1 s2 k1 k2 c1 c2 h1 h2
    generalize st1.hyps = o1 at *
    generalize st2.hyps = o2 at *
    induction hfam generalizing o1 o2 with
    | nil =>
      cases f1
      cases f2
      exact .nil
    | @cons x x' l l' hx _ ih =>
      cases f1 with
      | @cons _ a _ o1 g1 g2 =>
      cases f2 with
      | @cons _ b _ o2 g1' g2' =>
      have hz0 := z1 (List.cons_ne_nil _ _)
      refine .cons ⟨?_, ?_⟩ (ih o1 (fun _ => hz0) g2 o2 (fun _ => hz0) g2')
      · have := g1.1.trans (hx.2.1.trans g1'.1.symm)
        exact mul_right_cancel₀ hz0 this
      · rw [updated_labels g1.2 hx.2.2.1 (hidx _ hx.2.2.2.2), updated_labels g1'.2 hx.2.2.2.1 (by
          rw [← hx.1]
          exact hidx _ hx.2.2.2.2), hx.1]
  refine ⟨hmain, ?_⟩
  rw [c1, c2]
  refine calcCard_congr (hmain.imp fun a b hab => ⟨hab.1, ?_⟩)
  have := congrArg List.length hab.2
  simpa [hypLabels] using this

/-! Non-vacuity: one possible target and two measurements with different likelihoods. -/

/-- The environment of `realEnv`, with likelihood 1/2 for the measurement `true` and 1/4 for `false`. -/
noncomputable def twoEnv : Env ℝ ℝ Unit Unit Unit Bool :=
  { num := realNum, sortInds := fun _ _ => Equiv.refl _
    argsort := (realEnv (some 1)).argsort
    predF := fun _ _ => ((), (), ()), corF := fun z _ _ _ => some ((), (), (), if z then 1 / 2 else 1 / 4)
    psurv := fun _ => 9 / 10, pdet := fun _ => 9 / 10 }

theorem twoEnv_total (meas : List Bool) : ∃ st' : St ℝ ℝ Unit Unit Unit,
    correct twoEnv (realPr 1 1 3 1) meas (st1 0 (realBirth (9 / 10))) = .ok st' := by
  obtain ⟨st', hst, _⟩ := correct_total (env := twoEnv) (pr := realPr 1 1 3 1) (by norm_num [realPr])
    (st := st1 0 (realBirth (9 / 10)))
    ⟨fun x => Real.exp_pos _, fun x hx => Real.sqrt_pos.2 hx, fun e _ => .inr <| .inr (by
      have h1 := realOdds
      have h2 : (realPr 1 1 3 1).eps = 1 / 2 ^ 52 := rfl
      have h3 : twoEnv.psurv e = 9 / 10 := rfl
      rw [h3, h2]
      change _ ≤ |realNum.negLog _|
      rw [abs_of_nonpos (h1.trans (by norm_num))]
      linarith), fun e _ => by norm_num [twoEnv], fun e _ => by norm_num [twoEnv], by
      intro e _ f _ z s w x hx
      simp only [twoEnv, Option.some.injEq] at hx
      subst hx
      dsimp only
      split <;> norm_num, realArgsort⟩ (by norm_num [realPr]) meas st1_tinv (by
        intro e he
        simp only [st1, birthTab, List.zipIdx_cons, List.zipIdx_nil, List.map_cons, List.map_nil, List.mem_singleton] at he
        subst he
        simp [st1])
  exact ⟨st', hst⟩

example : ∃ a b : St ℝ ℝ Unit Unit Unit,
    correct twoEnv (realPr 1 1 3 1) [true, false] (st1 0 (realBirth (9 / 10))) = .ok a ∧
    correct twoEnv (realPr 1 1 3 1) [false, true] (st1 0 (realBirth (9 / 10))) = .ok b ∧
    List.Forall₂ (fun g h : Hyp ℝ => g.prob = h.prob ∧ hypLabels a.tab g = hypLabels b.tab h) a.hyps b.hyps ∧
    a.card = b.card := by
  obtain ⟨a, ha⟩ := twoEnv_total [true, false]
  obtain ⟨b, hb⟩ := twoEnv_total [false, true]
  refine ⟨a, b, ha, hb, ?_⟩
  exact C130_measurement_order twoEnv _ realNum_add (by simp [realNum, twoEnv])
    (fun x hx => by simp only [twoEnv, realNum, neg_neg]; exact Real.exp_log hx)
    (fun x y hxy => Real.exp_le_exp.2 (by linarith)) (fun x => Real.exp_pos _) (fun x => Real.sqrt_nonneg x) _ a b
    [true, false] (Equiv.swap 0 1)
    (fun _ => 9 / 10) (fun _ j => (if j = 0 then 1 / 2 else 1 / 4) + 1 / 2 ^ 52) (fun t e _ => ⟨rfl, by norm_num, by norm_num⟩) (by
      intro t e j z he hz
      have : e ∈ (st1 (0 : ℝ) (realBirth (9 / 10))).tab := List.mem_of_getElem? he
      simp only [st1, birthTab, List.zipIdx_cons, List.zipIdx_nil, List.map_cons, List.map_nil, List.mem_singleton] at this
      subst this
      have hj : j = 0 ∧ z = true ∨ j = 1 ∧ z = false := by
        match j, hz with
        | 0, hz => exact .inl ⟨rfl, by simpa using hz.symm⟩
        | 1, hz => exact .inr ⟨rfl, by simpa using hz.symm⟩
      rcases hj with ⟨rfl, rfl⟩ | ⟨rfl, rfl⟩
      · refine ⟨⟨[()], [1], [((), (), (), 1 / 2)], rfl, rfl, .cons rfl .nil, ?_⟩, by norm_num⟩
        simp [realPr]
      · refine ⟨⟨[()], [1], [((), (), (), 1 / 4)], rfl, rfl, .cons rfl .nil, ?_⟩, by norm_num⟩
        simp [realPr]) st1_tinv.idx.range (fun h hh => (st1_tinv.pos h hh).le) ha hb

end Gasur.Props
