import Verif.Props.PhdHistory

/-!
# Property C114: the order of measurements and birth terms does not matter for the PHD filter
-/

set_option linter.unusedSectionVars false

namespace Gasur.Props

open Gasur.Phd Gasur.Spec

variable {K V P Z : Type*} [Field K] [LinearOrder K] [IsStrictOrderedRing K]
variable [AddCommGroup V] [Module K V] [AddCommGroup P] [Module K P] [FloorRing K]

/-- The two mixtures have the same components, perhaps in different order. -/
def SameMix (m m' : Mix K V P) : Prop := ∃ cs cs' : List (K × V × P), m = ofComps cs ∧ m' = ofComps cs' ∧ cs.Perm cs'

/-- The two reports have the same pairs of mean and covariance, perhaps in different order. -/
def SameReport (e e' : List V × List P) : Prop :=
  ∃ l l' : List (V × P), e = (l.map Prod.fst, l.map Prod.snd) ∧ e' = (l'.map Prod.fst, l'.map Prod.snd) ∧ l.Perm l'

/-- The two filters have the same components and the same history, up to order within each time step. -/
def SameState (s t : PState K V P) : Prop := SameMix s.mix t.mix ∧ List.Forall₂ SameReport s.states t.states

/-- The same call, perhaps with the birth terms or the measurements in a different order. -/
def SameOp : Op K V P Z → Op K V P Z → Prop
  | .predict f b, .predict f' b' => f = f' ∧ b.Perm b'
  | .correct f z, .correct f' z' => f = f' ∧ z.Perm z'
  | .cleanup bp bm bc be, .cleanup bp' bm' bc' be' => bp = bp' ∧ bm = bm' ∧ bc = bc' ∧ be = be'
  | .extract, .extract => True
  | _, _ => False

/-- The call merges or caps. -/
def Reduces : Op K V P Z → Bool
  | .cleanup _ bm bc _ => bm || bc
  | _ => false

/-- Both fail with a division by zero, or both succeed with the same mixture. -/
def SameRes (r r' : Except PErr (Mix K V P)) : Prop :=
  (r = .error .zeroDiv ∧ r' = .error .zeroDiv) ∨ ∃ m m' : Mix K V P, r = .ok m ∧ r' = .ok m' ∧ SameMix m m'

theorem mass_perm {cs cs' : List (K × V × P)} (h : cs.Perm cs') : mass cs = mass cs' := (h.map _).sum_eq

theorem mergeGroup_perm {cs cs' : List (K × V × P)} (h : cs.Perm cs') : mergeGroup cs = mergeGroup cs' := by
  unfold mergeGroup
  rw [mass_perm h, show moment cs = moment cs' from (h.map _).sum_eq, show covMass cs = covMass cs' from (h.map _).sum_eq]

/-- Greedy merging has one result only, if no two weights are equal. -/
theorem mergesTo_unique {quad : P → V → K} {thr : K} {cs out : List (K × V × P)} (h : MergesTo quad thr cs out) :
    ∀ {ds out' : List (K × V × P)}, cs.Perm ds → (cs.map fun c => c.1).Nodup → MergesTo quad thr ds out' → out = out' := by
  induction h with
  | nil =>
    intro ds out' hp _ h'
    obtain rfl := hp.nil_eq
    cases h' with
    | nil => rfl
    | cons l hl => simp at hl
  | @cons rem out l hl hmax _ ih =>
    intro ds out' hp hn h'
    cases h' with
    | nil =>
      have := hp.subset hl
      simp at this
    | @cons rem' out1 l' hl' hmax' h1 =>
      have e : l = l' := by
        have h1 : l' ∈ rem := hp.symm.subset hl'
        have h2 : l.1 = l'.1 := le_antisymm (hmax' l (hp.subset hl)) (hmax l' h1)
        exact List.inj_on_of_nodup_map hn hl h1 h2
      subst e
      rw [mergeGroup_perm (hp.filter _), ih (hp.filter _) (hn.sublist (List.filter_sublist.map _)) h1]

theorem merge_same {quad : P → V → K} {pr : Params K} (hthr : 0 ≤ pr.mergeThreshold) (hq : ∀ p, quad p 0 = 0)
    {cs cs' : List (K × V × P)} (hp : cs.Perm cs') (hw : ∀ c ∈ cs, 0 ≤ c.1) (hn : (cs.map fun c => c.1).Nodup) :
    merge quad pr (ofComps cs) = merge quad pr (ofComps cs') := by
  obtain ⟨gs, hg, hm⟩ := merge_spec quad pr hthr hq cs hw
  obtain ⟨gs', hg', hm'⟩ := merge_spec quad pr hthr hq cs' (fun c hc => hw c (hp.symm.subset hc))
  have t := hg.mergesTo
  have t' := hg'.mergesTo
  rw [map_comp_range] at t t'
  have e := mergesTo_unique t hp hn t'
  have hz : (∃ g ∈ gs, gw cs g = 0) ↔ ∃ g ∈ gs', gw cs' g = 0 := by
    have aux : ∀ (ds : List (K × V × P)) (gs : List (List ℕ)), (∃ g ∈ gs, gw ds g = 0) ↔
        ∃ c ∈ gs.map (mergedComp ds), c.1 = 0 := by
      intro ds gs
      simp [mergedComp]
    rw [aux, aux, e]
  rw [hm, hm', e]
  by_cases h : ∃ g ∈ gs, gw cs g = 0
  · rw [if_pos h, if_pos (hz.1 h)]
  · rw [if_neg h, if_neg (fun h' => h (hz.2 h'))]

/-- The heaviest components are the same, if no two weights are equal. -/
theorem top_perm {cs cs' A B dA dB : List (K × V × P)} (hp : cs.Perm cs') (hn : (cs.map fun c => c.1).Nodup)
    (hA : (A ++ dA).Perm cs) (hB : (B ++ dB).Perm cs') (hl : A.length = B.length)
    (hAt : ∀ a ∈ A, ∀ d ∈ dA, d.1 ≤ a.1) (hBt : ∀ b ∈ B, ∀ d ∈ dB, d.1 ≤ b.1) : A.Perm B := by
  classical
  have hnc : cs.Nodup := hn.of_map _
  have hAB : (A ++ dA).Nodup := hA.nodup_iff.2 hnc
  have hBB : (B ++ dB).Nodup := hB.nodup_iff.2 (hp.nodup_iff.1 hnc)
  have nA : A.Nodup := (List.nodup_append.1 hAB).1
  have nB : B.Nodup := (List.nodup_append.1 hBB).1
  have sub : A ⊆ B := by
    intro a ha
    by_contra hb
    have haB : a ∈ dB := by
      have : a ∈ B ++ dB := hB.symm.subset (hp.subset (hA.subset (List.mem_append_left _ ha)))
      exact (List.mem_append.1 this).resolve_left hb
    -- some `b ∈ B` is not in `A`
    obtain ⟨b, hbB, hbA⟩ : ∃ b ∈ B, b ∉ A := by
      by_contra hcon
      push Not at hcon
      have h1 : (B.toFinset) ⊂ A.toFinset := by
        rw [Finset.ssubset_iff_of_subset (by intro x hx; rw [List.mem_toFinset] at hx ⊢; exact hcon x hx)]
        exact ⟨a, by simpa using ha, by simpa using hb⟩
      have := Finset.card_lt_card h1
      rw [List.toFinset_card_of_nodup nA, List.toFinset_card_of_nodup nB] at this
      omega
    have hbd : b ∈ dA := by
      have : b ∈ A ++ dA := hA.symm.subset (hp.symm.subset (hB.subset (List.mem_append_left _ hbB)))
      exact (List.mem_append.1 this).resolve_left hbA
    have e : a.1 = b.1 := le_antisymm (hBt b hbB a haB) (hAt a ha b hbd)
    have : a = b := List.inj_on_of_nodup_map hn (hA.subset (List.mem_append_left _ ha))
      (hA.subset (List.mem_append_right _ hbd)) e
    subst this
    exact hb hbB
  exact (List.subperm_of_subset nA sub).perm_of_length_le hl.ge

/-- What is kept and what is dropped. -/
theorem keep_perm {α : Type*} (S : List ℕ) (l : List α) :
    (keep S l ++ (l.zipIdx.filter fun x => !decide (x.2 ∉ S)).map Prod.fst).Perm l := by
  unfold keep
  rw [← List.map_append]
  have := (List.filter_append_perm (fun x : α × ℕ => decide (x.2 ∉ S)) l.zipIdx).map Prod.fst
  rwa [List.zipIdx_map_fst] at this

theorem cap_same {argsort : List K → List ℕ} (ha : ∀ ws, IsArgsort ws (argsort ws)) (pr : Params K)
    {cs cs' : List (K × V × P)} (hp : cs.Perm cs') (hn : (cs.map fun c => c.1).Nodup) :
    SameRes (cap argsort pr (ofComps cs)) (cap argsort pr (ofComps cs')) := by
  by_cases hgt : pr.maxGauss < cs.length
  swap
  · have h1 : cap argsort pr (ofComps cs) = .ok (ofComps cs) := by
      unfold cap
      rw [if_neg (by simpa [ofComps] using hgt)]
    have h2 : cap argsort pr (ofComps cs') = .ok (ofComps cs') := by
      unfold cap
      rw [if_neg (by rw [hp.length_eq] at hgt; simpa [ofComps] using hgt)]
    exact .inr ⟨_, _, h1, h2, cs, cs', rfl, rfl, hp⟩
  have hgt' : pr.maxGauss < cs'.length := by rwa [← hp.length_eq]
  by_cases h0 : pr.maxGauss = 0
  · have aux : ∀ ds : List (K × V × P), pr.maxGauss < ds.length → cap argsort pr (ofComps ds) =
        if mass ds = 0 then .error .zeroDiv else .ok (ofComps ds) := by
      intro ds hd
      have hd' : ds ≠ [] := by rintro rfl; simp at hd
      split
      · rename_i hm
        unfold cap
        rw [if_pos (by simpa [ofComps] using hd)]
        have : delAll (ofComps ds) (sortDesc (dropEnd (argsort (ofComps ds).ws) pr.maxGauss)) = .ok (ofComps ds) := by
          unfold dropEnd
          rw [if_pos h0]
          simp [sortDesc, delAll]
        rw [this]
        dsimp only
        rw [if_pos ⟨by simpa [ofComps] using hd', hm⟩]
      · rename_i hm
        exact (C32_cap_zero argsort pr h0 ds hm).1
    rw [aux cs hgt, aux cs' hgt', mass_perm hp]
    split
    · exact .inl ⟨rfl, rfl⟩
    · exact .inr ⟨_, _, rfl, rfl, cs, cs', rfl, rfl, hp⟩
  · obtain ⟨S, s1, s2, s3, s4, s5⟩ := cap_ofComps pr cs (ha _) hgt (Nat.pos_of_ne_zero h0)
    obtain ⟨S', t1, t2, t3, t4, t5⟩ := cap_ofComps pr cs' (ha _) hgt' (Nat.pos_of_ne_zero h0)
    have top : ∀ (ds : List (K × V × P)) (S : List ℕ),
        (∀ i j ci cj, i ∈ S → j ∉ S → ds[i]? = some ci → ds[j]? = some cj → ci.1 ≤ cj.1) →
        ∀ a ∈ keep S ds, ∀ d ∈ (ds.zipIdx.filter fun x => !decide (x.2 ∉ S)).map Prod.fst, d.1 ≤ a.1 := by
      intro ds S hS a ha d hd
      obtain ⟨⟨d', i⟩, hi, rfl⟩ := List.mem_map.1 hd
      obtain ⟨⟨a', j⟩, hj, rfl⟩ := List.mem_map.1 ha
      rw [List.mem_filter] at hi hj
      refine hS i j d' a' (by simpa using hi.2) (by simpa using hj.2) ?_ ?_
      · have := List.mem_zipIdx_iff_getElem?.1 hi.1
        simpa using this
      · have := List.mem_zipIdx_iff_getElem?.1 hj.1
        simpa using this
    have hk := top_perm hp hn (keep_perm S cs) (keep_perm S' cs') (by rw [s3, t3]) (top cs S s4) (top cs' S' t4)
    rw [s5, t5, mass_perm hk, mass_perm hp]
    split
    · exact .inl ⟨rfl, rfl⟩
    · exact .inr ⟨_, _, rfl, rfl, _, _, rfl, rfl, hk.map _⟩

theorem prune_same (pr : Params K) {cs cs' : List (K × V × P)} (hp : cs.Perm cs') :
    ∃ ds ds' : List (K × V × P), prune pr (ofComps cs) = .ok (ofComps ds) ∧ prune pr (ofComps cs') = .ok (ofComps ds') ∧
      ds.Perm ds' ∧ ds.Sublist cs :=
  ⟨_, _, prune_ofComps pr cs, prune_ofComps pr cs', hp.filter _, List.filter_sublist⟩

theorem correct_same (pr : Params K) (f : Filt K V P Z) {cs cs' : List (K × V × P)} (hp : cs.Perm cs') {zs zs' : List Z}
    (hz : zs.Perm zs') : SameRes (correct pr f zs (ofComps cs)) (correct pr f zs' (ofComps cs')) := by
  have hd : ∀ z, denom pr f cs z = denom pr f cs' z := by
    intro z
    unfold denom
    rw [(hp.map _).sum_eq]
  by_cases h : ∃ z ∈ zs, cs ≠ [] ∧ denom pr f cs z = 0
  · left
    refine ⟨correct_zeroDiv pr f cs zs h, correct_zeroDiv pr f cs' zs' ?_⟩
    obtain ⟨z, h1, h2, h3⟩ := h
    refine ⟨z, hz.subset h1, ?_, by rw [← hd]; exact h3⟩
    rintro rfl
    exact h2 hp.eq_nil
  · right
    have h1 : ∀ z ∈ zs, cs = [] ∨ denom pr f cs z ≠ 0 := by
      intro z hz
      by_contra hc
      push Not at hc
      exact h ⟨z, hz, hc.1, hc.2⟩
    have h2 : ∀ z ∈ zs', cs' = [] ∨ denom pr f cs' z ≠ 0 := by
      intro z hz'
      rcases h1 z (hz.symm.subset hz') with h | h
      · left; subst h; exact hp.nil_eq.symm
      · right; rw [← hd]; exact h
    refine ⟨_, _, correct_ofComps pr f cs zs h1, correct_ofComps pr f cs' zs' h2, _, _, rfl, rfl, ?_⟩
    refine List.Perm.append ?_ (hp.map _)
    have e : (fun z => cs'.map (corComp pr f (denom pr f cs' z) z)) = fun z => cs'.map (corComp pr f (denom pr f cs z) z) := by
      funext z
      rw [hd]
    rw [e]
    exact (hz.flatMap_right _).trans (List.Perm.flatMap_left _ fun z _ => hp.map _)

theorem extract_same (pr : Params K) {cs cs' : List (K × V × P)} (hp : cs.Perm cs') :
    ∃ e e' : List V × List P, extract pr (ofComps cs) = .ok e ∧ extract pr (ofComps cs') = .ok e' ∧ SameReport e e' := by
  refine ⟨_, _, extract_ofComps pr cs, extract_ofComps pr cs', ?_⟩
  have aux : ∀ ds : List (K × V × P),
      (ds.flatMap (fun c => List.replicate (pyRound c.1).toNat c.2.1) = (ds.flatMap fun c => List.replicate (pyRound c.1).toNat c.2).map Prod.fst) ∧
      (ds.flatMap (fun c => List.replicate (pyRound c.1).toNat c.2.2) = (ds.flatMap fun c => List.replicate (pyRound c.1).toNat c.2).map Prod.snd) := by
    intro ds
    simp [List.map_flatMap]
  refine ⟨_, _, Prod.ext (aux _).1 (aux _).2, Prod.ext (aux _).1 (aux _).2, ?_⟩
  exact (hp.filter _).flatMap_right _

theorem doExtract_same (pr : Params K) {s t : PState K V P} (h : SameState s t) :
    ∃ s' t' : PState K V P, doExtract pr s = .ok s' ∧ doExtract pr t = .ok t' ∧ SameState s' t' := by
  obtain ⟨⟨cs, cs', h1, h2, hp⟩, hf⟩ := h
  obtain ⟨e, e', g1, g2, g3⟩ := extract_same pr hp
  unfold doExtract
  rw [h1, h2, g1, g2]
  exact ⟨_, _, rfl, rfl, ⟨cs, cs', rfl, rfl, hp⟩, List.rel_append hf (.cons g3 .nil)⟩

theorem births_comps : ∀ (b : List (Mix K V P)), (∀ x ∈ b, ∃ y, ofComps y = x) →
    ∃ bs : List (List (K × V × P)), b = bs.map ofComps
  | [], _ => ⟨[], rfl⟩
  | a :: b, h => by
    obtain ⟨y, hy⟩ := h a List.mem_cons_self
    obtain ⟨bs, hbs⟩ := births_comps b fun x hx => h x (List.mem_cons_of_mem _ hx)
    exact ⟨y :: bs, by rw [List.map_cons, hy, ← hbs]⟩

/-- One call. -/
theorem step_same {env : Env K V P Z} (he : OkEnv env) {pr : Params K} (hpr : OkParams pr)
    {s t : PState K V P} (hs : Good s.mix) (h : SameState s t) {o o' : Op K V P Z} (ho : OkOp o) (hoo : SameOp o o')
    (hdist : Reduces o = true → s.mix.ws.Nodup) :
    (step env pr s o = .error .zeroDiv ∧ step env pr t o' = .error .zeroDiv) ∨
    ∃ s' t' : PState K V P, step env pr s o = .ok s' ∧ step env pr t o' = .ok t' ∧ SameState s' t' := by
  have h' := h
  obtain ⟨⟨cs, cs', h1, h2, hp⟩, hf⟩ := h'
  cases o with
  | predict f b =>
    cases o' with
    | predict f' b' =>
      obtain ⟨rfl, hb⟩ := hoo
      right
      refine ⟨_, _, rfl, rfl, ?_, hf⟩
      dsimp only
      obtain ⟨bs, rfl⟩ : ∃ bs : List (List (K × V × P)), b = bs.map ofComps := by
        refine births_comps b fun x hx => ?_
        obtain ⟨y, hy⟩ := (aligned_iff x).1 (ho x hx).1
        exact ⟨y, hy.symm⟩
      have hinj : Function.Injective (ofComps : List (K × V × P) → Mix K V P) := by
        intro a b hab
        have e1 := congrArg Mix.ws hab
        have e2 := congrArg Mix.ms hab
        have e3 := congrArg Mix.ps hab
        simp only [ofComps] at e1 e2 e3
        clear hab
        induction a generalizing b with
        | nil => cases b with
          | nil => rfl
          | cons y b => simp at e1
        | cons x a ih => cases b with
          | nil => simp at e1
          | cons y b =>
            simp only [List.map_cons, List.cons.injEq] at e1 e2 e3
            obtain ⟨x1, x2, x3⟩ := x
            obtain ⟨y1, y2, y3⟩ := y
            simp only at e1 e2 e3
            rw [ih e1.2 e2.2 e3.2, e1.1, e2.1, e3.1]
      obtain ⟨bs', rfl, hb'⟩ : ∃ bs' : List (List (K × V × P)), b' = bs'.map ofComps ∧ bs.Perm bs' := by
        have : ∃ bs' : List (List (K × V × P)), b' = bs'.map ofComps := by
          refine births_comps b' fun x hx => ?_
          obtain ⟨y, _, hy⟩ := List.mem_map.1 (hb.symm.subset hx)
          exact ⟨y, hy⟩
        obtain ⟨bs', rfl⟩ := this
        exact ⟨bs', rfl, (List.map_perm_map_iff hinj).1 hb⟩
      rw [h1, h2, predict_ofComps, predict_ofComps]
      exact ⟨_, _, rfl, rfl, (hp.map _).append hb'.flatten⟩
    | _ => exact hoo.elim
  | correct f z =>
    cases o' with
    | correct f' z' =>
      obtain ⟨rfl, hz⟩ := hoo
      unfold step
      dsimp only
      rw [h1, h2]
      rcases correct_same pr f hp hz with ⟨g1, g2⟩ | ⟨m, m', g1, g2, g3⟩
      · rw [g1, g2]; exact .inl ⟨rfl, rfl⟩
      · rw [g1, g2]; exact .inr ⟨_, _, rfl, rfl, g3, hf⟩
    | _ => exact hoo.elim
  | extract =>
    cases o' with
    | extract => exact .inr (doExtract_same pr h)
    | _ => exact hoo.elim
  | cleanup bp bm bc be =>
    cases o' with
    | cleanup bp' bm' bc' be' =>
      obtain ⟨rfl, rfl, rfl, rfl⟩ := hoo
      have hw : ∀ c ∈ cs, 0 ≤ c.1 := by
        intro c hc
        exact hs.2 c.1 (by rw [h1]; exact List.mem_map.2 ⟨c, hc, rfl⟩)
      -- prune
      obtain ⟨ds, ds', p1, p2, p3, p4⟩ : ∃ ds ds' : List (K × V × P), optStep bp (prune pr) s.mix = .ok (ofComps ds) ∧
          optStep bp (prune pr) t.mix = .ok (ofComps ds') ∧ ds.Perm ds' ∧ ds.Sublist cs := by
        unfold optStep
        cases bp with
        | false => exact ⟨cs, cs', by simp [h1], by simp [h2], hp, List.Sublist.refl _⟩
        | true =>
          obtain ⟨ds, ds', g1, g2, g3, g4⟩ := prune_same pr hp
          exact ⟨ds, ds', by simpa [h1] using g1, by simpa [h2] using g2, g3, g4⟩
      have hws : s.mix.ws = cs.map fun c => c.1 := by rw [h1]; rfl
      have hwd : ∀ c ∈ ds, 0 ≤ c.1 := fun c hc => hw c (p4.subset hc)
      unfold step cleanup
      dsimp only
      rw [p1, p2]
      dsimp only
      have fin : ∀ m m' : Mix K V P, SameMix m m' → ∃ s' t' : PState K V P,
          (if be = true then doExtract pr { s with mix := m } else .ok { s with mix := m }) = .ok s' ∧
          (if be = true then doExtract pr { t with mix := m' } else .ok { t with mix := m' }) = .ok t' ∧ SameState s' t' := by
        intro m m' hm
        cases be with
        | false => exact ⟨_, _, rfl, rfl, hm, hf⟩
        | true => exact doExtract_same pr (s := { s with mix := m }) (t := { t with mix := m' }) ⟨hm, hf⟩
      cases bm with
      | false =>
        simp only [optStep, Bool.false_eq_true, if_false]
        cases bc with
        | false =>
          simp only [Bool.false_eq_true, if_false]
          exact .inr (fin _ _ ⟨_, _, rfl, rfl, p3⟩)
        | true =>
          simp only [if_true]
          have hn : (ds.map fun c => c.1).Nodup := by
            have := hdist rfl
            rw [hws] at this
            exact this.sublist (p4.map _)
          rcases cap_same he.argsort pr p3 hn with ⟨g1, g2⟩ | ⟨m, m', g1, g2, g3⟩
          · rw [g1, g2]; exact .inl ⟨rfl, rfl⟩
          · rw [g1, g2]; exact .inr (fin m m' g3)
      | true =>
        have hn : (ds.map fun c => c.1).Nodup := by
          have := hdist rfl
          rw [hws] at this
          exact this.sublist (p4.map _)
        simp only [optStep, if_true]
        rw [← merge_same hpr.thr he.quad p3 hwd hn]
        rcases good_merge hpr he ((good_iff _).2 ⟨ds, rfl, hwd⟩) with ⟨m2, g1, g2⟩ | g1
        swap
        · rw [g1]; exact .inl ⟨rfl, rfl⟩
        rw [g1]
        dsimp only
        obtain ⟨cs2, rfl, _⟩ := (good_iff m2).1 g2
        cases bc with
        | false =>
          simp only [Bool.false_eq_true, if_false]
          exact .inr (fin _ _ ⟨_, _, rfl, rfl, List.Perm.refl _⟩)
        | true =>
          simp only [if_true]
          rcases good_cap pr he g2 with ⟨m3, k1, k2⟩ | k1
          swap
          · rw [k1]; exact .inl ⟨rfl, rfl⟩
          rw [k1]
          obtain ⟨cs3, rfl, _⟩ := (good_iff m3).1 k2
          exact .inr (fin _ _ ⟨_, _, rfl, rfl, List.Perm.refl _⟩)
    | _ => exact hoo.elim

/-- **C114, partial.** Two sequences of well-formed calls on new PHD filters that differ only in the order of the birth terms
of each prediction and of the measurements of each correction, where no two components have the same weight when the mixture
is merged or capped: either both sequences end with a division by zero, or both run through; then the mixtures have the same
components, and every entry of the history has the same states with the same covariances, up to order.
*Missing:* components of equal weight, for which it is false (`C114_refuted`). -/
theorem C114_order_partial {env : Env K V P Z} (he : OkEnv env) {pr : Params K} (hpr : OkParams pr)
    (ops ops' : List (Op K V P Z)) (hops : ∀ o ∈ ops, OkOp o) (hsame : List.Forall₂ SameOp ops ops')
    (hdist : ∀ (pre post : List (Op K V P Z)) (o : Op K V P Z) (s : PState K V P), ops = pre ++ o :: post →
      Reduces o = true → run env pr (init : PState K V P) pre = .ok s → s.mix.ws.Nodup) :
    (run env pr (init : PState K V P) ops = .error .zeroDiv ∧ run env pr (init : PState K V P) ops' = .error .zeroDiv) ∨
    ∃ s t : PState K V P, run env pr init ops = .ok s ∧ run env pr init ops' = .ok t ∧ SameState s t := by
  have key : ∀ (ops ops' : List (Op K V P Z)) (s t : PState K V P), List.Forall₂ SameOp ops ops' → (∀ o ∈ ops, OkOp o) →
      (∀ (pre post : List (Op K V P Z)) (o : Op K V P Z) (s1 : PState K V P), ops = pre ++ o :: post →
        Reduces o = true → run env pr s pre = .ok s1 → s1.mix.ws.Nodup) → Good s.mix → SameState s t →
      (run env pr s ops = .error .zeroDiv ∧ run env pr t ops' = .error .zeroDiv) ∨
      ∃ s' t' : PState K V P, run env pr s ops = .ok s' ∧ run env pr t ops' = .ok t' ∧ SameState s' t' := by
    intro ops ops' s t hf
    induction hf generalizing s t with
    | nil => intro _ _ _ h; exact .inr ⟨s, t, rfl, rfl, h⟩
    | @cons o o' os os' hoo _ ih =>
      intro hok hd hg h
      rcases step_same he hpr hg h (hok o List.mem_cons_self) hoo (fun hr => hd [] os o s rfl hr rfl) with
        ⟨g1, g2⟩ | ⟨s', t', g1, g2, g3⟩
      · left
        unfold run
        rw [g1, g2]
        exact ⟨rfl, rfl⟩
      · have hg' : Good s'.mix := by
          rcases step_good he hpr hg o (hok o List.mem_cons_self) with ⟨s1, k1, k2⟩ | k1
          · rw [k1] at g1
            rwa [← Except.ok.inj g1]
          · rw [k1] at g1
            exact (nomatch g1)
        unfold run
        rw [g1, g2]
        refine ih s' t' (fun o' ho' => hok o' (List.mem_cons_of_mem _ ho')) ?_ hg' g3
        intro pre post o1 s1 hsp hr hrun
        refine hd (o :: pre) post o1 s1 (by rw [hsp]; rfl) hr ?_
        unfold run
        rw [g1]
        exact hrun
  exact key ops ops' init init hsame hops hdist ⟨by simp [Aligned, init], by simp [init]⟩
    ⟨⟨[], [], rfl, rfl, List.Perm.refl _⟩, .nil⟩

/-- A run with two births and two measurements, in both orders: the condition on the weights is met, and the order of the
components really differs before `cleanup`. -/
example : (run exEnv exParams init
    [.predict exFilt [⟨[1], [0], [1]⟩, ⟨[1 / 2], [5], [1]⟩], .correct exFilt [1, 7]]).toOption.map
      (fun s => (decide s.mix.ws.Nodup, s.mix.ms)) = some (true, [1 / 2, 3, 7 / 2, 6, 0, 5]) ∧
    (run exEnv exParams init
    [.predict exFilt [⟨[1 / 2], [5], [1]⟩, ⟨[1], [0], [1]⟩], .correct exFilt [7, 1]]).toOption.map
      (fun s => s.mix.ms) = some [6, 7 / 2, 3, 1 / 2, 5, 0] ∧
    (run exEnv exParams init
    [.predict exFilt [⟨[1], [0], [1]⟩, ⟨[1 / 2], [5], [1]⟩], .correct exFilt [1, 7], .cleanup true true true true]).toOption.map
      (fun s => s.mix.ms) =
    (run exEnv exParams init
    [.predict exFilt [⟨[1 / 2], [5], [1]⟩, ⟨[1], [0], [1]⟩], .correct exFilt [7, 1], .cleanup true true true true]).toOption.map
      (fun s => s.mix.ms) := by
  refine ⟨?_, ?_, ?_⟩ <;> decide +kernel

/-- **C114 is false of this code** for components of equal weight: three birth terms of equal weight at 0, 2 and 4 (merge
threshold 4, unit covariances). In the order 0, 2, 4 the component at 4 survives merging; in the order 2, 0, 4 all three are
merged into one. -/
theorem C114_refuted :
    [(⟨[1], [0], [1]⟩ : Mix ℚ ℚ ℚ), ⟨[1], [2], [1]⟩, ⟨[1], [4], [1]⟩].Perm [⟨[1], [2], [1]⟩, ⟨[1], [0], [1]⟩, ⟨[1], [4], [1]⟩] ∧
    (run exEnv exParams init [.predict exFilt [⟨[1], [0], [1]⟩, ⟨[1], [2], [1]⟩, ⟨[1], [4], [1]⟩],
      .cleanup false true false false]).toOption.map (fun s => (s.mix.ws, s.mix.ms)) = some ([2, 1], [1, 4]) ∧
    (run exEnv exParams init [.predict exFilt [⟨[1], [2], [1]⟩, ⟨[1], [0], [1]⟩, ⟨[1], [4], [1]⟩],
      .cleanup false true false false]).toOption.map (fun s => (s.mix.ws, s.mix.ms)) = some ([3], [2]) := by
  refine ⟨List.Perm.swap _ _ _, ?_, ?_⟩ <;> decide +kernel

end Gasur.Props
