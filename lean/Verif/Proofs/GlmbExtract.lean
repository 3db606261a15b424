import Verif.Proofs.GlmbWeights
import Verif.Proofs.PhdMerge

/-! State extraction of the GLMB filter. -/

set_option linter.unusedSectionVars false
set_option linter.unusedSimpArgs false

namespace Gasur.Glmb

open Gasur.KShortest Gasur.Murty Gasur.Spec

variable {K τ F S C Z : Type*} [Field K] [LinearOrder K] [IsStrictOrderedRing K]

theorem argmaxE_ok {l : List K} {i : ℕ} (h : argmaxE l = .ok i) :
    ∃ w, l[i]? = some w ∧ ∀ x ∈ l, x ≤ w := by
  unfold argmaxE at h
  cases l with
  | nil => simp [Phd.argmax] at h
  | cons a l =>
    obtain ⟨j, w, h1, h2, h3⟩ := Phd.argmax_some (ws := a :: l) (by simp)
    rw [h1] at h
    simp only [Except.ok.injEq] at h
    exact ⟨w, h ▸ h2, h3⟩

theorem argmaxE_total {l : List K} (h : l ≠ []) : ∃ i, argmaxE l = .ok i ∧ i < l.length := by
  obtain ⟨j, w, h1, h2, _⟩ := Phd.argmax_some h
  exact ⟨j, by unfold argmaxE; rw [h1], (List.getElem?_eq_some_iff.1 h2).1⟩

/-! ### Reporting -/

/-- The element of `l` reported at step `t` if `l` starts at step `b`. -/
def colAt {α : Type*} (b : ℕ) (l : List α) (t : ℕ) : Option α := if b ≤ t then l[t - b]? else none

theorem colAt_cons {α : Type*} (b : ℕ) (x : α) (l : List α) (t : ℕ) :
    colAt b (x :: l) t = if b = t then some x else colAt (b + 1) l t := by
  unfold colAt
  by_cases h : b = t
  · subst h; simp
  · rw [if_neg h]
    by_cases h2 : b ≤ t
    · rw [if_pos h2, if_pos (by omega)]
      have : t - b = (t - (b + 1)) + 1 := by omega
      rw [this]
      simp
    · rw [if_neg h2, if_neg (by omega)]

theorem colAt_nil {α : Type*} (b t : ℕ) : colAt b ([] : List α) t = none := by
  unfold colAt; split <;> simp

theorem colAt_map {α β : Type*} (f : α → β) (b : ℕ) (l : List α) (t : ℕ) :
    colAt b (l.map f) t = (colAt b l t).map f := by
  unfold colAt
  split <;> simp

theorem appendAt_length {α : Type*} (l : List (List α)) (i : ℕ) (x : α) :
    (appendAt l i x).length = l.length := by
  unfold appendAt; simp

theorem appendAt_get {α : Type*} (l : List (List α)) (i : ℕ) (x : α) (t : ℕ) :
    (appendAt l i x)[t]? = (l[t]?).map fun y => y ++ (if i = t then some x else none).toList := by
  unfold appendAt
  rw [List.getElem?_modify]
  by_cases h : i = t
  · subst h; simp
  · simp only [if_neg h, Option.toList_none, List.append_nil]
    rfl

variable [DecidableEq τ] [FloorRing K]

theorem reportOne_spec (cntr : ℕ) (label : τ × ℕ) (tIdx : ℕ) : ∀ (l : List (S × C)) (k : ℕ)
    (r r' : List (List S) × List (List (τ × ℕ)) × List (List C)),
    reportOne cntr label tIdx (l.zipIdx k) r = .ok r' →
    tIdx + k + l.length ≤ cntr + (if l = [] then tIdx + k else 0) ∧
    (r'.1.length = r.1.length ∧ r'.2.1.length = r.2.1.length ∧ r'.2.2.length = r.2.2.length) ∧
    ∀ t, r'.1[t]? = (r.1[t]?).map (fun y => y ++ ((colAt (tIdx + k) l t).map Prod.fst).toList) ∧
      r'.2.1[t]? = (r.2.1[t]?).map (fun y => y ++ ((colAt (tIdx + k) l t).map fun _ => label).toList) ∧
      r'.2.2[t]? = (r.2.2[t]?).map (fun y => y ++ ((colAt (tIdx + k) l t).map Prod.snd).toList)
  | [], k, r, r', h => by
    simp only [List.zipIdx_nil, reportOne, Except.ok.injEq] at h
    subst h
    refine ⟨by simp, ⟨rfl, rfl, rfl⟩, ?_⟩
    intro t
    simp [colAt_nil]
  | (s, c) :: l, k, r, r', h => by
    rw [List.zipIdx_cons] at h
    unfold reportOne at h
    split at h
    · rename_i hlt
      obtain ⟨h1, ⟨l1, l2, l3⟩, h2⟩ := reportOne_spec cntr label tIdx l (k + 1) _ r' h
      simp only [appendAt_length] at l1 l2 l3
      refine ⟨?_, ⟨l1, l2, l3⟩, ?_⟩
      · rw [if_neg (by simp), List.length_cons]
        by_cases h0 : l = []
        · subst h0; simp; omega
        · rw [if_neg h0] at h1; omega
      · intro t
        obtain ⟨g1, g2, g3⟩ := h2 t
        simp only [appendAt_get, Option.map_map] at g1 g2 g3
        have hcol := colAt_cons (tIdx + k) (s, c) l t
        have hk : tIdx + (k + 1) = tIdx + k + 1 := rfl
        rw [hk] at g1 g2 g3
        by_cases ht : tIdx + k = t
        · have hnone : colAt (tIdx + k + 1) l t = none := by
            unfold colAt; rw [if_neg (by omega)]
          rw [hnone] at g1 g2 g3
          rw [hcol, if_pos ht, g1, g2, g3]
          simp [ht, Function.comp_def]
        · rw [hcol, if_neg ht, g1, g2, g3]
          simp [ht, Function.comp_def]
    · simp at h

theorem report_spec (cntr : ℕ) : ∀ (ext : List (Ext τ S C))
    (r r' : List (List S) × List (List (τ × ℕ)) × List (List C)),
    report cntr ext r = .ok r' → (∀ e ∈ ext, e.states.length = e.covs.length) →
    (r'.1.length = r.1.length ∧ r'.2.1.length = r.2.1.length ∧ r'.2.2.length = r.2.2.length) ∧
    ∀ t, r'.1[t]? = (r.1[t]?).map (fun y => y ++ ext.filterMap fun e => colAt e.tIdx e.states t) ∧
      r'.2.1[t]? = (r.2.1[t]?).map (fun y => y ++
        ext.filterMap fun e => (colAt e.tIdx e.states t).map fun _ => e.label) ∧
      r'.2.2[t]? = (r.2.2[t]?).map (fun y => y ++ ext.filterMap fun e => colAt e.tIdx e.covs t)
  | [], r, r', h, _ => by
    simp only [report, Except.ok.injEq] at h
    subst h
    refine ⟨⟨rfl, rfl, rfl⟩, ?_⟩
    intro t
    simp
  | e :: es, r, r', h, hwf => by
    unfold report at h
    split at h
    · simp at h
    · rename_i r1 h1
      obtain ⟨_, ⟨l1, l2, l3⟩, g⟩ := reportOne_spec cntr e.label e.tIdx _ 0 _ _ h1
      obtain ⟨⟨m1, m2, m3⟩, g'⟩ := report_spec cntr es _ _ h fun x hx => hwf x (List.mem_cons_of_mem _ hx)
      refine ⟨⟨m1.trans l1, m2.trans l2, m3.trans l3⟩, ?_⟩
      intro t
      obtain ⟨a1, a2, a3⟩ := g t
      obtain ⟨b1, b2, b3⟩ := g' t
      rw [Nat.add_zero] at a1 a2 a3
      have hlen := hwf e List.mem_cons_self
      have z1 : (colAt e.tIdx (e.states.zip e.covs) t).map Prod.fst = colAt e.tIdx e.states t := by
        rw [← colAt_map, List.map_fst_zip hlen.le]
      have z2 : (colAt e.tIdx (e.states.zip e.covs) t).map Prod.snd = colAt e.tIdx e.covs t := by
        rw [← colAt_map, List.map_snd_zip hlen.ge]
      have z3 : (colAt e.tIdx (e.states.zip e.covs) t).map (fun _ => e.label) =
          (colAt e.tIdx e.states t).map fun _ => e.label := by
        rw [← z1, Option.map_map]; rfl
      rw [z1] at a1
      rw [z2] at a3
      rw [z3] at a2
      rw [b1, b2, b3, a1, a2, a3]
      simp only [Option.map_map, Function.comp_def, List.append_assoc]
      refine ⟨?_, ?_, ?_⟩ <;> congr 1 <;> funext y <;> rw [List.filterMap_cons]
      · cases colAt e.tIdx e.states t <;> simp
      · cases colAt e.tIdx e.states t <;> simp
      · cases colAt e.tIdx e.covs t <;> simp

/-! ### The extraction history -/

theorem mkExt_ok {e : Entry K τ F S C} {x : Ext τ S C} (h : mkExt e = .ok x) :
    x.label = e.label ∧ x.mHist = e.mHist ∧ x.tIdx = e.tIdx ∧ x.states.length = x.covs.length ∧
    x.states.length = e.sHist.length ∧ x.states.length = e.wHist.length ∧
    ∀ (k : ℕ) (s : S), x.states[k]? = some s → ∃ (ws : List K) (ss : List S) (cs : List C) (i : ℕ) (w : K) (c : C), e.wHist[k]? = some ws ∧ e.sHist[k]? = some ss ∧
      e.cHist[k]? = some cs ∧ ws[i]? = some w ∧ (∀ v ∈ ws, v ≤ w) ∧ ss[i]? = some s ∧
      cs[i]? = some c ∧ x.covs[k]? = some c := by
  unfold mkExt at h
  split at h
  · rename_i hlen
    split at h
    · simp at h
    · rename_i l hl
      simp only [Except.ok.injEq] at h
      subst h
      have h2 := (traverseE_ok _ _ _).1 hl
      have hl2 : l.length = e.sHist.length := by
        rw [← h2.length_eq, List.length_zip, List.length_zip, hlen.1, hlen.2]; simp
      refine ⟨rfl, rfl, rfl, by simp, by simp [hl2], by simp [hl2, hlen.1], ?_⟩
      intro k s hk
      simp only [List.getElem?_map, Option.map_eq_some_iff] at hk
      obtain ⟨⟨s', c⟩, hsc, rfl⟩ := hk
      obtain ⟨hkl, hkv⟩ := List.getElem?_eq_some_iff.1 hsc
      have hf := List.forall₂_iff_get.1 h2
      have h1 := hf.2 k (by rw [hf.1]; exact hkl) hkl
      simp only [List.get_eq_getElem, List.getElem_zip, hkv] at h1
      unfold bestState at h1
      split at h1
      · simp at h1
      · rename_i i hi
        obtain ⟨w, hw1, hw2⟩ := argmaxE_ok hi
        split at h1
        · rename_i s0 c0 hs0 hc0
          simp only [Except.ok.injEq, Prod.mk.injEq] at h1
          obtain ⟨rfl, rfl⟩ := h1
          refine ⟨_, _, _, i, w, c0, List.getElem?_eq_getElem _, List.getElem?_eq_getElem _,
            List.getElem?_eq_getElem _, hw1, hw2, getE_ok.1 hs0, getE_ok.1 hc0, ?_⟩
          simp [List.getElem?_map, hsc]
        · simp at h1
  · simp at h

theorem keepOld_sub (cntr : ℕ) (labels : List (τ × ℕ)) (used : List ℕ) :
    ∀ (l r : List (Ext τ S C)), keepOld cntr labels used l = .ok r →
      r.Sublist l ∧ ∀ e ∈ r, e.label ∉ labels
  | [], r, h => by
    simp only [keepOld, Except.ok.injEq] at h
    subst h
    simp
  | e :: es, r, h => by
    unfold keepOld at h
    split at h
    · obtain ⟨h1, h2⟩ := keepOld_sub cntr labels used es r h
      exact ⟨h1.cons _, h2⟩
    · rename_i hlab
      split at h
      · simp at h
      · rename_i b _
        split at h
        · simp at h
        · rename_i r' hr'
          obtain ⟨h1, h2⟩ := keepOld_sub cntr labels used es r' hr'
          simp only [Except.ok.injEq] at h
          subst h
          cases b with
          | true => exact ⟨h1.cons _, h2⟩
          | false =>
            refine ⟨h1.cons_cons _, ?_⟩
            intro x hx
            rcases List.mem_cons.1 hx with rfl | hx
            · exact hlab
            · exact h2 x hx

/-- What the new extraction history consists of. -/
theorem updateExt_ok {st : St K τ F S C} {idx : ℕ} {ext : List (Ext τ S C)}
    (h : updateExt st idx = .ok ext) :
    ∃ hyp ents news old, st.hyps[idx]? = some hyp ∧
      List.Forall₂ (fun i e => st.tab[i]? = some e) hyp.tracks ents ∧
      List.Forall₂ (fun e x => mkExt e = .ok x) ents news ∧
      ext = old ++ news ∧ old.Sublist st.ext ∧ ∀ e ∈ old, e.label ∉ news.map fun e => e.label := by
  unfold updateExt at h
  split at h
  · simp at h
  · rename_i hyp hh
    split at h
    · simp at h
    · rename_i ents he
      split at h
      · simp at h
      · rename_i news hn
        split at h
        · simp at h
        · rename_i used _
          split at h
          · simp at h
          · rename_i old ho
            simp only [Except.ok.injEq] at h
            obtain ⟨k1, k2⟩ := keepOld_sub _ _ _ _ _ ho
            exact ⟨hyp, ents, news, old, getE_ok.1 hh,
              ((traverseE_ok _ _ _).1 he).imp fun _ _ h => getE_ok.1 h, (traverseE_ok _ _ _).1 hn, h.symm,
              k1, k2⟩

/-- History invariant (C24): parallel lists, distinct labels. -/
structure ExtInv (st : St K τ F S C) : Prop where
  len : ∀ e ∈ st.ext, e.states.length = e.covs.length
  nodup : (st.ext.map fun e => e.label).Nodup

theorem updateExt_inv {st : St K τ F S C} {past : List τ} (hL : LabInv past st) (hE : ExtInv st)
    {idx : ℕ} {ext : List (Ext τ S C)} (h : updateExt st idx = .ok ext) :
    (∀ e ∈ ext, e.states.length = e.covs.length) ∧ (ext.map fun e => e.label).Nodup := by
  obtain ⟨hyp, ents, news, old, h1, h2, h3, rfl, h4, h5⟩ := updateExt_ok h
  constructor
  · intro e he
    rcases List.mem_append.1 he with he | he
    · exact hE.len e (h4.subset he)
    · obtain ⟨x, _, hx⟩ := forall₂_mem_right h3 he
      exact (mkExt_ok hx).2.2.2.1
  · rw [List.map_append, List.nodup_append]
    refine ⟨(h4.map _).nodup hE.nodup, ?_, ?_⟩
    · have hmem := List.mem_of_getElem? h1
      have hlab : news.map (fun e => e.label) = ents.map fun e => e.label := by
        clear h2 h4 h5 h
        induction h3 with
        | nil => rfl
        | cons hx _ ih => rw [List.map_cons, List.map_cons, ih, (mkExt_ok hx).1]
      rw [hlab]
      have hf := List.forall₂_iff_get.1 h2
      rw [List.nodup_iff_injective_get]
      intro a b hab
      simp only [List.get_eq_getElem, List.getElem_map] at hab
      have la : a.val < ents.length := by simpa using a.isLt
      have lb : b.val < ents.length := by simpa using b.isLt
      have ga := hf.2 a.val (by rw [hf.1]; exact la) la
      have gb := hf.2 b.val (by rw [hf.1]; exact lb) lb
      simp only [List.get_eq_getElem] at ga gb
      have := hL.uniq hyp hmem _ (List.getElem_mem _) _ (List.getElem_mem _) _ _ ga gb hab
      exact Fin.ext ((List.Nodup.getElem_inj_iff (hL.idx.nodup hyp hmem)).1 this)
    · intro a ha b hb hab
      obtain ⟨e, he, rfl⟩ := List.mem_map.1 ha
      exact h5 e he (hab ▸ hb)

theorem extract_inv {u c : Bool} {st st' : St K τ F S C} {o} {past : List τ} (hL : LabInv past st)
    (hE : ExtInv st) (h : extract u c st = .ok (st', o)) : ExtInv st' := by
  obtain ⟨n, _, ⟨_, _, rfl⟩ | ⟨_, idx, ext, r, _, _, hext, _, rfl⟩⟩ := extract_ok h
  · exact ⟨hE.len, hE.nodup⟩
  · cases u with
    | true =>
      rw [if_pos rfl] at hext
      obtain ⟨h1, h2⟩ := updateExt_inv hL hE hext
      exact ⟨h1, h2⟩
    | false =>
      simp only [Bool.false_eq_true, if_false, Except.ok.injEq] at hext
      subst hext
      exact ⟨hE.len, hE.nodup⟩

theorem prune_frame {pr : Params K} {st st' : St K τ F S C} (h : prune pr st = .ok st') :
    st'.ext = st.ext ∧ st'.cntr = st.cntr := by
  obtain ⟨hs, _, rfl⟩ := prune_ok h
  exact ⟨rfl, rfl⟩

theorem cap_frame {env : Env K τ F S C Z} {pr : Params K} {st st' : St K τ F S C}
    (h : cap env pr st = .ok st') : st'.ext = st.ext ∧ st'.cntr = st.cntr := by
  rcases cap_ok h with ⟨_, rfl⟩ | ⟨_, kept, hs, _, _, rfl⟩ <;> exact ⟨rfl, rfl⟩

/-- State just before the extraction inside `cleanup`. -/
theorem cleanup_pre {env : Env K τ F S C Z} {pr : Params K} {bp bc be u c : Bool}
    {st st' : St K τ F S C} (h : cleanup env pr bp bc be u c st = .ok st') :
    ∃ s2, Shrinks st s2 ∧ s2.ext = st.ext ∧ s2.cntr = st.cntr + 1 ∧
      ((be = false ∧ st' = s2) ∨ (be = true ∧ ∃ o, extract u c s2 = .ok (st', o))) := by
  obtain ⟨s1, s2, h1, h2, h3⟩ := cleanup_ok h
  have k1 : Shrinks st s1 ∧ s1.ext = st.ext ∧ s1.cntr = st.cntr + 1 := by
    split at h1
    · have := prune_shrinks h1
      exact ⟨⟨this.tab, this.hyps⟩, (prune_frame h1).1, (prune_frame h1).2⟩
    · simp only [Except.ok.injEq] at h1
      subst h1
      exact ⟨⟨rfl, fun x hx => ⟨x, hx, rfl⟩⟩, rfl, rfl⟩
  have k2 : Shrinks s1 s2 ∧ s2.ext = s1.ext ∧ s2.cntr = s1.cntr := by
    split at h2
    · exact ⟨cap_shrinks h2, cap_frame h2⟩
    · simp only [Except.ok.injEq] at h2
      subst h2
      exact ⟨Shrinks.refl _, rfl, rfl⟩
  exact ⟨s2, k1.1.trans k2.1, k2.2.1.trans k1.2.1, k2.2.2.trans k1.2.2, h3⟩

theorem step_ext {pr : Params K} {st st' : St K τ F S C} (o : Op K τ F S C Z)
    {past : List τ} (hL : LabInv past st) (hE : ExtInv st)
    (h : step pr st o = .ok st') : ExtInv st' := by
  cases o with
  | predict env lab births =>
    obtain ⟨_, _, _, _, he⟩ := predict_tab h
    exact ⟨by rw [he]; exact hE.len, by rw [he]; exact hE.nodup⟩
  | correct env meas =>
    obtain ⟨_, _, _, _, _, he⟩ := correct_ok h
    rw [he]
    exact ⟨hE.len, hE.nodup⟩
  | cleanup env bp bc be u c =>
    obtain ⟨s2, h1, h2, h3, ⟨_, rfl⟩ | ⟨_, o, h4⟩⟩ := cleanup_pre h
    · exact ⟨by rw [h2]; exact hE.len, by rw [h2]; exact hE.nodup⟩
    · exact extract_inv (h1.lab hL) ⟨by rw [h2]; exact hE.len, by rw [h2]; exact hE.nodup⟩ h4
  | extract u c =>
    simp only [step] at h
    split at h
    · simp at h
    · rename_i s o h1
      simp only [Except.ok.injEq] at h
      subst h
      exact extract_inv hL hE h1

theorem run_ext {pr : Params K} (heps : 0 < pr.eps) : ∀ (ops : List (Op K τ F S C Z))
    (past : List τ) (st st' : St K τ F S C), LabInv past st → ExtInv st →
    (ops.flatMap Op.labels).Nodup → (∀ t ∈ ops.flatMap Op.labels, t ∉ past) →
    run pr st ops = .ok st' → (∃ past', LabInv past' st') ∧ ExtInv st'
  | [], past, st, st', h, hE, _, _, hr => by
    simp only [run, Except.ok.injEq] at hr
    subst hr
    exact ⟨⟨past, h⟩, hE⟩
  | o :: os, past, st, st', h, hE, hnd, hd, hr => by
    unfold run at hr
    split at hr
    · simp at hr
    · rename_i s hs
      rw [List.flatMap_cons, List.nodup_append] at hnd
      rw [List.flatMap_cons] at hd
      refine run_ext heps os (o.labels ++ past) s st'
        (step_lab heps o h (fun t ht => hd t (List.mem_append_left _ ht)) hs)
        (step_ext o h hE hs) hnd.2.1 ?_ hr
      intro t ht hc
      rcases List.mem_append.1 hc with hc | hc
      · exact hnd.2.2 t hc t ht rfl
      · exact hd t (List.mem_append_right _ ht) hc

theorem init_ext : ExtInv (init : St K τ F S C) := ⟨by simp [init], by simp [init]⟩

end Gasur.Glmb
