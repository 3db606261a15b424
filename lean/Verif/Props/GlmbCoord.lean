import Verif.Spec.Coord
import Verif.Props.JglmbTrack

/-!
# Property C120: the GLMB filters do not depend on the coordinate system
-/

set_option linter.unusedSectionVars false

namespace Gasur.Props

open Gasur.Glmb Gasur.Spec

theorem traverseE_nat {α β α' β' ε : Type*} {f : α → Except ε β} {f' : α' → Except ε β'} {g : α → α'} {h : β → β'} :
    ∀ (l : List α), (∀ a ∈ l, f' (g a) = (f a).map h) →
      traverseE f' (l.map g) = (traverseE f l).map (List.map h)
  | [], _ => rfl
  | a :: l, H => by
    have h1 := H a List.mem_cons_self
    have h2 := traverseE_nat l fun b hb => H b (List.mem_cons_of_mem _ hb)
    rw [List.map_cons]
    unfold traverseE
    rw [h1, h2]
    cases f a with
    | error e => rfl
    | ok b =>
      cases traverseE f l with
      | error e => rfl
      | ok r => rfl

theorem traverseE_same {α α' β ε : Type*} {f : α → Except ε β} {f' : α' → Except ε β} {g : α → α'}
    (l : List α) (H : ∀ a ∈ l, f' (g a) = f a) : traverseE f' (l.map g) = traverseE f l := by
  rw [traverseE_nat (f := f) (h := id) l fun a ha => by rw [H a ha]; cases f a <;> rfl]
  cases traverseE f l with
  | error e => rfl
  | ok r => exact congrArg Except.ok (List.map_id r)

theorem getE_nat {α β : Type*} (g : α → β) (l : List α) (i : ℕ) : getE (l.map g) i = (getE l i).map g := by
  unfold getE
  rw [List.getElem?_map]
  cases l[i]? <;> rfl

variable {K τ F S C Z τ' F' S' C' Z' : Type*} [Field K] [LinearOrder K]
variable {m : Coords τ F S C Z τ' F' S' C' Z'} {e : Env K τ F S C Z} {e' : Env K τ' F' S' C' Z'}

theorem kList_nat (h : m.SameFilter e e') (pr : Params K) (costs : List (WithTop K)) (k : ℕ) :
    kList e' pr costs k = kList e pr costs k := by
  unfold kList
  rw [h.sortInds]

theorem expNegTop_nat (h : m.SameFilter e e') (x : WithTop K) : expNegTop e' x = expNegTop e x := by
  unfold expNegTop
  rw [h.num]

theorem logOdds_nat (h : m.SameFilter e e') : (logOdds e' : K → Except GErr (WithTop K)) = logOdds e := by
  funext p
  unfold logOdds
  rw [h.num]

theorem birthTab_nat (lab : τ) (cntr : ℕ) (births : List (Birth K F S C)) :
    birthTab (m.t lab) cntr (births.map m.birth) = (birthTab lab cntr births).map m.entry := by
  unfold birthTab
  rw [List.zipIdx_map, List.map_map, List.map_map]
  rfl

theorem birthHyps_nat (h : m.SameFilter e e') (births : List (Birth K F S C)) (paths) :
    birthHyps e' (births.map m.birth) paths = birthHyps e births paths := by
  unfold birthHyps
  rw [List.map_map]
  simp only [expNegTop_nat h]
  rfl

theorem predictEntry_nat (h : m.SameFilter e e') (t : Entry K τ F S C) :
    predictEntry e' (m.entry t) = (predictEntry e t).map m.entry := by
  unfold predictEntry
  have h1 : (m.entry t).sHist.getLast? = t.sHist.getLast?.map (List.map m.s) := by
    simp [Coords.entry]
  rw [h1]
  have h2 : (m.entry t).wHist = t.wHist := rfl
  rw [h2]
  cases t.sHist.getLast? with
  | none => rfl
  | some s =>
    cases t.wHist.getLast? with
    | none => rfl
    | some w =>
      dsimp only [Option.map_some]
      have h3 : (m.entry t).fStates = t.fStates.map m.f := rfl
      rw [h3, List.length_map, List.length_map]
      by_cases hl : t.fStates.length = s.length
      · rw [if_pos hl, if_pos hl]
        simp only [Except.map, Coords.entry, List.zipWith_map, h.pred, List.map_append, List.map_cons, List.map_nil,
          List.map_zipWith]
      · rw [if_neg hl, if_neg hl]
        rfl

variable [FloorRing K]

theorem share_nat (h : m.SameFilter e e') (req : ℕ) (p s : K) : share e' req p s = share e req p s := by
  unfold share
  rw [h.num]

theorem sumSqrt_nat (h : m.SameFilter e e') (hyps : List (Hyp K)) : sumSqrt e' hyps = sumSqrt e hyps := by
  unfold sumSqrt
  rw [h.num]

theorem map_entry_psurv (h : m.SameFilter e e') (l : List (Entry K τ F S C)) :
    (l.map m.entry).map e'.psurv = l.map e.psurv := by
  rw [List.map_map]
  exact List.map_congr_left fun t _ => h.psurv t

theorem survOne_nat (h : m.SameFilter e e') (pr : Params K) (tab : List (Entry K τ F S C)) (ss : K) (hy : Hyp K) :
    survOne e' pr (tab.map m.entry) ss hy = survOne e pr tab ss hy := by
  unfold survOne
  by_cases h0 : hy.tracks = []
  · rw [if_pos h0, if_pos h0]
  rw [if_neg h0, if_neg h0]
  have h1 : traverseE (getE (tab.map m.entry)) hy.tracks = (traverseE (getE tab) hy.tracks).map (List.map m.entry) := by
    have := traverseE_nat (f := getE tab) (f' := getE (tab.map m.entry)) (g := id) (h := m.entry) hy.tracks
      fun a _ => getE_nat _ _ _
    rwa [List.map_id] at this
  rw [h1]
  cases traverseE (getE tab) hy.tracks with
  | error e => rfl
  | ok ents =>
    dsimp only [Except.map]
    rw [map_entry_psurv h, logOdds_nat h]
    have h2 : ((ents.map m.entry).map fun e => 1 - e'.psurv e) = ents.map fun x => 1 - e.psurv x := by
      rw [List.map_map]
      exact List.map_congr_left fun t _ => congrArg (1 - ·) (h.psurv t)
    rw [h2]
    simp only [share_nat h, kList_nat h, expNegTop_nat h]

theorem survHyps_nat (h : m.SameFilter e e') (pr : Params K) (tab : List (Entry K τ F S C)) (hyps : List (Hyp K)) :
    survHyps e' pr (tab.map m.entry) hyps = survHyps e pr tab hyps := by
  unfold survHyps
  rw [sumSqrt_nat h]
  have : survOne e' pr (tab.map m.entry) (sumSqrt e hyps) = survOne e pr tab (sumSqrt e hyps) :=
    funext fun x => survOne_nat h pr tab _ x
  rw [this]

theorem predict_nat (h : m.SameFilter e e') (pr : Params K) (lab : τ) (births : List (Birth K F S C))
    (st : St K τ F S C) :
    predict e' pr (m.t lab) (births.map m.birth) (m.st st) = (predict e pr lab births st).map m.st := by
  unfold predict
  have h1 : ((births.map m.birth).map fun b => b.prob) = births.map fun b => b.prob := by
    rw [List.map_map]
    rfl
  rw [h1, logOdds_nat h]
  cases traverseE (logOdds e) (births.map fun b => b.prob) with
  | error x => rfl
  | ok costs =>
    dsimp only
    rw [kList_nat h]
    cases kList e pr costs pr.reqBirths with
    | error x => rfl
    | ok paths =>
      dsimp only
      rw [birthHyps_nat h]
      cases birthHyps e births paths with
      | error x => rfl
      | ok bh =>
        dsimp only
        have h2 : traverseE (predictEntry e') (m.st st).tab =
            (traverseE (predictEntry e) st.tab).map (List.map m.entry) :=
          traverseE_nat st.tab fun t _ => predictEntry_nat h t
        rw [h2]
        cases traverseE (predictEntry e) st.tab with
        | error x => rfl
        | ok survTab =>
          dsimp only [Except.map]
          have h3 : survHyps e' pr (m.st st).tab (m.st st).hyps = survHyps e pr st.tab st.hyps :=
            survHyps_nat h pr st.tab st.hyps
          rw [h3]
          cases survHyps e pr st.tab st.hyps with
          | error x => rfl
          | ok sh =>
            dsimp only
            rw [List.length_map]
            cases setPredHyps births.length bh sh with
            | error x => rfl
            | ok hs =>
              dsimp only
              rw [show (m.st st).cntr = st.cntr from rfl, birthTab_nat, ← List.map_append]
              rfl

/-! ### Correction -/

theorem optE_nat {α β : Type*} (g : α → β) (o : Option α) : optE (o.map g) = (optE o).map g := by
  cases o <;> rfl

theorem correctEntry_nat (h : m.SameFilter e e') (pr : Params K) (z : Z) (t : Entry K τ F S C) :
    correctEntry e' pr (m.z z) (m.entry t) = (correctEntry e pr z t).map fun x => (x.1.map m.entry, x.2) := by
  unfold correctEntry
  have h1 : (m.entry t).sHist.getLast? = t.sHist.getLast?.map (List.map m.s) := by
    simp [Coords.entry]
  rw [h1]
  have h2 : (m.entry t).wHist = t.wHist := rfl
  rw [h2]
  cases t.sHist.getLast? with
  | none => rfl
  | some s =>
    cases t.wHist.getLast? with
    | none => rfl
    | some w =>
      dsimp only [Option.map_some]
      have h3 : (m.entry t).fStates = t.fStates.map m.f := rfl
      have h4 : (m.entry t).cHist ≠ [] ↔ t.cHist ≠ [] := by simp [Coords.entry]
      rw [h3, List.length_map, List.length_map]
      by_cases hl : t.fStates.length = s.length ∧ s.length = w.length ∧ t.cHist ≠ []
      · rw [if_pos hl, if_pos ⟨hl.1, hl.2.1, h4.2 hl.2.2⟩]
        have h5 : (t.fStates.map m.f).zip ((s.map m.s).zip w) =
            (t.fStates.zip (s.zip w)).map fun x => (m.f x.1, m.s x.2.1, x.2.2) := by
          rw [List.zip_map_left (l₁ := s), List.zip_map]
          rfl
        have h6 : traverseE (fun x : F' × S' × K => optE (e'.corF (m.z z) x.1 x.2.1 x.2.2))
            ((t.fStates.map m.f).zip ((s.map m.s).zip w)) =
            (traverseE (fun x : F × S × K => optE (e.corF z x.1 x.2.1 x.2.2)) (t.fStates.zip (s.zip w))).map
              (List.map fun r => (m.f r.1, m.s r.2.1, m.c r.2.2.1, r.2.2.2)) := by
          rw [h5]
          refine traverseE_nat _ fun a _ => ?_
          dsimp only
          rw [h.cor, optE_nat]
        rw [h6]
        cases traverseE (fun x : F × S × K => optE (e.corF z x.1 x.2.1 x.2.2)) (t.fStates.zip (s.zip w)) with
        | error x => rfl
        | ok rs =>
          dsimp only [Except.map]
          simp only [List.map_map, Function.comp_def, ne_eq, List.map_eq_nil_iff]
          by_cases hn : ¬ rs = [] ∧ (rs.map fun r => r.2.2.2 + pr.eps).sum = 0
          · rw [if_pos hn, if_pos hn]
          · rw [if_neg hn, if_neg hn]
            simp [Coords.entry, List.map_dropLast, Function.comp_def]
      · rw [if_neg hl, if_neg fun hh => hl ⟨hh.1, hh.2.1, h4.1 hh.2.2⟩]
        rfl

/-- A block of updated tracks in the other coordinates. -/
def mapBlock (m : Coords τ F S C Z τ' F' S' C' Z') (b : List (Option (Entry K τ F S C) × K)) :
    List (Option (Entry K τ' F' S' C') × K) := b.map fun x => (x.1.map m.entry, x.2)

theorem corBlock_nat (h : m.SameFilter e e') (pr : Params K) (tab : List (Entry K τ F S C)) (ze : Z × ℕ) :
    corBlock e' pr (tab.map m.entry) (m.z ze.1, ze.2) = (corBlock e pr tab ze).map (mapBlock m) := by
  unfold corBlock
  dsimp only
  rw [traverseE_nat (f := correctEntry e pr ze.1) tab fun t _ => correctEntry_nat h pr ze.1 t]
  cases traverseE (correctEntry e pr ze.1) tab with
  | error x => rfl
  | ok l =>
    simp only [Except.map, mapBlock, List.map_map, Function.comp_def, Option.map_map]
    rfl

theorem corBlocks_nat (h : m.SameFilter e e') (pr : Params K) (tab : List (Entry K τ F S C)) (meas : List Z) :
    corBlocks e' pr (tab.map m.entry) (meas.map m.z) = (corBlocks e pr tab meas).map (List.map (mapBlock m)) := by
  unfold corBlocks
  rw [List.zipIdx_map]
  exact traverseE_nat _ fun a _ => corBlock_nat h pr tab a

theorem upTab_nat (tab : List (Entry K τ F S C)) (blocks : List (List (Option (Entry K τ F S C) × K))) :
    upTab (tab.map m.entry) (blocks.map (mapBlock m)) = (upTab tab blocks).map (Option.map m.entry) := by
  unfold upTab
  rw [List.map_append, List.map_map, List.map_map, List.flatMap_map, List.map_flatMap]
  congr 1
  congr 1
  funext b
  simp [mapBlock, Function.comp_def]

theorem blockCost_nat (h : m.SameFilter e e') (pr : Params K) (te : ℕ × Entry K τ F S C)
    (b : List (Option (Entry K τ F S C) × K)) :
    blockCost e' pr (te.1, m.entry te.2) (mapBlock m b) = blockCost e pr te b := by
  unfold blockCost mapBlock
  rw [getE_nat, h.pdet]
  cases getE b te.1 <;> rfl

theorem costRows_nat (h : m.SameFilter e e') (pr : Params K) (blocks : List (List (Option (Entry K τ F S C) × K)))
    (tracks : List ℕ) (ents : List (Entry K τ F S C)) :
    costRows e' pr (blocks.map (mapBlock m)) tracks (ents.map m.entry) = costRows e pr blocks tracks ents := by
  unfold costRows
  rw [List.zip_map_right]
  refine traverseE_same _ fun te _ => ?_
  exact traverseE_same _ fun b _ => blockCost_nat h pr te b

theorem costMat_nat (h : m.SameFilter e e') (rows : List (List K)) (r n : ℕ) :
    costMat e' rows r n = costMat e rows r n := by
  unfold costMat
  rw [h.num]

theorem getE_tab_nat (tab : List (Entry K τ F S C)) (is : List ℕ) :
    traverseE (getE (tab.map m.entry)) is = (traverseE (getE tab) is).map (List.map m.entry) := by
  have := traverseE_nat (f := getE tab) (f' := getE (tab.map m.entry)) (g := id) (h := m.entry) is
    fun a _ => getE_nat _ _ _
  rwa [List.map_id] at this

theorem corOne_nat (h : m.SameFilter e e') (pr : Params K) (tab : List (Entry K τ F S C))
    (blocks : List (List (Option (Entry K τ F S C) × K))) (ss : K) (hy : Hyp K) :
    corOne e' pr (tab.map m.entry) (blocks.map (mapBlock m)) ss hy = corOne e pr tab blocks ss hy := by
  unfold corOne
  rw [getE_tab_nat]
  cases traverseE (getE tab) hy.tracks with
  | error x => rfl
  | ok ents =>
    dsimp only [Except.map]
    have h2 : ((ents.map m.entry).map fun x => 1 - e'.pdet x) = ents.map fun x => 1 - e.pdet x := by
      rw [List.map_map]
      exact List.map_congr_left fun t _ => congrArg (1 - ·) (h.pdet t)
    rw [h2, costRows_nat h, show (blocks.map (mapBlock m)).length = blocks.length from List.length_map _]
    simp only [List.map_eq_nil_iff, List.length_map, h.num, share_nat h, costMat_nat h]

theorem corHyps_nat (h : m.SameFilter e e') (pr : Params K) (tab : List (Entry K τ F S C))
    (blocks : List (List (Option (Entry K τ F S C) × K))) (hyps : List (Hyp K)) :
    corHyps e' pr (tab.map m.entry) (blocks.map (mapBlock m)) hyps = corHyps e pr tab blocks hyps := by
  unfold corHyps
  rw [sumSqrt_nat h, show corOne e' pr (tab.map m.entry) (blocks.map (mapBlock m)) (sumSqrt e hyps) =
    corOne e pr tab blocks (sumSqrt e hyps) from funext fun x => corOne_nat h pr tab blocks _ x]

theorem isUsed_nat (tab : List (Option (Entry K τ F S C))) (hyps : List (Hyp K)) :
    isUsed (tab.map (Option.map m.entry)) hyps = isUsed tab hyps := by
  funext i
  unfold isUsed
  rw [List.getElem?_map]
  cases tab[i]? with
  | none => rfl
  | some o => cases o <;> rfl

theorem cleanUpd_nat (tab : List (Option (Entry K τ F S C))) (hyps : List (Hyp K)) :
    cleanUpd (tab.map (Option.map m.entry)) hyps = (cleanUpd tab hyps).map fun x => (x.1.map m.entry, x.2) := by
  unfold cleanUpd
  have h1 : usedInds (tab.map (Option.map m.entry)) hyps = usedInds tab hyps := by
    unfold usedInds
    rw [List.length_map, isUsed_nat]
  rw [h1, List.length_map]
  by_cases hb : (hyps.any fun h => h.tracks.any fun i => decide (tab.length ≤ i)) = true
  · rw [if_pos hb, if_pos hb]
    rfl
  · rw [if_neg hb, if_neg hb]
    dsimp only [Except.map]
    rw [List.map_filterMap]
    refine congrArg Except.ok (Prod.ext ?_ rfl)
    dsimp only
    congr 1
    funext i
    rw [List.getElem?_map]
    cases tab[i]? with
    | none => rfl
    | some o => cases o <;> rfl

theorem correct_nat (h : m.SameFilter e e') (pr : Params K) (meas : List Z) (st : St K τ F S C) :
    correct e' pr (meas.map m.z) (m.st st) = (correct e pr meas st).map m.st := by
  unfold correct
  have h1 : corBlocks e' pr (m.st st).tab (meas.map m.z) = (corBlocks e pr st.tab meas).map (List.map (mapBlock m)) :=
    corBlocks_nat h pr st.tab meas
  rw [h1]
  cases corBlocks e pr st.tab meas with
  | error x => rfl
  | ok blocks =>
    dsimp only [Except.map]
    have h2 : corHyps e' pr (m.st st).tab (blocks.map (mapBlock m)) (m.st st).hyps = corHyps e pr st.tab blocks st.hyps :=
      corHyps_nat h pr st.tab blocks st.hyps
    rw [h2]
    cases corHyps e pr st.tab blocks st.hyps with
    | error x => rfl
    | ok hs =>
      dsimp only
      have h3 : upTab (m.st st).tab (blocks.map (mapBlock m)) = (upTab st.tab blocks).map (Option.map m.entry) :=
        upTab_nat st.tab blocks
      rw [h3, cleanUpd_nat]
      cases cleanUpd (upTab st.tab blocks) hs with
      | error x => rfl
      | ok r => rfl

/-! ### Clean-up and extraction -/

theorem prune_nat (pr : Params K) (st : St K τ F S C) : prune pr (m.st st) = (prune pr st).map m.st := by
  unfold prune
  rw [show (m.st st).hyps = st.hyps from rfl]
  cases normHyps (st.hyps.filter fun h => decide (pr.pruneThreshold < h.prob)) <;> rfl

theorem cap_nat (h : m.SameFilter e e') (pr : Params K) (st : St K τ F S C) :
    cap e' pr (m.st st) = (cap e pr st).map m.st := by
  unfold cap
  rw [show (m.st st).hyps = st.hyps from rfl, h.argsort]
  by_cases hl : pr.maxHyps < st.hyps.length
  · rw [if_pos hl, if_pos hl]
    cases traverseE (getE st.hyps) (((e.argsort (st.hyps.map fun h => h.prob)).reverse).take pr.maxHyps) with
    | error x => rfl
    | ok kept =>
      dsimp only
      cases normHyps kept <;> rfl
  · rw [if_neg hl, if_neg hl]
    rfl

theorem bestState_nat (x : List K × List S × List C) :
    bestState (x.1, x.2.1.map m.s, x.2.2.map m.c) = (bestState x).map fun r => (m.s r.1, m.c r.2) := by
  unfold bestState
  dsimp only
  cases argmaxE x.1 with
  | error y => rfl
  | ok i =>
    dsimp only
    rw [getE_nat, getE_nat]
    cases getE x.2.1 i with
    | error y => rfl
    | ok s =>
      cases getE x.2.2 i with
      | error y => rfl
      | ok c => rfl

theorem mkExt_nat (t : Entry K τ F S C) : mkExt (m.entry t) = (mkExt t).map m.ext := by
  unfold mkExt
  simp only [Coords.entry, List.length_map]
  by_cases hl : t.wHist.length = t.sHist.length ∧ t.sHist.length = t.cHist.length
  · rw [if_pos hl, if_pos hl]
    have h1 : t.wHist.zip ((t.sHist.map (List.map m.s)).zip (t.cHist.map (List.map m.c))) =
        (t.wHist.zip (t.sHist.zip t.cHist)).map fun x => (x.1, x.2.1.map m.s, x.2.2.map m.c) := by
      rw [List.zip_map, List.zip_map_right]
      rfl
    rw [h1, traverseE_nat (f := bestState) _ fun a _ => bestState_nat a]
    cases traverseE bestState (t.wHist.zip (t.sHist.zip t.cHist)) with
    | error x => rfl
    | ok l =>
      simp only [Except.map, Coords.ext, List.map_map, Function.comp_def]
  · rw [if_neg hl, if_neg hl]
    rfl

theorem allUsed_nat (cntr : ℕ) : ∀ (es : List (Ext τ S C)) (used : List ℕ),
    allUsed cntr (es.map m.ext) used = allUsed cntr es used
  | [], _ => rfl
  | x :: es, used => by
    rw [List.map_cons]
    unfold allUsed
    rw [show (m.ext x).tIdx = x.tIdx from rfl, show (m.ext x).mHist = x.mHist from rfl]
    cases addUsed cntr x.tIdx x.mHist.zipIdx used with
    | error y => rfl
    | ok u => exact allUsed_nat cntr es u

variable [DecidableEq τ] [DecidableEq τ']

theorem keepOld_nat (hinj : Function.Injective m.t) (cntr : ℕ) (labels : List (τ × ℕ)) (used : List ℕ) :
    ∀ es : List (Ext τ S C), keepOld cntr (labels.map fun l => (m.t l.1, l.2)) used (es.map m.ext) =
      (keepOld cntr labels used es).map (List.map m.ext)
  | [] => rfl
  | x :: es => by
    rw [List.map_cons]
    unfold keepOld
    have hi : Function.Injective fun l : τ × ℕ => (m.t l.1, l.2) := by
      rintro ⟨a, b⟩ ⟨c, d⟩ hh
      simp only [Prod.mk.injEq] at hh
      exact Prod.ext (hinj hh.1) hh.2
    have h1 : (m.ext x).label ∈ labels.map (fun l => (m.t l.1, l.2)) ↔ x.label ∈ labels :=
      List.mem_map_of_injective hi
    rw [keepOld_nat hinj cntr labels used es]
    by_cases hm : x.label ∈ labels
    · rw [if_pos (h1.2 hm), if_pos hm]
    · rw [if_neg (mt h1.1 hm), if_neg hm, show (m.ext x).tIdx = x.tIdx from rfl,
        show (m.ext x).mHist = x.mHist from rfl]
      cases clashes cntr x.tIdx used x.mHist.zipIdx with
      | error y => rfl
      | ok b =>
        cases keepOld cntr labels used es with
        | error y => rfl
        | ok r => cases b <;> rfl

theorem updateExt_nat (hinj : Function.Injective m.t) (st : St K τ F S C) (idx : ℕ) :
    updateExt (m.st st) idx = (updateExt st idx).map (List.map m.ext) := by
  unfold updateExt
  rw [show (m.st st).hyps = st.hyps from rfl]
  cases getE st.hyps idx with
  | error x => rfl
  | ok hy =>
    dsimp only
    rw [show (m.st st).tab = st.tab.map m.entry from rfl, getE_tab_nat]
    cases traverseE (getE st.tab) hy.tracks with
    | error x => rfl
    | ok ents =>
      dsimp only [Except.map]
      rw [traverseE_nat (f := mkExt) ents fun t _ => mkExt_nat t]
      cases traverseE mkExt ents with
      | error x => rfl
      | ok news =>
        dsimp only [Except.map]
        rw [allUsed_nat, show (m.st st).cntr = st.cntr from rfl]
        cases allUsed st.cntr news [] with
        | error x => rfl
        | ok used =>
          dsimp only
          have h1 : ((news.map m.ext).map fun e => e.label) =
              (news.map fun e => e.label).map fun l => (m.t l.1, l.2) := by
            rw [List.map_map, List.map_map]
            rfl
          rw [h1, show (m.st st).ext = st.ext.map m.ext from rfl, keepOld_nat hinj]
          cases keepOld st.cntr (news.map fun e => e.label) used st.ext with
          | error x => rfl
          | ok old => simp [Except.map]

theorem appendAt_nat {α β : Type*} (g : α → β) (l : List (List α)) (i : ℕ) (x : α) :
    appendAt (l.map (List.map g)) i (g x) = (appendAt l i x).map (List.map g) := by
  unfold appendAt
  apply List.ext_getElem?
  intro j
  rw [List.getElem?_modify, List.getElem?_map, List.getElem?_map, List.getElem?_modify]
  by_cases h : i = j
  · simp only [h, if_true]
    cases l[j]? with
    | none => rfl
    | some y => simp
  · simp only [h, if_false]
    cases l[j]? <;> rfl

/-- What is reported, in the other coordinates. -/
def mapRep (m : Coords τ F S C Z τ' F' S' C' Z') (r : List (List S) × List (List (τ × ℕ)) × List (List C)) :
    List (List S') × List (List (τ' × ℕ)) × List (List C') :=
  (r.1.map (List.map m.s), r.2.1.map (List.map fun l => (m.t l.1, l.2)), r.2.2.map (List.map m.c))

theorem reportOne_nat (cntr : ℕ) (label : τ × ℕ) (tIdx : ℕ) :
    ∀ (l : List ((S × C) × ℕ)) (r : List (List S) × List (List (τ × ℕ)) × List (List C)),
      reportOne cntr (m.t label.1, label.2) tIdx (l.map fun x => ((m.s x.1.1, m.c x.1.2), x.2)) (mapRep m r) =
        (reportOne cntr label tIdx l r).map (mapRep m)
  | [], _ => rfl
  | ((s, c), k) :: l, r => by
    rw [List.map_cons]
    unfold reportOne
    by_cases hl : tIdx + k < cntr
    · rw [if_pos hl, if_pos hl, ← reportOne_nat cntr label tIdx l]
      congr 1
      unfold mapRep
      dsimp only
      rw [appendAt_nat m.s, appendAt_nat m.c, ← appendAt_nat (fun l : τ × ℕ => (m.t l.1, l.2))]
    · rw [if_neg hl, if_neg hl]
      rfl

theorem report_nat (cntr : ℕ) : ∀ (es : List (Ext τ S C)) (r : List (List S) × List (List (τ × ℕ)) × List (List C)),
    report cntr (es.map m.ext) (mapRep m r) = (report cntr es r).map (mapRep m)
  | [], _ => rfl
  | x :: es, r => by
    rw [List.map_cons]
    unfold report
    have h1 : ((m.ext x).states.zip (m.ext x).covs).zipIdx =
        (x.states.zip x.covs).zipIdx.map fun y => ((m.s y.1.1, m.c y.1.2), y.2) := by
      simp only [Coords.ext]
      rw [List.zip_map, List.zipIdx_map]
      rfl
    rw [h1, show (m.ext x).label = (m.t x.label.1, x.label.2) from rfl, show (m.ext x).tIdx = x.tIdx from rfl,
      reportOne_nat]
    cases reportOne cntr x.label x.tIdx (x.states.zip x.covs).zipIdx r with
    | error y => rfl
    | ok r' => exact report_nat cntr es r'

theorem extract_nat (hinj : Function.Injective m.t) (update calcS : Bool) (st : St K τ F S C) :
    extract update calcS (m.st st) = (extract update calcS st).map fun x => (m.st x.1, x.2) := by
  unfold extract
  rw [show (m.st st).card = st.card from rfl]
  cases argmaxE st.card with
  | error x => rfl
  | ok card =>
    dsimp only
    rw [show (m.st st).hyps = st.hyps from rfl, show (m.st st).cntr = st.cntr from rfl]
    have hb : (St.mk (m.st st).tab st.hyps st.card st.cntr (m.st st).ext (List.replicate st.cntr [])
        (List.replicate st.cntr []) (List.replicate st.cntr []) : St K τ' F' S' C') =
        m.st (St.mk st.tab st.hyps st.card st.cntr st.ext (List.replicate st.cntr [])
        (List.replicate st.cntr []) (List.replicate st.cntr [])) := by
      simp [Coords.st]
    by_cases h0 : st.hyps = []
    · rw [if_pos h0, if_pos h0]
      exact congrArg (fun y => Except.ok (y, none)) hb
    · rw [if_neg h0, if_neg h0]
      cases argmaxE (maskedWeights card st.hyps) with
      | error x => rfl
      | ok idx =>
        dsimp only
        have hu : (if update = true then updateExt (St.mk (m.st st).tab st.hyps st.card st.cntr (m.st st).ext
            (List.replicate st.cntr []) (List.replicate st.cntr []) (List.replicate st.cntr [])) idx
              else Except.ok (m.st st).ext) =
            (if update = true then updateExt (St.mk st.tab st.hyps st.card st.cntr st.ext
            (List.replicate st.cntr []) (List.replicate st.cntr []) (List.replicate st.cntr [])) idx
              else Except.ok st.ext).map (List.map m.ext) := by
          cases update with
          | false => rfl
          | true =>
            rw [if_pos rfl, if_pos rfl, hb]
            exact updateExt_nat hinj _ idx
        rw [hu]
        cases (if update = true then updateExt (St.mk st.tab st.hyps st.card st.cntr st.ext
            (List.replicate st.cntr []) (List.replicate st.cntr []) (List.replicate st.cntr [])) idx
              else Except.ok st.ext) with
        | error x => rfl
        | ok ext =>
          dsimp only [Except.map]
          cases calcS with
          | false =>
            simp [Coords.st]
          | true =>
            rw [if_pos rfl, if_pos rfl]
            have hr := report_nat (m := m) st.cntr ext (List.replicate st.cntr [], List.replicate st.cntr [],
              List.replicate st.cntr [])
            have hm : mapRep m (List.replicate st.cntr ([] : List S), List.replicate st.cntr ([] : List (τ × ℕ)),
                List.replicate st.cntr ([] : List C)) =
                (List.replicate st.cntr [], List.replicate st.cntr [], List.replicate st.cntr []) := by
              simp [mapRep]
            rw [hm] at hr
            rw [hr]
            cases report st.cntr ext (List.replicate st.cntr [], List.replicate st.cntr [],
              List.replicate st.cntr []) with
            | error x => rfl
            | ok r => rfl

theorem cleanup_nat (hinj : Function.Injective m.t) (h : m.SameFilter e e') (pr : Params K) (bp bc be u c : Bool)
    (st : St K τ F S C) : cleanup e' pr bp bc be u c (m.st st) = (cleanup e pr bp bc be u c st).map m.st := by
  unfold cleanup
  have h1 : (if bp = true then prune pr { m.st st with cntr := (m.st st).cntr + 1 }
      else .ok { m.st st with cntr := (m.st st).cntr + 1 }) =
      (if bp = true then prune pr { st with cntr := st.cntr + 1 } else .ok { st with cntr := st.cntr + 1 }).map m.st := by
    cases bp with
    | false => rfl
    | true => exact prune_nat pr { st with cntr := st.cntr + 1 }
  rw [h1]
  cases (if bp = true then prune pr { st with cntr := st.cntr + 1 } else .ok { st with cntr := st.cntr + 1 }) with
  | error x => rfl
  | ok s1 =>
    dsimp only [Except.map]
    have h2 : (if bc = true then cap e' pr (m.st s1) else .ok (m.st s1)) =
        (if bc = true then cap e pr s1 else .ok s1).map m.st := by
      cases bc with
      | false => rfl
      | true => exact cap_nat h pr s1
    rw [h2]
    cases (if bc = true then cap e pr s1 else .ok s1) with
    | error x => rfl
    | ok s2 =>
      dsimp only [Except.map]
      cases be with
      | false => rfl
      | true =>
        rw [if_pos rfl, if_pos rfl, extract_nat hinj]
        cases extract u c s2 with
        | error x => rfl
        | ok r => rfl

theorem step_nat (hinj : Function.Injective m.t) (pr : Params K) (st : St K τ F S C) {o : Op K τ F S C Z}
    {o' : Op K τ' F' S' C' Z'} (h : m.SameCall o o') : step pr (m.st st) o' = (step pr st o).map m.st := by
  cases h with
  | predict h => exact predict_nat h pr _ _ st
  | correct h => exact correct_nat h pr _ st
  | cleanup bp bc be u c h => exact cleanup_nat hinj h pr bp bc be u c st
  | extract u c =>
    unfold step
    dsimp only
    rw [extract_nat hinj]
    cases extract u c st with
    | error x => rfl
    | ok r => rfl

theorem run_nat (hinj : Function.Injective m.t) (pr : Params K) : ∀ (ops : List (Op K τ F S C Z))
    (ops' : List (Op K τ' F' S' C' Z')) (st : St K τ F S C), List.Forall₂ m.SameCall ops ops' →
      run pr (m.st st) ops' = (run pr st ops).map m.st := by
  intro ops ops' st h
  induction h generalizing st with
  | nil => rfl
  | cons h _ ih =>
    unfold run
    rw [step_nat hinj pr st h]
    cases step pr st _ with
    | error x => rfl
    | ok s => exact ih s

/-- **C120.** The same calls made in another coordinate system, with the same inner filter in these coordinates, have
the same outcome: the filter fails in the one exactly if it fails (with the same error) in the other, and otherwise
hypotheses, probabilities, cardinality distribution, weights and association histories are equal and all tracks,
states, covariances and labels, including everything reported so far, are those of the other in new coordinates. -/
theorem C120_coordinates (hinj : Function.Injective m.t) (pr : Params K) (ops : List (Op K τ F S C Z))
    (ops' : List (Op K τ' F' S' C' Z')) (h : List.Forall₂ m.SameCall ops ops') :
    run pr init ops' = (run pr init ops).map m.st :=
  run_nat hinj pr ops ops' init h

/-! ### The joint filter -/

section joint
open Gasur.Jglmb

theorem jpredict_nat (h : m.SameFilter e e') (lab : τ) (births : List (Birth K F S C)) (st : JSt K τ F S C) :
    Jglmb.predict e' (m.t lab) (births.map m.birth) (m.jst st) = (Jglmb.predict e lab births st).map m.jst := by
  unfold Jglmb.predict
  have h0 : ((births.map m.birth).any fun b => decide (b.prob = 1)) = births.any fun b => decide (b.prob = 1) := by
    rw [List.any_map]
    rfl
  rw [h0]
  by_cases hb : (births.any fun b => decide (b.prob = 1)) = true
  · rw [if_pos hb, if_pos hb]
    rfl
  · rw [if_neg hb, if_neg hb]
    have h2 : traverseE (predictEntry e') (m.jst st).g.tab =
        (traverseE (predictEntry e) st.g.tab).map (List.map m.entry) :=
      traverseE_nat st.g.tab fun t _ => predictEntry_nat h t
    rw [h2]
    cases traverseE (predictEntry e) st.g.tab with
    | error x => rfl
    | ok l =>
      dsimp only [Except.map]
      rw [show (m.jst st).g.cntr = st.g.cntr from rfl, birthTab_nat, ← List.map_append]
      rfl

theorem jointCost_nat (jp : JParams K) (sv : List K) (blocks : List (List (Option (Entry K τ F S C) × K)))
    (ts : List ℕ) (i j : ℕ) :
    jointCost jp sv (blocks.map (mapBlock m)) ts i j = jointCost jp sv blocks ts i j := by
  unfold jointCost
  have h1 : ∀ b t : ℕ, ((((blocks.map (mapBlock m))[b]?).getD [])[t]?).map Prod.snd =
      ((((blocks)[b]?).getD [])[t]?).map Prod.snd := by
    intro b t
    rw [List.getElem?_map]
    cases blocks[b]? with
    | none => rfl
    | some l =>
      simp only [Option.map_some, Option.getD_some, mapBlock, List.getElem?_map, Option.map_map]
      rfl
  dsimp only
  rw [h1]

theorem avgSurv_nat (jp : JParams K) (births : List (Birth K F S C)) (n : ℕ) :
    avgSurv jp (births.map m.birth) n = avgSurv jp births n := by
  unfold avgSurv
  rw [List.map_map]
  rfl

/-- The update of one hypothesis of the joint filter as a function of the numbers it depends on. -/
def jcorNum (num : Num K) (sh : Except GErr ℕ) (jp : JParams K) (nb nblk tabLen : ℕ) (cv : List ℕ → ℕ → ℕ → K)
    (u : ℕ → ℕ → K) (h : Hyp K) : Except JErr (List (Hyp K)) :=
  let ts := tinds nb h
  let clutter := jp.base.clutterRate * jp.base.clutterDen
  if ts.any (fun t => decide (tabLen ≤ t)) then .error (.glmb .index)
  else
    match sh with
    | .error e => .error (.glmb e)
    | .ok k =>
      match Gibbs.gibbs (N := ts.length) (M := 2 * ts.length + numCols ts.length nblk)
          num.expNeg (fun i j => num.negLog (cv ts i j)) (k + 1) (fun s v => u s v.val) with
      | .error e => .error (.gibbs e)
      | .ok rows =>
        if clutter ≤ 0 then .error (.glmb .nan)
        else .ok (rows.map fun ac =>
          { prob := num.expNeg jp.base.clutterRate * clutter ^ nblk * h.prob * num.expNeg ac.2
            tracks := rowTracks tabLen ts ac.1 })

theorem jcorOne_num (e : Env K τ F S C Z) (jp : JParams K) (births : List (Birth K F S C)) (oldLen tabLen : ℕ)
    (blocks : List (List (Option (Entry K τ F S C) × K))) (ss : K) (u : ℕ → ℕ → K) (hy : Hyp K) :
    Jglmb.corOne e jp births oldLen tabLen blocks ss u hy =
      jcorNum e.num (share e jp.base.reqUpd hy.prob ss) jp births.length blocks.length tabLen
        (costVal jp (avgSurv jp births oldLen) blocks) u hy := by
  unfold Jglmb.corOne jcorNum
  dsimp only
  by_cases h0 : ((tinds births.length hy).any fun t => decide (tabLen ≤ t)) = true
  · rw [if_pos h0, if_pos h0]
  · rw [if_neg h0, if_neg h0]
    cases share e jp.base.reqUpd hy.prob ss with
    | error x => rfl
    | ok k =>
      dsimp only
      cases Gibbs.gibbs (N := (tinds births.length hy).length)
          (M := 2 * (tinds births.length hy).length + numCols (tinds births.length hy).length blocks.length)
          e.num.expNeg (fun i j => e.num.negLog (costVal jp (avgSurv jp births oldLen) blocks (tinds births.length hy) i j))
          (k + 1) (fun s v => u s v.val) with
      | error x => rfl
      | ok rows => rfl

theorem jcorOne_nat (h : m.SameFilter e e') (jp : JParams K) (births : List (Birth K F S C)) (oldLen tabLen : ℕ)
    (blocks : List (List (Option (Entry K τ F S C) × K))) (ss : K) (u : ℕ → ℕ → K) (hy : Hyp K) :
    Jglmb.corOne e' jp (births.map m.birth) oldLen tabLen (blocks.map (mapBlock m)) ss u hy =
      Jglmb.corOne e jp births oldLen tabLen blocks ss u hy := by
  rw [jcorOne_num, jcorOne_num]
  have hc : costVal jp (avgSurv jp (births.map m.birth) oldLen) (blocks.map (mapBlock m)) =
      costVal jp (avgSurv jp births oldLen) blocks := by
    funext ts i j
    unfold costVal
    rw [jointCost_nat, avgSurv_nat]
  rw [hc, List.length_map, List.length_map, h.num, share_nat h]

theorem jcorrect_nat (h : m.SameFilter e e') (jp : JParams K) (births : List (Birth K F S C))
    (draws : ℕ → ℕ → ℕ → K) (meas : List Z) (st : JSt K τ F S C) :
    Jglmb.correct e' jp (births.map m.birth) draws (meas.map m.z) (m.jst st) =
      (Jglmb.correct e jp births draws meas st).map m.jst := by
  unfold Jglmb.correct
  have h1 : corBlocks e' jp.base (m.jst st).g.tab (meas.map m.z) =
      (corBlocks e jp.base st.g.tab meas).map (List.map (mapBlock m)) := corBlocks_nat h jp.base st.g.tab meas
  rw [h1]
  cases corBlocks e jp.base st.g.tab meas with
  | error x => rfl
  | ok blocks =>
    dsimp only [Except.map]
    have h2 : (m.jst st).g.tab.length = st.g.tab.length := List.length_map _
    rw [h2, List.length_map, show (m.jst st).oldLen = st.oldLen from rfl, show (m.jst st).g.hyps = st.g.hyps from rfl]
    by_cases hl : births.length + st.oldLen ≠ st.g.tab.length
    · rw [if_pos hl, if_pos hl]
    rw [if_neg hl, if_neg hl, sumSqrt_nat h]
    have h3 : (fun hn : Hyp K × ℕ => Jglmb.corOne e' jp (births.map m.birth) st.oldLen st.g.tab.length
        (blocks.map (mapBlock m)) (sumSqrt e st.g.hyps) (draws hn.2) hn.1) =
        fun hn : Hyp K × ℕ => Jglmb.corOne e jp births st.oldLen st.g.tab.length
        blocks (sumSqrt e st.g.hyps) (draws hn.2) hn.1 := funext fun hn => jcorOne_nat h jp births _ _ _ _ _ _
    rw [h3]
    cases traverseE (fun hn : Hyp K × ℕ => Jglmb.corOne e jp births st.oldLen st.g.tab.length
        blocks (sumSqrt e st.g.hyps) (draws hn.2) hn.1) st.g.hyps.zipIdx with
    | error x => rfl
    | ok ls =>
      dsimp only
      cases normHyps ls.flatten with
      | error x => rfl
      | ok hs =>
        dsimp only
        have h4 : upTab (m.jst st).g.tab (blocks.map (mapBlock m)) = (upTab st.g.tab blocks).map (Option.map m.entry) :=
          upTab_nat st.g.tab blocks
        rw [h4, cleanUpd_nat]
        cases cleanUpd (upTab st.g.tab blocks) (cleanPred hs) with
        | error x => rfl
        | ok r =>
          simp only [Except.map, Coords.jst, Coords.st, List.length_map]

theorem jstep_nat (hinj : Function.Injective m.t) (jp : JParams K) (st : JSt K τ F S C) {o : JOp K τ F S C Z}
    {o' : JOp K τ' F' S' C' Z'} (h : m.SameJCall o o') : Jglmb.step jp (m.jst st) o' = (Jglmb.step jp st o).map m.jst := by
  cases h with
  | predict h => exact jpredict_nat h _ _ st
  | correct h => exact jcorrect_nat h jp _ _ _ st
  | @cleanup e0 _ bp bc be u c h =>
    unfold Jglmb.step
    dsimp only
    rw [show (m.jst st).g = m.st st.g from rfl, cleanup_nat hinj h]
    cases Glmb.cleanup e0 jp.base bp bc be u c st.g with
    | error x => rfl
    | ok r => rfl
  | extract u c =>
    unfold Jglmb.step
    dsimp only
    rw [show (m.jst st).g = m.st st.g from rfl, extract_nat hinj]
    cases Glmb.extract u c st.g with
    | error x => rfl
    | ok r => rfl

/-- **C120, joint filter** (the same random draws are used in both coordinate systems). -/
theorem C120_joint_coordinates (hinj : Function.Injective m.t) (jp : JParams K) (ops : List (JOp K τ F S C Z))
    (ops' : List (JOp K τ' F' S' C' Z')) (h : List.Forall₂ m.SameJCall ops ops') :
    Jglmb.run jp Jglmb.init ops' = (Jglmb.run jp Jglmb.init ops).map m.jst := by
  have key : ∀ st : JSt K τ F S C, Jglmb.run jp (m.jst st) ops' = (Jglmb.run jp st ops).map m.jst := by
    induction h with
    | nil => exact fun _ => rfl
    | cons h _ ih =>
      intro st
      unfold Jglmb.run
      rw [jstep_nat hinj jp st h]
      cases Jglmb.step jp st _ with
      | error x => rfl
      | ok s => exact ih s
  exact key Jglmb.init

end joint

/-- Whenever the coordinates can be changed back, every inner filter has a version in the other coordinates, so that
C120 applies to every run of the filter. -/
theorem C120_always (t : τ ≃ τ') (f : F ≃ F') (s : S ≃ S') (c : C ≃ C') (z : Z ≃ Z') (e : Env K τ F S C Z) :
    ∃ e' : Env K τ' F' S' C' Z', (⟨t, f, s, c, z⟩ : Coords τ F S C Z τ' F' S' C' Z').SameFilter e e' := by
  have hback : ∀ x : Entry K τ F S C, (⟨t.symm, f.symm, s.symm, c.symm, z.symm⟩ : Coords τ' F' S' C' Z' τ F S C Z).entry
      ((⟨t, f, s, c, z⟩ : Coords τ F S C Z τ' F' S' C' Z').entry x) = x := by
    rintro ⟨l, w, fs, mh, sh, ch, ti⟩
    simp [Coords.entry, Function.comp_def]
  refine ⟨⟨e.num, e.sortInds, e.argsort, fun x y => (f (e.predF (f.symm x) (s.symm y)).1,
    s (e.predF (f.symm x) (s.symm y)).2.1, c (e.predF (f.symm x) (s.symm y)).2.2),
    fun a x y w => (e.corF (z.symm a) (f.symm x) (s.symm y) w).map fun r => (f r.1, s r.2.1, c r.2.2.1, r.2.2.2),
    fun x => e.psurv ((⟨t.symm, f.symm, s.symm, c.symm, z.symm⟩ : Coords τ' F' S' C' Z' τ F S C Z).entry x),
    fun x => e.pdet ((⟨t.symm, f.symm, s.symm, c.symm, z.symm⟩ : Coords τ' F' S' C' Z' τ F S C Z).entry x)⟩,
    rfl, rfl, rfl, ?_, ?_, ?_, ?_⟩
  · intro x y
    simp
  · intro a x y w
    simp
  · intro x
    exact congrArg e.psurv (hback x)
  · intro x
    exact congrArg e.pdet (hback x)

/-! ### Non-vacuity: moving the origin and the start of time -/

/-- States and measurements measured from another origin, times from another start. -/
def exMove : Coords ℕ Unit ℚ Unit ℚ ℕ Unit ℚ Unit ℚ :=
  ⟨fun t => t + 5, id, fun x => x + 100, id, fun x => x + 100⟩

theorem exMove_same : exMove.SameFilter exTrackEnv exTrackEnv :=
  ⟨rfl, rfl, rfl, fun _ x => by
    simp only [exTrackEnv, exMove, id_eq]
    refine Prod.ext rfl (Prod.ext ?_ rfl)
    show x + 100 + 1 = x + 1 + 100
    ring, fun z _ x w => by
    simp only [exTrackEnv, exMove, id_eq, Option.map_some]
    refine congrArg some (Prod.ext rfl (Prod.ext ?_ rfl))
    show (x + 100 + (z + 100)) / 2 = (x + z) / 2 + 100
    ring, fun _ => rfl, fun _ => rfl⟩

/-- Births at 100 and 110 instead of 0 and 10, times 5 and 6 instead of 0 and 1, measurements moved by 100: the same
hypotheses result. -/
def exMovedOps : List (Op ℚ ℕ Unit ℚ Unit ℚ) :=
  [.predict exTrackEnv 5 [⟨[()], [1], [100], [()], 9 / 10⟩], .correct exTrackEnv [104, 108],
   .cleanup exTrackEnv true true true true true,
   .predict exTrackEnv 6 [⟨[()], [1], [110], [()], 9 / 10⟩], .correct exTrackEnv [106]]

theorem exMoved_calls : List.Forall₂ exMove.SameCall exTrackOps exMovedOps := by
  refine .cons ?_ (.cons ?_ (.cons (.cleanup _ _ _ _ _ exMove_same) (.cons ?_ (.cons ?_ .nil))))
  · have := Coords.SameCall.predict (lab := 0) (births := [⟨[()], [1], [0], [()], 9 / 10⟩]) exMove_same
    simpa [exMove, Coords.birth] using this
  · have := Coords.SameCall.correct (meas := [4, 8]) exMove_same
    norm_num [exMove] at this
    exact this
  · have := Coords.SameCall.predict (lab := 1) (births := [⟨[()], [1], [10], [()], 9 / 10⟩]) exMove_same
    norm_num [exMove, Coords.birth] at this
    exact this
  · have := Coords.SameCall.correct (meas := [6]) exMove_same
    norm_num [exMove] at this
    exact this

example : run exTrackPr init exMovedOps = (run exTrackPr init exTrackOps).map exMove.st ∧
    (run exTrackPr init exTrackOps).toOption.isSome :=
  ⟨C120_coordinates (fun a b h => by simpa [exMove] using h) _ _ _ exMoved_calls, by decide +kernel⟩

end Gasur.Props
