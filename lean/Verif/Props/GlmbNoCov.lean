import Verif.Model.GlmbNoCov
import Verif.Spec.NoCov
import Verif.Proofs.GlmbCorrect
import Verif.Props.GlmbCoord
import Verif.Props.GlmbTrack
import Verif.Props.GlmbExtract

/-!
# C135: not saving covariances changes nothing else
-/

set_option linter.unusedSectionVars false

namespace Gasur.Props

open Gasur.Glmb Gasur.Spec

namespace NoCov

section outcome
variable {ε α β γ δ : Type*} {Q : α → β → Prop} {R : γ → δ → Prop}

theorem cases {a : Except ε α} {b : Except ε β} (h : SameOutcome Q a b) :
    (∃ e, a = .error e ∧ b = .error e) ∨ ∃ x y, a = .ok x ∧ b = .ok y ∧ Q x y := by
  cases h with
  | error e => exact .inl ⟨e, rfl, rfl⟩
  | ok h => exact .inr ⟨_, _, rfl, rfl, h⟩

theorem of_eq {a b : Except ε α} (h : b = a) : SameOutcome Eq a b := by
  subst h
  cases b with
  | error e => exact .error e
  | ok x => exact .ok rfl

theorem to_eq {a b : Except ε α} (h : SameOutcome Eq a b) : b = a := by
  cases h with
  | error e => rfl
  | ok h => rw [h]

theorem traverse {f : α → Except ε γ} {g : β → Except ε δ} {l : List α} {l' : List β} (h : List.Forall₂ Q l l')
    (hf : ∀ a b, Q a b → SameOutcome R (f a) (g b)) : SameOutcome (List.Forall₂ R) (traverseE f l) (traverseE g l') := by
  induction h with
  | nil => exact .ok .nil
  | @cons a b l l' hab _ ih =>
    unfold traverseE
    rcases cases (hf a b hab) with ⟨e, h1, h2⟩ | ⟨x, y, h1, h2, hxy⟩
    · rw [h1, h2]; exact .error e
    · rw [h1, h2]
      rcases cases ih with ⟨e, h3, h4⟩ | ⟨r, r', h3, h4, hr⟩
      · rw [h3, h4]; exact .error e
      · rw [h3, h4]; exact .ok (.cons hxy hr)

theorem getE_rel {l : List α} {l' : List β} (h : List.Forall₂ Q l l') (i : ℕ) : SameOutcome Q (getE l i) (getE l' i) := by
  unfold getE
  by_cases hi : i < l.length
  · have hi' : i < l'.length := by rw [← h.length_eq]; exact hi
    rw [List.getElem?_eq_getElem hi, List.getElem?_eq_getElem hi']
    exact .ok ((List.forall₂_iff_get.1 h).2 i hi hi')
  · rw [List.getElem?_eq_none (not_lt.1 hi), List.getElem?_eq_none (by rw [← h.length_eq]; exact not_lt.1 hi)]
    exact .error _

end outcome

variable {K τ F S C Z : Type*} [Field K] [LinearOrder K] [FloorRing K]
  {env : Env K τ F S C Z} {env' : Env K τ F S Unit Z}

/-! ### Prediction -/

theorem ents {tab : List (Entry K τ F S C)} {tab' : List (Entry K τ F S Unit)} (h : List.Forall₂ SameTrack tab tab')
    (ts : List ℕ) : SameOutcome (List.Forall₂ SameTrack) (traverseE (getE tab) ts) (traverseE (getE tab') ts) :=
  traverse (Q := Eq) (List.forall₂_eq_eq_eq ▸ rfl) fun a b hab => hab ▸ getE_rel h a

theorem map_eq {α β γ : Type*} {Q : α → β → Prop} {f : α → γ} {g : β → γ} {l : List α} {l' : List β}
    (h : List.Forall₂ Q l l') (hf : ∀ a b, Q a b → g b = f a) : l'.map g = l.map f := by
  induction h with
  | nil => rfl
  | cons hab _ ih => rw [List.map_cons, List.map_cons, hf _ _ hab, ih]

theorem logOdds_same (h : SameInner env env') : logOdds env' = logOdds env := by
  funext p
  unfold logOdds
  rw [h.num]

theorem kList_same (h : SameInner env env') : kList env' = kList env := by
  funext pr costs k
  unfold kList
  rw [h.sortInds]

theorem expNegTop_same (h : SameInner env env') : expNegTop env' = expNegTop env := by
  funext c
  cases c with
  | top => rfl
  | coe x => show env'.num.expNeg x = _; rw [h.num]; rfl

theorem share_same (h : SameInner env env') : share env' = share env := by
  funext r p s
  unfold share
  rw [h.num]

theorem sumSqrt_same (h : SameInner env env') : sumSqrt env' = sumSqrt env := by
  funext hs
  unfold sumSqrt
  rw [h.num]

theorem birthHyps_same (h : SameInner env env') (births : List (Birth K F S C)) (paths) :
    birthHyps env' (births.map dropCovs) paths = birthHyps env births paths := by
  unfold birthHyps
  rw [expNegTop_same h, List.map_map]
  rfl

theorem predictEntry_rel (h : SameInner env env') {e : Entry K τ F S C} {e' : Entry K τ F S Unit} (he : SameTrack e e') :
    SameOutcome SameTrack (predictEntry env e) (predictEntry env' e') := by
  obtain ⟨l', w', f', m', s', c', t'⟩ := e'
  obtain ⟨l, w, f, m, s, c, t⟩ := e
  obtain ⟨rfl, rfl, rfl, rfl, rfl, rfl, hc, hl⟩ := he
  dsimp only at hc hl
  unfold predictEntry
  dsimp only
  cases s'.getLast? with
  | none => exact .error _
  | some x =>
    cases w'.getLast? with
    | none => exact .error _
    | some y =>
      dsimp only
      by_cases hx : f'.length = x.length
      · rw [if_pos hx, if_pos hx]
        refine .ok ⟨rfl, rfl, ?_, rfl, ?_, rfl, ?_, ?_⟩
        · simp only [h.pred]
        · simp only [h.pred]
        · simp [hc]
        · simp [hl]
      · rw [if_neg hx, if_neg hx]
        exact .error _

theorem survOne_same (h : SameInner env env') (pr : Params K) {tab : List (Entry K τ F S C)}
    {tab' : List (Entry K τ F S Unit)} (ht : List.Forall₂ SameTrack tab tab') (ss : K) (hy : Hyp K) :
    survOne env' pr tab' ss hy = survOne env pr tab ss hy := by
  unfold survOne
  by_cases h0 : hy.tracks = []
  · rw [if_pos h0, if_pos h0]
  · rw [if_neg h0, if_neg h0]
    rcases cases (ents ht hy.tracks) with ⟨e, h1, h2⟩ | ⟨es, es', h1, h2, hes⟩
    · rw [h1, h2]
    · rw [h1, h2]
      dsimp only
      rw [map_eq (f := env.psurv) (g := env'.psurv) hes h.psurv, logOdds_same h, share_same h, kList_same h,
        expNegTop_same h, map_eq (f := fun e => 1 - env.psurv e) (g := fun e => 1 - env'.psurv e) hes
          fun a b hab => by rw [h.psurv a b hab]]

theorem survHyps_same (h : SameInner env env') (pr : Params K) {tab : List (Entry K τ F S C)}
    {tab' : List (Entry K τ F S Unit)} (ht : List.Forall₂ SameTrack tab tab') (hyps : List (Hyp K)) :
    survHyps env' pr tab' hyps = survHyps env pr tab hyps := by
  unfold survHyps
  rw [sumSqrt_same h, show survOne env' pr tab' (sumSqrt env hyps) = survOne env pr tab (sumSqrt env hyps) from
    funext fun hy => survOne_same h pr ht _ hy]

theorem birthTab_rel {births : List (Birth K F S C)} (hb : ∀ b ∈ births, b.covs.length = b.states.length) (lab : τ)
    (cntr : ℕ) : List.Forall₂ SameTrack (birthTab lab cntr births) (birthTab lab cntr (births.map dropCovs)) := by
  unfold birthTab
  rw [List.zipIdx_map, List.map_map, List.forall₂_map_left_iff, List.forall₂_map_right_iff, List.forall₂_same]
  intro x hx
  have := hb x.1 (by
    have := List.mem_zipIdx' hx
    rw [this.2]
    exact List.getElem_mem _)
  exact ⟨rfl, rfl, rfl, rfl, rfl, rfl, by simp [this], rfl⟩

theorem predict_rel (h : SameInner env env') (pr : Params K) (lab : τ) {births : List (Birth K F S C)}
    (hb : ∀ b ∈ births, b.covs.length = b.states.length) {st : St K τ F S C} {st' : St K τ F S Unit}
    (hS : SameButCovs st st') :
    SameOutcome SameButCovs (predict env pr lab births st) (predict env' pr lab (births.map dropCovs) st') := by
  unfold predict
  rw [show ((births.map dropCovs).map fun b => b.prob) = births.map fun b => b.prob by rw [List.map_map]; rfl,
    logOdds_same h]
  cases traverseE (logOdds env) (births.map fun b => b.prob) with
  | error e => exact .error e
  | ok costs =>
    dsimp only
    rw [kList_same h]
    cases kList env pr costs pr.reqBirths with
    | error e => exact .error e
    | ok paths =>
      dsimp only
      rw [birthHyps_same h]
      cases birthHyps env births paths with
      | error e => exact .error e
      | ok bh =>
        dsimp only
        rcases cases (traverse hS.table fun a b hab => predictEntry_rel h hab) with ⟨e, h1, h2⟩ | ⟨es, es', h1, h2, hes⟩
        · rw [h1, h2]; exact .error e
        · rw [h1, h2]
          dsimp only
          rw [hS.hyps, survHyps_same h pr hS.table]
          cases survHyps env pr st.tab st.hyps with
          | error e => exact .error e
          | ok sh =>
            dsimp only
            rw [List.length_map]
            cases setPredHyps births.length bh sh with
            | error e => exact .error e
            | ok hs =>
              refine .ok ⟨?_, rfl, rfl, hS.time, hS.hist, hS.states, hS.labels⟩
              show List.Forall₂ _ (_ ++ _) (birthTab lab st'.cntr _ ++ _)
              rw [hS.time]
              exact List.rel_append (birthTab_rel hb lab st.cntr) hes

/-! ### Correction -/

/-- Updated entries with their costs. -/
def OptSame (x : Option (Entry K τ F S C) × K) (x' : Option (Entry K τ F S Unit) × K) : Prop :=
  Option.Rel SameTrack x.1 x'.1 ∧ x'.2 = x.2

theorem cors_rel (h : SameInner env env') (z : Z) (l : List (F × S × K)) :
    traverseE (fun x : F × S × K => optE (env'.corF z x.1 x.2.1 x.2.2)) l =
      (traverseE (fun x : F × S × K => optE (env.corF z x.1 x.2.1 x.2.2)) l).map
        (List.map fun r => (r.1, r.2.1, (), r.2.2.2)) := by
  induction l with
  | nil => rfl
  | cons x l ih =>
    unfold traverseE
    rw [ih, h.cor]
    generalize traverseE (fun x : F × S × K => optE (env.corF z x.1 x.2.1 x.2.2)) l = t
    cases env.corF z x.1 x.2.1 x.2.2 with
    | none => rfl
    | some r => cases t <;> rfl

theorem correctEntry_rel (h : SameInner env env') (pr : Params K) (z : Z) {e : Entry K τ F S C} {e' : Entry K τ F S Unit}
    (he : SameTrack e e') : SameOutcome OptSame (correctEntry env pr z e) (correctEntry env' pr z e') := by
  obtain ⟨l', w', f', m', s', c', t'⟩ := e'
  obtain ⟨l, w, f, m, s, c, t⟩ := e
  obtain ⟨rfl, rfl, rfl, rfl, rfl, rfl, hc, hl⟩ := he
  dsimp only at hc hl
  unfold correctEntry
  dsimp only
  cases hsl : s'.getLast? with
  | none => exact .error _
  | some x =>
    cases w'.getLast? with
    | none => exact .error _
    | some y =>
      dsimp only
      have hcn : c' ≠ [] ↔ c ≠ [] := by
        rw [ne_eq, ne_eq, ← List.length_eq_zero_iff, hl, List.length_eq_zero_iff]
      by_cases hx : f'.length = x.length ∧ x.length = y.length ∧ c ≠ []
      · rw [if_pos hx, if_pos ⟨hx.1, hx.2.1, hcn.2 hx.2.2⟩, cors_rel h]
        cases hrs : traverseE (fun x : F × S × K => optE (env.corF z x.1 x.2.1 x.2.2)) (f'.zip (x.zip y)) with
        | error e => exact .ok ⟨.none, rfl⟩
        | ok rs =>
          dsimp only [Except.map]
          have hm : ((rs.map fun r => (r.1, r.2.1, (), r.2.2.2)).map fun r : F × S × Unit × K => r.2.2.2 + pr.eps) =
              rs.map fun r => r.2.2.2 + pr.eps := by
            rw [List.map_map]; rfl
          rw [hm]
          have hne : (rs.map fun r => (r.1, r.2.1, (), r.2.2.2)) ≠ [] ↔ rs ≠ [] := by simp
          by_cases h0 : rs ≠ [] ∧ (rs.map fun r => r.2.2.2 + pr.eps).sum = 0
          · rw [if_pos h0, if_pos ⟨hne.2 h0.1, h0.2⟩]
            exact .error _
          · rw [if_neg h0, if_neg (fun hh => h0 ⟨hne.1 hh.1, hh.2⟩)]
            refine .ok ⟨.some ⟨rfl, ?_, ?_, rfl, ?_, rfl, ?_, ?_⟩, rfl⟩
            · simp only [List.map_map]; rfl
            · simp only [List.map_map]; rfl
            · simp only [List.map_map]; rfl
            · simp only [List.map_append, List.map_dropLast, hc]
              simp
            · simp [hl]
      · rw [if_neg hx, if_neg (fun hh => hx ⟨hh.1, hh.2.1, hcn.1 hh.2.2⟩)]
        exact .error _

theorem addMeas_rel (m : Option ℕ) {e : Entry K τ F S C} {e' : Entry K τ F S Unit} (he : SameTrack e e') :
    SameTrack (addMeas m e) (addMeas m e') :=
  ⟨he.label, he.weights, he.filters, congrArg (· ++ [m]) he.assoc, he.states, he.birth, he.covs, he.steps⟩

theorem corBlock_rel (h : SameInner env env') (pr : Params K) {tab : List (Entry K τ F S C)}
    {tab' : List (Entry K τ F S Unit)} (ht : List.Forall₂ SameTrack tab tab') (ze : Z × ℕ) :
    SameOutcome (List.Forall₂ OptSame) (corBlock env pr tab ze) (corBlock env' pr tab' ze) := by
  unfold corBlock
  rcases cases (traverse ht fun a b hab => correctEntry_rel h pr ze.1 hab) with ⟨e, h1, h2⟩ | ⟨es, es', h1, h2, hes⟩
  · rw [h1, h2]; exact .error e
  · rw [h1, h2]
    refine .ok ?_
    rw [List.forall₂_map_left_iff, List.forall₂_map_right_iff]
    refine hes.imp fun a b hab => ⟨?_, hab.2⟩
    obtain ⟨h3, _⟩ := hab
    revert h3
    generalize a.1 = x
    generalize b.1 = y
    rintro (⟨hxy⟩ | _)
    · exact .some (addMeas_rel _ hxy)
    · exact .none

theorem costRows_rel (h : SameInner env env') (pr : Params K) {blocks blocks'}
    (hB : List.Forall₂ (List.Forall₂ (OptSame (K := K) (τ := τ) (F := F) (S := S) (C := C))) blocks blocks') (tracks : List ℕ)
    {es : List (Entry K τ F S C)} {es' : List (Entry K τ F S Unit)} (hes : List.Forall₂ SameTrack es es') :
    costRows env' pr blocks' tracks es' = costRows env pr blocks tracks es := by
  unfold costRows
  refine to_eq ?_
  have hz : List.Forall₂ (fun (a : ℕ × Entry K τ F S C) (b : ℕ × Entry K τ F S Unit) => b.1 = a.1 ∧ SameTrack a.2 b.2)
      (tracks.zip es) (tracks.zip es') := by
    induction tracks generalizing es es' with
    | nil => exact .nil
    | cons t ts ih =>
      cases hes with
      | nil => exact .nil
      | cons h1 h2 => exact .cons ⟨rfl, h1⟩ (ih h2)
  have := traverse (ε := GErr) (R := Eq) hz (f := fun te => traverseE (blockCost env pr te) blocks)
    (g := fun te => traverseE (blockCost env' pr te) blocks') (by
      intro a b hab
      have := traverse (ε := GErr) (R := Eq) hB (f := blockCost env pr a) (g := blockCost env' pr b) (by
        intro x y hxy
        unfold blockCost
        rw [hab.1]
        rcases cases (getE_rel hxy a.1) with ⟨e, h1, h2⟩ | ⟨u, v, h1, h2, huv⟩
        · rw [h1, h2]; exact .error e
        · rw [h1, h2]
          dsimp only
          rw [h.pdet _ _ hab.2, huv.2]
          exact of_eq rfl)
      rwa [List.forall₂_eq_eq_eq] at this)
  rwa [List.forall₂_eq_eq_eq] at this

theorem corOne_rel (h : SameInner env env') (pr : Params K) {tab : List (Entry K τ F S C)}
    {tab' : List (Entry K τ F S Unit)} (ht : List.Forall₂ SameTrack tab tab') {blocks blocks'}
    (hB : List.Forall₂ (List.Forall₂ (OptSame (K := K) (τ := τ) (F := F) (S := S) (C := C))) blocks blocks') (ss : K)
    (hy : Hyp K) : corOne env' pr tab' blocks' ss hy = corOne env pr tab blocks ss hy := by
  unfold corOne
  rcases cases (ents ht hy.tracks) with ⟨e, h1, h2⟩ | ⟨es, es', h1, h2, hes⟩
  · rw [h1, h2]
  · rw [h1, h2]
    dsimp only
    have hbl : blocks'.length = blocks.length := hB.length_eq.symm
    have hbn : blocks' = [] ↔ blocks = [] := by
      rw [← List.length_eq_zero_iff, hbl, List.length_eq_zero_iff]
    have htl : tab'.length = tab.length := ht.length_eq.symm
    have hcm : costMat env' = costMat env := by
      funext rows r n i j
      unfold costMat
      rw [h.num]
    rw [map_eq (f := fun e => 1 - env.pdet e) (g := fun e => 1 - env'.pdet e) hes fun a b hab => by rw [h.pdet a b hab],
      costRows_rel h pr hB _ hes, share_same h, hcm, h.num, htl]
    have hmu : ∀ (rows : List (List K)) (r m : ℕ), Murty.murty (costMat env rows r blocks'.length) m =
        Murty.murty (costMat env rows r blocks.length) m := by
      intro rows r m
      rw [hbl]
    simp only [hbn, hbl, hmu]

theorem corHyps_rel (h : SameInner env env') (pr : Params K) {tab : List (Entry K τ F S C)}
    {tab' : List (Entry K τ F S Unit)} (ht : List.Forall₂ SameTrack tab tab') {blocks blocks'}
    (hB : List.Forall₂ (List.Forall₂ (OptSame (K := K) (τ := τ) (F := F) (S := S) (C := C))) blocks blocks')
    (hyps : List (Hyp K)) : corHyps env' pr tab' blocks' hyps = corHyps env pr tab blocks hyps := by
  unfold corHyps
  rw [sumSqrt_same h, show corOne env' pr tab' blocks' (sumSqrt env hyps) = corOne env pr tab blocks (sumSqrt env hyps) from
    funext fun hy => corOne_rel h pr ht hB _ hy]

theorem upTab_rel {tab : List (Entry K τ F S C)} {tab' : List (Entry K τ F S Unit)} (ht : List.Forall₂ SameTrack tab tab')
    {blocks blocks'}
    (hB : List.Forall₂ (List.Forall₂ (OptSame (K := K) (τ := τ) (F := F) (S := S) (C := C))) blocks blocks') :
    List.Forall₂ (Option.Rel SameTrack) (upTab tab blocks) (upTab tab' blocks') := by
  unfold upTab
  refine List.rel_append ?_ ?_
  · rw [List.forall₂_map_left_iff, List.forall₂_map_right_iff]
    exact ht.imp fun a b hab => .some (addMeas_rel _ hab)
  · induction hB with
    | nil => exact .nil
    | cons hb _ ih =>
      rw [List.flatMap_cons, List.flatMap_cons]
      refine List.rel_append ?_ ih
      rw [List.forall₂_map_left_iff, List.forall₂_map_right_iff]
      exact hb.imp fun a b hab => hab.1

theorem rel_isSome {α β : Type*} {R : α → β → Prop} {x : Option α} {y : Option β} (h : Option.Rel R x y) :
    y.isSome = x.isSome := by
  cases h <;> rfl

theorem usedInds_rel {tab : List (Option (Entry K τ F S C))} {tab' : List (Option (Entry K τ F S Unit))}
    (h : List.Forall₂ (Option.Rel SameTrack) tab tab') (hyps : List (Hyp K)) : usedInds tab' hyps = usedInds tab hyps := by
  unfold usedInds
  rw [← h.length_eq]
  congr 1
  funext i
  unfold isUsed
  congr 1
  by_cases hi : i < tab.length
  · have hi' : i < tab'.length := by rw [← h.length_eq]; exact hi
    rw [List.getElem?_eq_getElem hi, List.getElem?_eq_getElem hi']
    exact rel_isSome ((List.forall₂_iff_get.1 h).2 i hi hi')
  · rw [List.getElem?_eq_none (not_lt.1 hi), List.getElem?_eq_none (by rw [← h.length_eq]; exact not_lt.1 hi)]
    rfl

theorem getD_rel {tab : List (Option (Entry K τ F S C))} {tab' : List (Option (Entry K τ F S Unit))}
    (h : List.Forall₂ (Option.Rel SameTrack) tab tab') (i : ℕ) :
    Option.Rel SameTrack ((tab[i]?).getD none) ((tab'[i]?).getD none) := by
  by_cases hi : i < tab.length
  · have hi' : i < tab'.length := by rw [← h.length_eq]; exact hi
    rw [List.getElem?_eq_getElem hi, List.getElem?_eq_getElem hi']
    exact (List.forall₂_iff_get.1 h).2 i hi hi'
  · rw [List.getElem?_eq_none (not_lt.1 hi), List.getElem?_eq_none (by rw [← h.length_eq]; exact not_lt.1 hi)]
    exact .none

theorem filterMap_rel {α β γ : Type*} {R : β → γ → Prop} {f : α → Option β} {g : α → Option γ}
    (h : ∀ a, Option.Rel R (f a) (g a)) : ∀ l : List α, List.Forall₂ R (l.filterMap f) (l.filterMap g)
  | [] => .nil
  | a :: l => by
    have h1 := h a
    rw [List.filterMap_cons, List.filterMap_cons]
    revert h1
    generalize f a = x
    generalize g a = y
    rintro (⟨hxy⟩ | _)
    · exact .cons hxy (filterMap_rel h l)
    · exact filterMap_rel h l

theorem cleanUpd_rel {tab : List (Option (Entry K τ F S C))} {tab' : List (Option (Entry K τ F S Unit))}
    (h : List.Forall₂ (Option.Rel SameTrack) tab tab') (hyps : List (Hyp K)) :
    SameOutcome (fun x y => List.Forall₂ SameTrack x.1 y.1 ∧ y.2 = x.2) (cleanUpd tab hyps) (cleanUpd tab' hyps) := by
  unfold cleanUpd
  rw [usedInds_rel h, ← h.length_eq]
  by_cases hc : (hyps.any fun h => h.tracks.any fun i => decide (tab.length ≤ i)) = true
  · rw [if_pos hc, if_pos hc]; exact .error _
  · rw [if_neg hc, if_neg hc]
    exact .ok ⟨filterMap_rel (getD_rel h) _, rfl⟩

theorem correct_rel (h : SameInner env env') (pr : Params K) (meas : List Z) {st : St K τ F S C} {st' : St K τ F S Unit}
    (hS : SameButCovs st st') : SameOutcome SameButCovs (correct env pr meas st) (correct env' pr meas st') := by
  unfold correct corBlocks
  rcases cases (traverse (Q := Eq) (f := corBlock env pr st.tab) (g := corBlock env' pr st'.tab)
    (R := List.Forall₂ OptSame) (l := meas.zipIdx) (l' := meas.zipIdx) (List.forall₂_eq_eq_eq ▸ rfl)
    fun a b hab => hab ▸ corBlock_rel h pr hS.table a) with ⟨e, h1, h2⟩ | ⟨bs, bs', h1, h2, hB⟩
  · rw [h1, h2]; exact .error e
  · rw [h1, h2]
    dsimp only
    rw [hS.hyps, corHyps_rel h pr hS.table hB]
    cases corHyps env pr st.tab bs st.hyps with
    | error e => exact .error e
    | ok hs =>
      dsimp only
      rcases cases (cleanUpd_rel (upTab_rel hS.table hB) hs) with ⟨e, h3, h4⟩ | ⟨⟨T, H⟩, ⟨T', H'⟩, h3, h4, h5, h6⟩
      · rw [h3, h4]; exact .error e
      · rw [h3, h4]
        dsimp only at h5 h6 ⊢
        exact .ok ⟨h5, h6, rfl, hS.time, hS.hist, hS.states, hS.labels⟩

/-! ### Clean-up and extraction -/

theorem prune_rel (pr : Params K) {st : St K τ F S C} {st' : St K τ F S Unit} (hS : SameButCovs st st') :
    SameOutcome SameButCovs (prune pr st) (prune pr st') := by
  unfold prune
  rw [hS.hyps]
  cases normHyps (st.hyps.filter fun h => decide (pr.pruneThreshold < h.prob)) with
  | error e => exact .error e
  | ok hs => exact .ok ⟨hS.table, rfl, rfl, hS.time, hS.hist, hS.states, hS.labels⟩

theorem cap_rel (h : SameInner env env') (pr : Params K) {st : St K τ F S C} {st' : St K τ F S Unit}
    (hS : SameButCovs st st') : SameOutcome SameButCovs (cap env pr st) (cap env' pr st') := by
  unfold cap
  rw [hS.hyps, h.argsort]
  by_cases hl : pr.maxHyps < st.hyps.length
  · rw [if_pos hl, if_pos hl]
    cases traverseE (getE st.hyps) (((env.argsort (st.hyps.map fun h => h.prob)).reverse).take pr.maxHyps) with
    | error x => exact .error x
    | ok kept =>
      dsimp only
      cases normHyps kept with
      | error x => exact .error x
      | ok hs => exact .ok ⟨hS.table, rfl, rfl, hS.time, hS.hist, hS.states, hS.labels⟩
  · rw [if_neg hl, if_neg hl]
    exact .ok hS

theorem best_rel (w : List K) (s : List S) (c : List C) (h : c.length = s.length) :
    SameOutcome (fun x y => y = x.1) (bestState (w, s, c)) (bestOnly (w, s)) := by
  unfold bestState bestOnly
  dsimp only
  cases argmaxE w with
  | error e => exact .error e
  | ok i =>
    dsimp only
    unfold getE
    by_cases hi : i < s.length
    · rw [List.getElem?_eq_getElem hi, List.getElem?_eq_getElem (show i < c.length by rw [h]; exact hi)]
      exact .ok rfl
    · rw [List.getElem?_eq_none (not_lt.1 hi), List.getElem?_eq_none (show c.length ≤ i by rw [h]; exact not_lt.1 hi)]
      exact .error _

theorem bests_rel : ∀ (w : List (List K)) (s : List (List S)) (c : List (List C)), c.map List.length = s.map List.length →
    SameOutcome (List.Forall₂ fun x y => y = x.1) (traverseE bestState (w.zip (s.zip c))) (traverseE bestOnly (w.zip s))
  | [], _, _, _ => .ok .nil
  | _ :: _, [], [], _ => .ok .nil
  | _ :: _, [], _ :: _, h => by simp at h
  | _ :: _, _ :: _, [], h => by simp at h
  | x :: w, y :: s, z :: c, h => by
    rw [List.map_cons, List.map_cons, List.cons.injEq] at h
    rw [List.zip_cons_cons, List.zip_cons_cons, List.zip_cons_cons]
    unfold traverseE
    rcases cases (best_rel x y z h.1) with ⟨e, h1, h2⟩ | ⟨u, v, h1, h2, huv⟩
    · rw [h1, h2]; exact .error e
    · rw [h1, h2]
      dsimp only
      rcases cases (bests_rel w s c h.2) with ⟨e, h3, h4⟩ | ⟨us, vs, h3, h4, hus⟩
      · rw [h3, h4]; exact .error e
      · rw [h3, h4]; exact .ok (.cons huv hus)

theorem mkExt_rel {e : Entry K τ F S C} {e' : Entry K τ F S Unit} (he : SameTrack e e') :
    SameOutcome SameHist (mkExt e) (mkExtNC e') := by
  obtain ⟨l', w', f', m', s', c', t'⟩ := e'
  obtain ⟨l, w, f, m, s, c, t⟩ := e
  obtain ⟨rfl, rfl, rfl, rfl, rfl, rfl, hc, hl⟩ := he
  dsimp only at hc hl
  unfold mkExt mkExtNC
  dsimp only
  rw [hl]
  by_cases hh : w'.length = s'.length ∧ s'.length = c.length
  · rw [if_pos hh, if_pos hh]
    rcases cases (bests_rel w' s' c hc) with ⟨e, h1, h2⟩ | ⟨us, vs, h1, h2, hus⟩
    · rw [h1, h2]; exact .error e
    · rw [h1, h2]
      have hvs : vs = us.map Prod.fst := by
        have := map_eq (f := Prod.fst) (g := id) hus fun a b hab => hab
        rwa [List.map_id] at this
      refine .ok ⟨rfl, rfl, rfl, hvs, ?_⟩
      show vs.map (fun _ => ()) = (us.map Prod.snd).map fun _ => ()
      rw [hvs, List.map_map, List.map_map]
      rfl
  · rw [if_neg hh, if_neg hh]
    exact .error _

theorem allUsed_rel (cntr : ℕ) {es : List (Ext τ S C)} {es' : List (Ext τ S Unit)} (h : List.Forall₂ SameHist es es') :
    ∀ used : List ℕ, allUsed cntr es' used = allUsed cntr es used := by
  induction h with
  | nil => intro _; rfl
  | cons h1 _ ih =>
    intro used
    unfold allUsed
    rw [h1.birth, h1.assoc]
    cases addUsed cntr _ _ used with
    | error y => rfl
    | ok u => exact ih u

theorem reportOne_rel (cntr : ℕ) (label : τ × ℕ) (tIdx : ℕ) : ∀ (ss : List S) (cs : List C) (k : ℕ)
    (r : List (List S) × List (List (τ × ℕ)) × List (List C)) (r' : List (List S) × List (List (τ × ℕ)) × List (List Unit)),
    r'.1 = r.1 → r'.2.1 = r.2.1 →
    SameOutcome (fun x y => y.1 = x.1 ∧ y.2.1 = x.2.1) (reportOne cntr label tIdx ((ss.zip cs).zipIdx k) r)
      (reportOne cntr label tIdx ((ss.zip (cs.map fun _ => ())).zipIdx k) r')
  | [], _, _, _, _, h1, h2 => .ok ⟨h1, h2⟩
  | _ :: _, [], _, _, _, h1, h2 => .ok ⟨h1, h2⟩
  | s :: ss, c :: cs, k, r, r', h1, h2 => by
    rw [List.map_cons, List.zip_cons_cons, List.zip_cons_cons, List.zipIdx_cons, List.zipIdx_cons]
    unfold reportOne
    by_cases hl : tIdx + k < cntr
    · rw [if_pos hl, if_pos hl]
      exact reportOne_rel cntr label tIdx ss cs (k + 1) _ _ (by dsimp only; rw [h1]) (by dsimp only; rw [h2])
    · rw [if_neg hl, if_neg hl]
      exact .error _

theorem report_rel (cntr : ℕ) {es : List (Ext τ S C)} {es' : List (Ext τ S Unit)} (h : List.Forall₂ SameHist es es') :
    ∀ (r : List (List S) × List (List (τ × ℕ)) × List (List C)) (r' : List (List S) × List (List (τ × ℕ)) × List (List Unit)),
    r'.1 = r.1 → r'.2.1 = r.2.1 →
    SameOutcome (fun x y => y.1 = x.1 ∧ y.2.1 = x.2.1) (report cntr es r) (report cntr es' r') := by
  induction h with
  | nil => intro r r' h1 h2; exact .ok ⟨h1, h2⟩
  | @cons a b es es' hab _ ih =>
    intro r r' h1 h2
    unfold report
    rw [hab.label, hab.birth, hab.states, hab.covs]
    rcases cases (reportOne_rel cntr a.label a.tIdx a.states a.covs 0 r r' h1 h2) with ⟨e, h3, h4⟩ | ⟨u, v, h3, h4, h5, h6⟩
    · rw [h3, h4]; exact .error e
    · rw [h3, h4]; exact ih _ _ h5 h6

variable [DecidableEq τ]

theorem keepOld_rel (cntr : ℕ) (labels : List (τ × ℕ)) (used : List ℕ) {es : List (Ext τ S C)} {es' : List (Ext τ S Unit)}
    (h : List.Forall₂ SameHist es es') :
    SameOutcome (List.Forall₂ SameHist) (keepOld cntr labels used es) (keepOld cntr labels used es') := by
  induction h with
  | nil => exact .ok .nil
  | @cons a b es es' hab _ ih =>
    unfold keepOld
    rw [hab.label, hab.birth, hab.assoc]
    by_cases hm : a.label ∈ labels
    · rw [if_pos hm, if_pos hm]; exact ih
    · rw [if_neg hm, if_neg hm]
      cases clashes cntr a.tIdx used a.mHist.zipIdx with
      | error y => exact .error y
      | ok bb =>
        dsimp only
        rcases cases ih with ⟨e, h3, h4⟩ | ⟨u, v, h3, h4, h5⟩
        · rw [h3, h4]; exact .error e
        · rw [h3, h4]
          cases bb with
          | true => exact .ok h5
          | false => exact .ok (.cons hab h5)

theorem updateExt_rel {st : St K τ F S C} {st' : St K τ F S Unit} (hS : SameButCovs st st') (idx : ℕ) :
    SameOutcome (List.Forall₂ SameHist) (updateExt st idx) (updateExtNC st' idx) := by
  unfold updateExt updateExtNC
  rw [hS.hyps, hS.time]
  cases getE st.hyps idx with
  | error e => exact .error e
  | ok hy =>
    dsimp only
    rcases cases (ents hS.table hy.tracks) with ⟨e, h1, h2⟩ | ⟨es, es', h1, h2, hes⟩
    · rw [h1, h2]; exact .error e
    · rw [h1, h2]
      dsimp only
      rcases cases (traverse hes fun a b hab => mkExt_rel hab) with ⟨e, h3, h4⟩ | ⟨ns, ns', h3, h4, hns⟩
      · rw [h3, h4]; exact .error e
      · rw [h3, h4]
        dsimp only
        rw [allUsed_rel st.cntr hns, map_eq (f := fun e => e.label) (g := fun e => e.label) hns fun a b hab => hab.label]
        cases allUsed st.cntr ns [] with
        | error e => exact .error e
        | ok used =>
          dsimp only
          rcases cases (keepOld_rel st.cntr (ns.map fun e => e.label) used hS.hist) with ⟨e, h5, h6⟩ | ⟨os, os', h5, h6, hos⟩
          · rw [h5, h6]; exact .error e
          · rw [h5, h6]; exact .ok (List.rel_append hos hns)

theorem extract_rel (update calcS : Bool) {st : St K τ F S C} {st' : St K τ F S Unit} (hS : SameButCovs st st') :
    SameOutcome (fun x y => SameButCovs x.1 y.1 ∧ y.2 = x.2) (extract update calcS st) (extractNC update calcS st') := by
  unfold extract extractNC
  rw [hS.card]
  cases argmaxE st.card with
  | error e => exact .error e
  | ok card =>
    dsimp only
    have hbl : SameButCovs
        ({ st with states := List.replicate st.cntr [], labels := List.replicate st.cntr [], covs := List.replicate st.cntr [] })
        ({ st' with states := List.replicate st'.cntr [], labels := List.replicate st'.cntr [],
                    covs := List.replicate st'.cntr [] }) :=
      ⟨hS.table, hS.hyps, hS.card, hS.time, hS.hist, by rw [hS.time], by rw [hS.time]⟩
    by_cases h0 : st.hyps = []
    · rw [if_pos h0, if_pos (by rw [hS.hyps]; exact h0)]
      have := hbl
      rw [hS.card] at this
      exact .ok ⟨this, rfl⟩
    · rw [if_neg h0, if_neg (by rw [hS.hyps]; exact h0), hS.hyps]
      cases argmaxE (maskedWeights card st.hyps) with
      | error e => exact .error e
      | ok idx =>
        dsimp only
        have hu : SameOutcome (List.Forall₂ SameHist)
            (if update = true then updateExt { st with states := List.replicate st.cntr [],
                                                       labels := List.replicate st.cntr [],
                                                       covs := List.replicate st.cntr [] } idx else .ok st.ext)
            (if update = true then updateExtNC { st' with hyps := st.hyps, card := st.card,
                                                          states := List.replicate st'.cntr [],
                                                          labels := List.replicate st'.cntr [],
                                                          covs := List.replicate st'.cntr [] } idx else .ok st'.ext) := by
          cases update with
          | false => exact .ok hS.hist
          | true =>
            have := updateExt_rel hbl idx
            rw [hS.card, hS.hyps] at this
            exact this
        rcases cases hu with ⟨e, h1, h2⟩ | ⟨x, x', h1, h2, hx⟩
        · rw [h1, h2]; exact .error e
        · rw [h1, h2]
          dsimp only
          cases calcS with
          | false => exact .ok ⟨⟨hS.table, rfl, rfl, hS.time, hx, by dsimp only; rw [hS.time], by dsimp only; rw [hS.time]⟩, rfl⟩
          | true =>
            rw [if_pos rfl, if_pos rfl, hS.time]
            rcases cases (report_rel st.cntr hx (List.replicate st.cntr [], List.replicate st.cntr [], List.replicate st.cntr [])
              (List.replicate st.cntr [], List.replicate st.cntr [], List.replicate st.cntr []) rfl rfl) with
              ⟨e, h3, h4⟩ | ⟨u, v, h3, h4, h5, h6⟩
            · rw [h3, h4]; exact .error e
            · rw [h3, h4]
              exact .ok ⟨⟨hS.table, rfl, rfl, rfl, hx, h5, h6⟩, rfl⟩

theorem cleanup_rel (h : SameInner env env') (pr : Params K) (bp bc be u c : Bool) {st : St K τ F S C}
    {st' : St K τ F S Unit} (hS : SameButCovs st st') :
    SameOutcome SameButCovs (cleanup env pr bp bc be u c st) (cleanupNC env' pr bp bc be u c st') := by
  unfold cleanup cleanupNC
  have hS1 : SameButCovs { st with cntr := st.cntr + 1 } { st' with cntr := st'.cntr + 1 } :=
    ⟨hS.table, hS.hyps, hS.card, congrArg (· + 1) hS.time, hS.hist, hS.states, hS.labels⟩
  have h1 : SameOutcome SameButCovs
      (if bp = true then prune pr { st with cntr := st.cntr + 1 } else .ok { st with cntr := st.cntr + 1 })
      (if bp = true then prune pr { st' with cntr := st'.cntr + 1 } else .ok { st' with cntr := st'.cntr + 1 }) := by
    cases bp with
    | false => exact .ok hS1
    | true => exact prune_rel pr hS1
  rcases cases h1 with ⟨e, h2, h3⟩ | ⟨s1, s1', h2, h3, hS2⟩
  · rw [h2, h3]; exact .error e
  · rw [h2, h3]
    dsimp only
    have h4 : SameOutcome SameButCovs (if bc = true then cap env pr s1 else .ok s1)
        (if bc = true then cap env' pr s1' else .ok s1') := by
      cases bc with
      | false => exact .ok hS2
      | true => exact cap_rel h pr hS2
    rcases cases h4 with ⟨e, h5, h6⟩ | ⟨s2, s2', h5, h6, hS3⟩
    · rw [h5, h6]; exact .error e
    · rw [h5, h6]
      dsimp only
      cases be with
      | false => exact .ok hS3
      | true =>
        rw [if_pos rfl, if_pos rfl]
        rcases cases (extract_rel u c hS3) with ⟨e, h7, h8⟩ | ⟨⟨s3, i⟩, ⟨s3', i'⟩, h7, h8, hS4, _⟩
        · rw [h7, h8]; exact .error e
        · rw [h7, h8]; exact .ok hS4

theorem step_rel (pr : Params K) {st : St K τ F S C} {st' : St K τ F S Unit} (hS : SameButCovs st st')
    {o : Op K τ F S C Z} {o' : Op K τ F S Unit Z} (h : SameCallNC o o') :
    SameOutcome SameButCovs (step pr st o) (stepNC pr st' o') := by
  cases h with
  | predict h hb => exact predict_rel h pr _ hb hS
  | correct h => exact correct_rel h pr _ hS
  | cleanup bp bc be u c h => exact cleanup_rel h pr bp bc be u c hS
  | extract u c =>
    unfold step stepNC
    dsimp only
    rcases cases (extract_rel u c hS) with ⟨e, h7, h8⟩ | ⟨⟨s3, i⟩, ⟨s3', i'⟩, h7, h8, hS4, _⟩
    · rw [h7, h8]; exact .error e
    · rw [h7, h8]; exact .ok hS4

theorem run_rel (pr : Params K) {ops : List (Op K τ F S C Z)} {ops' : List (Op K τ F S Unit Z)}
    (h : List.Forall₂ SameCallNC ops ops') : ∀ {st : St K τ F S C} {st' : St K τ F S Unit}, SameButCovs st st' →
      SameOutcome SameButCovs (run pr st ops) (runNC pr st' ops') := by
  induction h with
  | nil => intro st st' hS; exact .ok hS
  | cons ho _ ih =>
    intro st st' hS
    unfold run runNC
    rcases cases (step_rel pr hS ho) with ⟨e, h1, h2⟩ | ⟨s, s', h1, h2, hS'⟩
    · rw [h1, h2]; exact .error e
    · rw [h1, h2]; exact ih hS'

end NoCov

/-- **C135.** The same calls on a GLMB filter that saves covariances and on one that does not (`save_covs`) have the same
outcome: both fail with the same error, or both return and agree in everything but the covariances. -/
theorem C135_save_covs {K τ F S C Z : Type*} [Field K] [LinearOrder K] [FloorRing K] [DecidableEq τ] (pr : Params K)
    (ops : List (Op K τ F S C Z)) (ops' : List (Op K τ F S Unit Z)) (h : List.Forall₂ SameCallNC ops ops') :
    SameOutcome SameButCovs (run pr init ops) (runNC pr init ops') :=
  NoCov.run_rel pr h ⟨.nil, rfl, rfl, rfl, .nil, rfl, rfl⟩

/-- With the default setting `save_covs = False` the filter never fails either: C50 carries over. -/
theorem C135_never_fails {K τ F S C Z : Type*} [Field K] [LinearOrder K] [IsStrictOrderedRing K] [FloorRing K]
    [DecidableEq τ] (pr : Params K) (heps : 0 < pr.eps) (hcl : 0 < pr.clutterRate * pr.clutterDen)
    (Valid : F → Prop) (rounds : List (Round K τ F S C Z)) (hok : ∀ r ∈ rounds, r.OK pr Valid)
    (ops' : List (Op K τ F S Unit Z)) (h : List.Forall₂ SameCallNC (rounds.flatMap Round.ops) ops') :
    ∃ st', runNC pr init ops' = .ok st' ∧ ∀ x ∈ st'.hyps, 0 < x.prob := by
  obtain ⟨st, h1, h2, _⟩ := C50_never_fails pr heps hcl Valid rounds hok
  have h3 := C135_save_covs pr _ _ h
  rw [h1] at h3
  rcases NoCov.cases h3 with ⟨e, h4, _⟩ | ⟨x, y, h4, h5, h6⟩
  · exact (nomatch h4)
  · obtain rfl := Except.ok.inj h4
    exact ⟨y, h5, by rw [h6.hyps]; exact h2⟩

/-! ### A concrete case -/

/-- An inner filter whose covariance is the number of the filter state. -/
def exCovEnv : Env ℚ ℕ ℚ ℚ ℚ ℚ :=
  { num := exTrackEnv.num, sortInds := exTrackEnv.sortInds, argsort := exTrackEnv.argsort
    predF := fun f s => (f + 1, s + 1, f + 1)
    corF := fun z f s w => some (f / 2, (s + z) / 2, f / 2, w / 2)
    psurv := fun _ => 9 / 10
    pdet := fun _ => 9 / 10 }

/-- The same inner filter without its covariance. -/
def exNoCovEnv : Env ℚ ℕ ℚ ℚ Unit ℚ :=
  { num := exTrackEnv.num, sortInds := exTrackEnv.sortInds, argsort := exTrackEnv.argsort
    predF := fun f s => (f + 1, s + 1, ())
    corF := fun z f s w => some (f / 2, (s + z) / 2, (), w / 2)
    psurv := fun _ => 9 / 10
    pdet := fun _ => 9 / 10 }

def exCovOps : List (Op ℚ ℕ ℚ ℚ ℚ ℚ) :=
  [.predict exCovEnv 0 [⟨[2], [1], [0], [2], 9 / 10⟩], .correct exCovEnv [4, 8], .cleanup exCovEnv true true true true true,
   .predict exCovEnv 1 [⟨[2], [1], [10], [2], 9 / 10⟩], .correct exCovEnv [6], .cleanup exCovEnv true true true true true]

def exNoCovOps : List (Op ℚ ℕ ℚ ℚ Unit ℚ) :=
  [.predict exNoCovEnv 0 [⟨[2], [1], [0], [], 9 / 10⟩], .correct exNoCovEnv [4, 8],
   .cleanup exNoCovEnv true true true true true,
   .predict exNoCovEnv 1 [⟨[2], [1], [10], [], 9 / 10⟩], .correct exNoCovEnv [6],
   .cleanup exNoCovEnv true true true true true]

theorem exNoCov_calls : List.Forall₂ SameCallNC exCovOps exNoCovOps := by
  have h : SameInner exCovEnv exNoCovEnv :=
    ⟨rfl, rfl, rfl, fun _ _ => rfl, fun _ _ _ _ => rfl, fun _ _ _ => rfl, fun _ _ _ => rfl⟩
  exact .cons (.predict h (by simp)) (.cons (.correct h) (.cons (.cleanup _ _ _ _ _ h)
    (.cons (.predict h (by simp)) (.cons (.correct h) (.cons (.cleanup _ _ _ _ _ h) .nil)))))

/-- What the two filters report: the same labels and states; the first also reports covariances. -/
example : ((run exTrackPr init exCovOps).toOption.map fun s => (s.labels, s.states)) =
      some ([[(0, 0)], [(1, 0), (0, 0)]], [[2], [8, 3]]) ∧
    ((runNC exTrackPr init exNoCovOps).toOption.map fun s => (s.labels, s.states)) =
      some ([[(0, 0)], [(1, 0), (0, 0)]], [[2], [8, 3]]) ∧
    ((run exTrackPr init exCovOps).toOption.map fun s => s.covs) = some [[1], [1, 2]] := by
  refine ⟨by decide +kernel, by decide +kernel, by decide +kernel⟩

end Gasur.Props
