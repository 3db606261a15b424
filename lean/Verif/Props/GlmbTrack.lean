import Verif.Spec.Track
import Verif.Props.GlmbExtract

/-!
# Property C115: every track of the GLMB filter is the track of a single-object filter
-/

set_option linter.unusedSectionVars false
set_option synthInstance.maxSize 2000
set_option synthInstance.maxHeartbeats 400000

namespace Gasur.Props

open Gasur.Glmb Gasur.Spec

variable {K τ F S C Z : Type*} [Field K] [LinearOrder K] [IsStrictOrderedRing K] [FloorRing K]
  [DecidableEq τ]

/-- A birth term whose four lists have the same length. -/
def BirthOk (b : Birth K F S C) : Prop :=
  b.fStates.length = b.ws.length ∧ b.states.length = b.ws.length ∧ b.covs.length = b.ws.length

/-- The birth terms of a call. -/
def birthsOf : Op K τ F S C Z → List (Birth K F S C)
  | .predict _ _ births => births
  | _ => []

theorem birth_stores (t : τ) (i n : ℕ) (b : Birth K F S C) (hb : BirthOk b) :
    Stores ⟨(t, i), [b.ws], b.fStates, [], [b.states], [b.covs], n⟩ ⟨(t, i), n, [], [], birthComps b⟩ := by
  obtain ⟨h1, h2, h3⟩ := hb
  refine ⟨rfl, rfl, rfl, ?_, ?_, ?_, ?_⟩
  · simp only [birthComps, List.map_map]
    refine List.ext_getElem (by simp [h1, h2, h3]) fun k _ _ => by simp
  · simp only [birthComps, List.nil_append, List.map_cons, List.map_nil, List.map_map]
    congr 1
    refine List.ext_getElem (by simp [h1, h2, h3]) fun k _ _ => by simp
  · simp only [birthComps, List.nil_append, List.map_cons, List.map_nil, List.map_map]
    congr 1
    refine List.ext_getElem (by simp [h1, h2, h3]) fun k _ _ => by simp
  · simp only [birthComps, List.nil_append, List.map_cons, List.map_nil, List.map_map]
    congr 1
    refine List.ext_getElem (by simp [h1, h2, h3]) fun k _ _ => by simp

theorem predict_stores {env : Env K τ F S C Z} {e e' : Entry K τ F S C} {l : Life K τ F S C}
    (hs : Stores e l) (h : predictEntry env e = .ok e') :
    Stores e' { l with past := l.past ++ [l.now], now := l.now.map (moveComp env.predF) } := by
  unfold predictEntry at h
  split at h
  · rename_i s w h1 h2
    split at h
    · obtain rfl := Except.ok.inj h
      rw [hs.states] at h1
      rw [hs.weights] at h2
      simp only [List.map_append, List.map_cons, List.map_nil, List.getLast?_concat, Option.some.injEq] at h1 h2
      subst h1
      subst h2
      refine ⟨hs.label, hs.born, hs.assoc, ?_, ?_, ?_, ?_⟩
      · dsimp only
        rw [hs.filts, List.zipWith_map, List.zipWith_self, List.map_map]
        rfl
      · dsimp only
        rw [hs.filts, hs.states, List.zipWith_map, List.zipWith_self]
        simp [moveComp, Function.comp_def]
      · dsimp only
        rw [hs.filts, hs.covs, List.zipWith_map, List.zipWith_self]
        simp [moveComp, Function.comp_def]
      · dsimp only
        rw [hs.weights]
        simp [moveComp, Function.comp_def]
    · exact (nomatch h)
  · exact (nomatch h)

theorem correct_stores {env : Env K τ F S C Z} {pr : Params K} {z : Z} {e e' : Entry K τ F S C} {c : K}
    {l : Life K τ F S C} (hs : Stores e l) (h : correctEntry env pr z e = .ok (some e', c)) :
    ∃ now', Updated env.corF pr.eps z l.now now' ∧ Stores e' { l with now := now' } := by
  unfold correctEntry at h
  split at h
  · rename_i s w h1 h2
    rw [hs.states] at h1
    rw [hs.weights] at h2
    simp only [List.map_append, List.map_cons, List.map_nil, List.getLast?_concat, Option.some.injEq] at h1 h2
    subst h1
    subst h2
    split at h
    · split at h
      · exact absurd h (by simp)
      · rename_i rs hrs
        split at h
        · exact (nomatch h)
        · simp only [Except.ok.injEq, Prod.mk.injEq, Option.some.injEq] at h
          obtain ⟨rfl, _⟩ := h
          have hf := traverseE_optE (fun x : F × S × K => env.corF z x.1 x.2.1 x.2.2) hrs
          rw [hs.filts, List.zip_map', List.zip_map', List.forall₂_map_left_iff] at hf
          have hg := List.forall₂_iff_get.1 hf
          refine ⟨rs.map fun r => ⟨r.1, r.2.1, r.2.2.1, (r.2.2.2 + pr.eps) / (rs.map fun r => r.2.2.2 + pr.eps).sum⟩,
            ⟨rs.map fun r => r.2.2.2, by simp [hg.1], by simp [hg.1], ?_⟩, ?_⟩
          · intro i x x' w hx hx' hw
            rw [List.getElem?_map, Option.map_eq_some_iff] at hx' hw
            obtain ⟨r, hr, rfl⟩ := hx'
            obtain ⟨r', hr', rfl⟩ := hw
            rw [hr, Option.some.injEq] at hr'
            subst hr'
            obtain ⟨hi, rfl⟩ := List.getElem?_eq_some_iff.1 hx
            obtain ⟨hi', rfl⟩ := List.getElem?_eq_some_iff.1 hr
            refine ⟨hg.2 i hi hi', ?_⟩
            rw [List.map_map]
            rfl
          · refine ⟨hs.label, hs.born, hs.assoc, ?_, ?_, ?_, ?_⟩
            · simp [Function.comp_def]
            · dsimp only
              rw [hs.states]
              simp [Function.comp_def]
            · dsimp only
              rw [hs.covs]
              simp [Function.comp_def]
            · dsimp only
              rw [hs.weights]
              simp [Function.comp_def]
    · exact (nomatch h)
  · exact (nomatch h)

/-- What holds after the calls `ops`. -/
structure LifeInv (pr : Params K) (ops : List (Op K τ F S C Z)) (st : St K τ F S C) : Prop where
  idx : IdxInv st
  cntr : st.cntr = ops.countP endsStep
  lives : ∀ e ∈ st.tab, ∃ l, Lives pr ops l ∧ Stores e l

theorem step_life {pr : Params K} (heps : 0 < pr.eps) {ops : List (Op K τ F S C Z)} {st st' : St K τ F S C}
    (o : Op K τ F S C Z) (hb : ∀ b ∈ birthsOf o, BirthOk b) (hI : LifeInv pr ops st)
    (h : step pr st o = .ok st') : LifeInv pr (ops ++ [o]) st' := by
  refine ⟨step_idx heps o hI.idx h, ?_, ?_⟩
  · rw [List.countP_append, ← hI.cntr]
    cases o with
    | predict env t births =>
      obtain ⟨_, _, _, h3, _⟩ := predict_tab h
      simp [h3, endsStep]
    | correct env meas =>
      obtain ⟨_, _, _, _, _, h3⟩ := correct_ok h
      rw [h3]
      simp [endsStep]
    | cleanup env bp bc be u c =>
      obtain ⟨s2, k1, k2, k3, ⟨_, rfl⟩ | ⟨_, o, k4⟩⟩ := cleanup_pre h
      · simp [k3, endsStep]
      · rw [(extract_frame k4).2.2.2, k3]
        simp [endsStep]
    | extract u c =>
      simp only [step] at h
      split at h
      · exact (nomatch h)
      · rename_i s o h1
        obtain rfl := Except.ok.inj h
        rw [(extract_frame h1).2.2.2]
        simp [endsStep]
  · intro e' he'
    cases o with
    | predict env t births =>
      obtain ⟨survTab, h1, h2, _⟩ := predict_tab h
      rw [h2] at he'
      rcases List.mem_append.1 he' with he' | he'
      · unfold birthTab at he'
        obtain ⟨⟨b, i⟩, hbi, rfl⟩ := List.mem_map.1 he'
        rw [List.mem_zipIdx_iff_getElem?] at hbi
        refine ⟨_, Lives.born ops env t births i b hbi, ?_⟩
        rw [← hI.cntr]
        exact birth_stores t i st.cntr b (hb b (List.mem_of_getElem? hbi))
      · obtain ⟨e, he, hp⟩ := forall₂_mem_right h1 he'
        obtain ⟨l, hl, hs⟩ := hI.lives e he
        exact ⟨_, Lives.moved ops l hl env t births, predict_stores hs hp⟩
    | correct env meas =>
      obtain ⟨e, he, m, hu⟩ := correct_tab hI.idx h he'
      obtain ⟨l, hl, hs⟩ := hI.lives e he
      rcases hu with ⟨rfl, rfl⟩ | ⟨j, z, e0, c, rfl, hz, hc, rfl⟩
      · exact ⟨_, Lives.missed ops l hl env meas, ⟨hs.label, hs.born, by simp [addMeas, hs.assoc], hs.filts,
          hs.states, hs.covs, hs.weights⟩⟩
      · obtain ⟨now', hu, hs'⟩ := correct_stores hs hc
        exact ⟨_, Lives.detected ops l hl env meas j z hz now' hu, ⟨hs'.label, hs'.born,
          by simp [addMeas, hs'.assoc], hs'.filts, hs'.states, hs'.covs, hs'.weights⟩⟩
    | cleanup env bp bc be u c =>
      rw [(cleanup_shrinks h).tab] at he'
      obtain ⟨l, hl, hs⟩ := hI.lives e' he'
      exact ⟨l, Lives.cleaned ops l hl env bp bc be u c, hs⟩
    | extract u c =>
      simp only [step] at h
      split at h
      · exact (nomatch h)
      · rename_i s o h1
        obtain rfl := Except.ok.inj h
        rw [(extract_frame h1).1] at he'
        obtain ⟨l, hl, hs⟩ := hI.lives e' he'
        exact ⟨l, Lives.extracted ops l hl u c, hs⟩

theorem run_life {pr : Params K} (heps : 0 < pr.eps) : ∀ (ops pre : List (Op K τ F S C Z))
    (st st' : St K τ F S C), (∀ o ∈ ops, ∀ b ∈ birthsOf o, BirthOk b) → LifeInv pr pre st →
    run pr st ops = .ok st' → LifeInv pr (pre ++ ops) st'
  | [], pre, st, st', _, hI, h => by
    simp only [run, Except.ok.injEq] at h
    subst h
    simpa using hI
  | o :: os, pre, st, st', hb, hI, h => by
    unfold run at h
    split at h
    · exact (nomatch h)
    · rename_i s hs
      have := run_life heps os (pre ++ [o]) s st' (fun x hx => hb x (List.mem_cons_of_mem _ hx))
        (step_life heps o (hb o List.mem_cons_self) hI hs) h
      simpa using this

/-- **C115.** After any sequence of calls on a new filter, every entry of the track table stores the life of a
single object: it was born with one birth term of one `predict` call, and its components are what the inner
filter makes of them when it is given, at each later `correct`, exactly the measurement recorded in the
association history of the track. -/
theorem C115_track_life (pr : Params K) (heps : 0 < pr.eps) (ops : List (Op K τ F S C Z))
    (hb : ∀ o ∈ ops, ∀ b ∈ birthsOf o, BirthOk b) (st : St K τ F S C) (h : run pr init ops = .ok st) :
    ∀ e ∈ st.tab, ∃ l, Lives pr ops l ∧ Stores e l := by
  have := run_life heps ops [] init st hb ⟨init_idx, rfl, by simp [init]⟩ h
  exact this.lives

theorem lives_label {pr : Params K} {ops : List (Op K τ F S C Z)} {l : Life K τ F S C} (h : Lives pr ops l) :
    l.label.1 ∈ ops.flatMap Op.labels := by
  induction h with
  | born ops env t births i b hb => simp [Op.labels]
  | moved ops l h env t births ih => simp [ih]
  | missed ops l h env meas ih => simp [ih]
  | detected ops l h env meas j z hz now' hu ih => simp [ih]
  | cleaned ops l h env bp bc be u c ih => simp [ih]
  | extracted ops l h u c ih => simp [ih]

theorem updated_unique {cor : Z → F → S → K → Option (F × S × C × K)} {eps : K} {z : Z}
    {l a b : List (Comp K F S C)} (h1 : Updated cor eps z l a) (h2 : Updated cor eps z l b) : a = b := by
  obtain ⟨q, q1, q2, q3⟩ := h1
  obtain ⟨r, r1, r2, r3⟩ := h2
  have hq : q = r := by
    refine List.ext_getElem (by omega) fun i hi hi' => ?_
    have e1 := (q3 i l[i] a[i] q[i] (by simp) (by simp) (by simp)).1
    have e2 := (r3 i l[i] b[i] r[i] (by simp) (by simp) (by simp)).1
    rw [e1] at e2
    simp only [Option.some.injEq, Prod.mk.injEq] at e2
    exact e2.2.2.2
  subst hq
  refine List.ext_getElem (by omega) fun i hi hi' => ?_
  obtain ⟨e1, w1⟩ := q3 i l[i] a[i] q[i] (by simp) (by simp) (by simp)
  obtain ⟨e2, w2⟩ := r3 i l[i] b[i] q[i] (by simp) (by simp) (by simp)
  rw [e1] at e2
  simp only [Option.some.injEq, Prod.mk.injEq] at e2
  obtain ⟨g1, g2, g3, _⟩ := e2
  cases ha : a[i]
  cases hb : b[i]
  simp only [ha, hb] at g1 g2 g3 w1 w2
  simp [g1, g2, g3, w1, w2]

theorem snoc_inj {α : Type*} {a b : List α} {x y : α} (h : a ++ [x] = b ++ [y]) : a = b ∧ x = y := by
  have := List.append_inj' h rfl
  exact ⟨this.1, by simpa using this.2⟩

theorem lives_predict {pr : Params K} {ops : List (Op K τ F S C Z)} {env : Env K τ F S C Z} {t : τ}
    {births : List (Birth K F S C)} {l : Life K τ F S C} (h : Lives pr (ops ++ [.predict env t births]) l) :
    (∃ (i : ℕ) (b : Birth K F S C), births[i]? = some b ∧
      l = ⟨(t, i), ops.countP endsStep, [], [], birthComps b⟩) ∨
    ∃ l0, Lives pr ops l0 ∧ l = { l0 with past := l0.past ++ [l0.now], now := l0.now.map (moveComp env.predF) } := by
  generalize hN : ops ++ [.predict env t births] = N at h
  cases h with
  | born ops' env' t' births' i b hb =>
    obtain ⟨rfl, h2⟩ := snoc_inj hN
    simp only [Op.predict.injEq] at h2
    obtain ⟨rfl, rfl, rfl⟩ := h2
    exact Or.inl ⟨i, b, hb, rfl⟩
  | moved ops' l0 hl env' t' births' =>
    obtain ⟨rfl, h2⟩ := snoc_inj hN
    simp only [Op.predict.injEq] at h2
    obtain ⟨rfl, rfl, rfl⟩ := h2
    exact Or.inr ⟨l0, hl, rfl⟩
  | missed => exact absurd (snoc_inj hN).2 (by simp)
  | detected => exact absurd (snoc_inj hN).2 (by simp)
  | cleaned => exact absurd (snoc_inj hN).2 (by simp)
  | extracted => exact absurd (snoc_inj hN).2 (by simp)

theorem lives_correct {pr : Params K} {ops : List (Op K τ F S C Z)} {env : Env K τ F S C Z} {meas : List Z}
    {l : Life K τ F S C} (h : Lives pr (ops ++ [.correct env meas]) l) :
    ∃ l0, Lives pr ops l0 ∧ (l = { l0 with assoc := l0.assoc ++ [none] } ∨
      ∃ (j : ℕ) (z : Z) (now' : List (Comp K F S C)), meas[j]? = some z ∧ Updated env.corF pr.eps z l0.now now' ∧
        l = { l0 with assoc := l0.assoc ++ [some j], now := now' }) := by
  generalize hN : ops ++ [.correct env meas] = N at h
  cases h with
  | missed ops' l0 hl env' meas' =>
    obtain ⟨rfl, h2⟩ := snoc_inj hN
    simp only [Op.correct.injEq] at h2
    obtain ⟨rfl, rfl⟩ := h2
    exact ⟨l0, hl, Or.inl rfl⟩
  | detected ops' l0 hl env' meas' j z hz now' hu =>
    obtain ⟨rfl, h2⟩ := snoc_inj hN
    simp only [Op.correct.injEq] at h2
    obtain ⟨rfl, rfl⟩ := h2
    exact ⟨l0, hl, Or.inr ⟨j, z, now', hz, hu, rfl⟩⟩
  | born => exact absurd (snoc_inj hN).2 (by simp)
  | moved => exact absurd (snoc_inj hN).2 (by simp)
  | cleaned => exact absurd (snoc_inj hN).2 (by simp)
  | extracted => exact absurd (snoc_inj hN).2 (by simp)

theorem lives_other {pr : Params K} {ops : List (Op K τ F S C Z)} {o : Op K τ F S C Z}
    {l : Life K τ F S C} (h : Lives pr (ops ++ [o]) l) (h1 : ∀ env t births, o ≠ .predict env t births)
    (h2 : ∀ env meas, o ≠ .correct env meas) : Lives pr ops l := by
  generalize hN : ops ++ [o] = N at h
  cases h with
  | born => exact absurd (snoc_inj hN).2 (h1 _ _ _)
  | moved => exact absurd (snoc_inj hN).2 (h1 _ _ _)
  | missed => exact absurd (snoc_inj hN).2 (h2 _ _)
  | detected => exact absurd (snoc_inj hN).2 (h2 _ _)
  | cleaned ops' l hl => rw [(snoc_inj hN).1]; exact hl
  | extracted ops' l hl => rw [(snoc_inj hN).1]; exact hl

theorem lives_nil {pr : Params K} {l : Life K τ F S C} (h : Lives (Z := Z) pr [] l) : False := by
  generalize hN : ([] : List (Op K τ F S C Z)) = N at h
  cases h <;> simp at hN

/-- **C115, determinacy.** If the `predict` calls have different rounded times (see C15), the label and the
association history of a track determine everything else about it: birth step, states, covariances and
weights of all time steps. -/
theorem C115_determined (pr : Params K) (ops : List (Op K τ F S C Z)) (hdist : (ops.flatMap Op.labels).Nodup)
    (l l' : Life K τ F S C) (h : Lives pr ops l) (h' : Lives pr ops l') (hl : l.label = l'.label)
    (ha : l.assoc = l'.assoc) : l = l' := by
  induction ops using List.reverseRecOn generalizing l l' with
  | nil => exact (lives_nil h).elim
  | append_singleton ops o ih =>
    rw [List.flatMap_append, List.nodup_append] at hdist
    obtain ⟨hd, _, hnew⟩ := hdist
    cases o with
    | predict env t births =>
      have hfresh : ∀ {x : Life K τ F S C}, Lives pr ops x → x.label.1 ≠ t := by
        intro x hx e
        exact hnew _ (lives_label hx) t (by simp [Op.labels]) e
      rcases lives_predict h with ⟨i, b, hb, rfl⟩ | ⟨l0, h0, rfl⟩ <;>
        rcases lives_predict h' with ⟨i', b', hb', rfl⟩ | ⟨l0', h0', rfl⟩
      · simp only [Prod.mk.injEq, true_and] at hl
        subst hl
        rw [hb, Option.some.injEq] at hb'
        rw [hb']
      · exact (hfresh h0' (congrArg Prod.fst hl).symm).elim
      · exact (hfresh h0 (congrArg Prod.fst hl)).elim
      · rw [ih hd l0 l0' h0 h0' hl ha]
    | correct env meas =>
      obtain ⟨l0, h0, g⟩ := lives_correct h
      obtain ⟨l0', h0', g'⟩ := lives_correct h'
      rcases g with rfl | ⟨j, z, now, hz, hu, rfl⟩ <;> rcases g' with rfl | ⟨j', z', now', hz', hu', rfl⟩
      · rw [ih hd l0 l0' h0 h0' hl (snoc_inj ha).1]
      · exact absurd (snoc_inj ha).2 (by simp)
      · exact absurd (snoc_inj ha).2 (by simp)
      · obtain rfl := ih hd l0 l0' h0 h0' hl (snoc_inj ha).1
        have hj := (snoc_inj ha).2
        simp only [Option.some.injEq] at hj
        subst hj
        rw [hz, Option.some.injEq] at hz'
        subst hz'
        rw [updated_unique hu hu']
    | cleanup env bp bc be u c =>
      exact ih hd l l' (lives_other h (by simp) (by simp)) (lives_other h' (by simp) (by simp)) hl ha
    | extract u c =>
      exact ih hd l l' (lives_other h (by simp) (by simp)) (lives_other h' (by simp) (by simp)) hl ha

/-- Whether a call is a `predict`, a `correct`. -/
def isPredict : Op K τ F S C Z → Bool
  | .predict .. => true
  | _ => false

/-- Whether a call is a `correct`. -/
def isCorrect : Op K τ F S C Z → Bool
  | .correct .. => true
  | _ => false

/-- The measurements of a `correct` call. -/
def scanOf : Op K τ F S C Z → Option (List Z)
  | .correct _ meas => some meas
  | _ => none

/-- **C115, lengths.** A track with label `(t, i)` was born with term `i` of a `predict` call at time `t`. Its birth
step is the number of `cleanup` calls before that call, it has one state for that call and one for each later
`predict`, and one association for each later `correct`; at each later `correct` the association is `none` or
the number of one of its measurements. -/
theorem C115_counts (pr : Params K) (heps : 0 < pr.eps) (ops : List (Op K τ F S C Z))
    (hb : ∀ o ∈ ops, ∀ b ∈ birthsOf o, BirthOk b) (st : St K τ F S C) (h : run pr init ops = .ok st)
    (e : Entry K τ F S C) (he : e ∈ st.tab) :
    ∃ (pre : List (Op K τ F S C Z)) (env : Env K τ F S C Z) (births : List (Birth K F S C))
      (post : List (Op K τ F S C Z)), ops = pre ++ .predict env e.label.1 births :: post ∧
      e.label.2 < births.length ∧ e.tIdx = pre.countP endsStep ∧
      e.sHist.length = post.countP isPredict + 1 ∧ e.cHist.length = e.sHist.length ∧
      e.wHist.length = e.sHist.length ∧ e.mHist.length = post.countP isCorrect ∧
      List.Forall₂ (fun (a : Option ℕ) (meas : List Z) => ∀ j, a = some j → j < meas.length) e.mHist
        (post.filterMap scanOf) ∧
      (∀ (k : ℕ) (ws : List K) (ss : List S), e.wHist[k]? = some ws → e.sHist[k]? = some ss →
        ws.length = ss.length) := by
  obtain ⟨l, hl, hs⟩ := C115_track_life pr heps ops hb st h e he
  rw [hs.label, hs.born, hs.states, hs.covs, hs.weights, hs.assoc]
  have : ∃ (pre : List (Op K τ F S C Z)) (env : Env K τ F S C Z) (births : List (Birth K F S C))
      (post : List (Op K τ F S C Z)), ops = pre ++ .predict env l.label.1 births :: post ∧
      l.label.2 < births.length ∧ l.born = pre.countP endsStep ∧
      l.past.length = post.countP isPredict ∧ l.assoc.length = post.countP isCorrect ∧
      List.Forall₂ (fun (a : Option ℕ) (meas : List Z) => ∀ j, a = some j → j < meas.length) l.assoc
        (post.filterMap scanOf) := by
    clear he h hs hb
    induction hl with
    | born ops env t births i b hb =>
      exact ⟨ops, env, births, [], rfl, (List.getElem?_eq_some_iff.1 hb).1, rfl, rfl, rfl, .nil⟩
    | moved ops l h env t births ih =>
      obtain ⟨pre, env', births', post, rfl, h1, h2, h3, h4, h5⟩ := ih
      exact ⟨pre, env', births', post ++ [.predict env t births], by simp, h1, h2,
        by simp [h3, isPredict], by simp [h4, isCorrect], by simpa [List.filterMap_cons, scanOf] using h5⟩
    | missed ops l h env meas ih =>
      obtain ⟨pre, env', births', post, rfl, h1, h2, h3, h4, h5⟩ := ih
      exact ⟨pre, env', births', post ++ [.correct env meas], by simp, h1, h2,
        by simp [h3, isPredict], by simp [h4, isCorrect],
        by
          rw [List.filterMap_append]
          exact List.rel_append h5 (.cons (fun j hj => nomatch hj) .nil)⟩
    | detected ops l h env meas j z hz now' hu ih =>
      obtain ⟨pre, env', births', post, rfl, h1, h2, h3, h4, h5⟩ := ih
      exact ⟨pre, env', births', post ++ [.correct env meas], by simp, h1, h2,
        by simp [h3, isPredict], by simp [h4, isCorrect],
        by
          rw [List.filterMap_append]
          exact List.rel_append h5 (.cons (fun k hk => Option.some.inj hk ▸ (List.getElem?_eq_some_iff.1 hz).1) .nil)⟩
    | cleaned ops l h env bp bc be u c ih =>
      obtain ⟨pre, env', births', post, rfl, h1, h2, h3, h4, h5⟩ := ih
      exact ⟨pre, env', births', post ++ [.cleanup env bp bc be u c], by simp, h1, h2,
        by simp [h3, isPredict], by simp [h4, isCorrect], by simpa [List.filterMap_cons, scanOf] using h5⟩
    | extracted ops l h u c ih =>
      obtain ⟨pre, env', births', post, rfl, h1, h2, h3, h4, h5⟩ := ih
      exact ⟨pre, env', births', post ++ [.extract u c], by simp, h1, h2,
        by simp [h3, isPredict], by simp [h4, isCorrect], by simpa [List.filterMap_cons, scanOf] using h5⟩
  obtain ⟨pre, env, births, post, h0, h1, h2, h3, h4, h4m⟩ := this
  refine ⟨pre, env, births, post, h0, h1, h2, by simp [h3], by simp, by simp, h4, h4m, ?_⟩
  intro k ws ss h5 h6
  rw [List.getElem?_map, Option.map_eq_some_iff] at h5 h6
  obtain ⟨y, hy, rfl⟩ := h5
  obtain ⟨y', hy', rfl⟩ := h6
  rw [hy, Option.some.injEq] at hy'
  subst hy'
  simp

/-! Non-vacuity: a run over the rationals. -/

/-- An environment over the rationals: the inner filter adds 1 in the prediction and moves half way to the measurement
in the update; a positive decreasing function serves as `exp (-x)`. -/
def exTrackEnv : Env ℚ ℕ Unit ℚ Unit ℚ :=
  { num := ⟨fun x => x, fun x => 1 - x, fun x => if x ≤ 0 then 1 - x else 1 / (1 + x)⟩
    sortInds := fun _ _ => Equiv.refl _
    argsort := fun ws => (List.range ws.length).insertionSort fun i j => (ws[i]?).getD 0 ≤ (ws[j]?).getD 0
    predF := fun _ s => ((), s + 1, ())
    corF := fun z _ s w => some ((), (s + z) / 2, (), w / 2)
    psurv := fun _ => 9 / 10
    pdet := fun _ => 9 / 10 }

/-- Parameters of the example. -/
def exTrackPr : Params ℚ := ⟨2, 2, 3, 0, 10, 1, 1, 1 / 1000, 1000⟩

/-- Two time steps with one birth term each and two measurements, then one. -/
def exTrackOps : List (Op ℚ ℕ Unit ℚ Unit ℚ) :=
  [.predict exTrackEnv 0 [⟨[()], [1], [0], [()], 9 / 10⟩], .correct exTrackEnv [4, 8],
   .cleanup exTrackEnv true true true true true,
   .predict exTrackEnv 1 [⟨[()], [1], [10], [()], 9 / 10⟩], .correct exTrackEnv [6]]

/-- The hypotheses of the theorems of C115 hold for `exTrackOps`; after it the table contains, among others, a track
of the first birth term that made the second measurement of the first step (state `(0 + 8) / 2 = 4`) and was
missed in the second step (state `4 + 1`). -/
example : (0 : ℚ) < exTrackPr.eps ∧ (∀ o ∈ exTrackOps, ∀ b ∈ birthsOf o, BirthOk b) ∧
    (exTrackOps.flatMap Op.labels).Nodup ∧
    ∃ st, run exTrackPr init exTrackOps = .ok st ∧
      ∃ e ∈ st.tab, e.label = (0, 0) ∧ e.tIdx = 0 ∧ e.mHist = [some 1, none] ∧ e.sHist = [[4], [5]] := by
  refine ⟨by decide +kernel, ?_, by decide, ?_⟩
  · intro o ho b hb
    simp only [exTrackOps, List.mem_cons, List.not_mem_nil, or_false] at ho
    rcases ho with rfl | rfl | rfl | rfl | rfl <;> simp only [birthsOf, List.mem_singleton, List.not_mem_nil] at hb <;>
      subst hb <;> exact ⟨rfl, rfl, rfl⟩
  · have : (run exTrackPr init exTrackOps).toOption.any (fun st => st.tab.any fun e =>
        e.label == (0, 0) && e.tIdx == 0 && e.mHist == [some 1, none] && e.sHist == [[4], [5]]) = true := by
      decide +kernel
    cases hr : run exTrackPr init exTrackOps with
    | error e => rw [hr] at this; simp [Except.toOption] at this
    | ok st =>
      rw [hr] at this
      simp only [Except.toOption, Option.any_some, List.any_eq_true, Bool.and_eq_true, beq_iff_eq] at this
      obtain ⟨e, he, ⟨⟨h1, h2⟩, h3⟩, h4⟩ := this
      exact ⟨st, rfl, e, he, h1, h2, h3, h4⟩

end Gasur.Props
