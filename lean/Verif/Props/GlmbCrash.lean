import Verif.Model.GlmbCrash
import Verif.Props.PhdCrash
import Verif.Props.NoTrace
import Verif.Props.GlmbDistinct

/-!
# C145: GLMB filter calls that raise
-/

namespace Gasur.Props.GlmbCrash

open Gasur.Crash Gasur.GlmbCrash Gasur.Glmb Gasur.Spec Gasur.Props.PhdCrash Gasur.Props.GlmbTrace

variable {K τ F S C Z : Type*}

/-! ### Vocabulary -/

/-- The call of `Verif/Model/Glmb.lean`. -/
def plain : GOp K τ F S C Z → Glmb.Op K τ F S C Z
  | .predict env _ lab b => .predict env lab b
  | .correct env _ z => .correct env z
  | .cleanup env bp bc be u c => .cleanup env bp bc be u c
  | .extract u c => .extract u c

/-- What is left of a sequence of calls: the `predict` and `correct` calls that ended normally and all clean-ups, without
extraction. -/
def remaining : List (GOp K τ F S C Z) → List Bool → List (Glmb.Op K τ F S C Z)
  | .predict env _ lab b :: os, true :: fs => .predict env lab b :: remaining os fs
  | .correct env _ z :: os, true :: fs => .correct env z :: remaining os fs
  | .cleanup env bp bc _ _ _ :: os, _ :: fs => .cleanup env bp bc false false false :: remaining os fs
  | _ :: os, _ :: fs => remaining os fs
  | _, _ => []

/-- The sorting routine sorts. -/
def Sorting [LinearOrder K] : GOp K τ F S C Z → Prop
  | .cleanup env _ _ _ _ _ => ∀ ws, IsArgsort ws (env.argsort ws)
  | _ => True

/-- The measurements that a call records. -/
def recorded (save : Bool) : GOp K τ F S C Z → List (List Z)
  | .correct _ _ z => if save then [z] else []
  | _ => []

/-! ### Expressions -/

theorem ofE_ok {α : Type*} {x : Except GErr α} {a : α} (h : ofE x = .ok a) : x = .ok a := by
  unfold ofE at h
  split at h <;> cases h
  rfl

theorem eachE_ok {α β : Type*} {f : α → Res β} {g : α → Except GErr β} (hfg : ∀ a b, f a = .ok b → g a = .ok b) :
    ∀ {l : List α} {r : List β}, eachE f l = .ok r → traverseE g l = .ok r
  | [], r, h => by
    cases h
    rfl
  | a :: l, r, h => by
    unfold eachE at h
    cases h1 : f a with
    | raised => rw [h1] at h; cases h
    | nan => rw [h1] at h; cases h
    | ok b =>
      rw [h1] at h
      dsimp only at h
      cases h2 : eachE f l with
      | raised => rw [h2] at h; cases h
      | nan => rw [h2] at h; cases h
      | ok r' =>
        rw [h2] at h
        cases h
        unfold traverseE
        rw [hfg a b h1]
        dsimp only
        rw [eachE_ok hfg h2]

theorem evalThen_ok {σ α β : Type*} {r : Res α} {f : α → M σ β} {s s' : σ} {b : β}
    (h : andThen (eval r) f s = (s', .ok b)) : ∃ a, r = .ok a ∧ f a s = (s', .ok b) := by
  obtain ⟨s1, a, h1, h2⟩ := andThen_ok h
  obtain ⟨rfl, rfl⟩ := Prod.mk.inj h1
  exact ⟨a, rfl, h2⟩

theorem evalThen_raised {σ α β : Type*} {r : Res α} {f : α → M σ β} {s s' : σ}
    (h : andThen (eval r) f s = (s', .raised)) : (r = .raised ∧ s' = s) ∨ ∃ a, r = .ok a ∧ f a s = (s', .raised) := by
  rcases andThen_raised h with h1 | ⟨s1, a, h1, h2⟩
  · obtain ⟨rfl, rfl⟩ := Prod.mk.inj h1
    exact .inl ⟨rfl, rfl⟩
  · obtain ⟨rfl, rfl⟩ := Prod.mk.inj h1
    exact .inr ⟨a, rfl, h2⟩

section field
variable [Field K] [LinearOrder K] [IsStrictOrderedRing K]

omit [IsStrictOrderedRing K] in
theorem norm_not_raised {hyps : List (Hyp K)} (h : ofE (normHyps hyps) = .raised) : False := by
  unfold normHyps at h
  split at h <;> cases h

omit [IsStrictOrderedRing K] in
theorem norm_cases (hyps : List (Hyp K)) : normHyps hyps = .error .nan ∨ ∃ hs, normHyps hyps = .ok hs := by
  unfold normHyps
  split
  · exact .inl rfl
  · exact .inr ⟨_, rfl⟩

omit [IsStrictOrderedRing K] in
theorem entPred_ok {env : Env K τ F S C Z} {fl : Faults K F S Z} {e e' : Entry K τ F S C}
    (h : entPred env fl e = .ok e') : predictEntry env e = .ok e' := by
  unfold entPred at h
  split at h
  · cases h
  · exact ofE_ok h

omit [IsStrictOrderedRing K] in
theorem blockCor_ok {env : Env K τ F S C Z} {fl : Faults K F S Z} {pr : Params K} {tab : List (Entry K τ F S C)}
    {ze : Z × ℕ} {r} (h : blockCor env fl pr tab ze = .ok r) : corBlock env pr tab ze = .ok r := by
  unfold blockCor at h
  cases h1 : eachE (entCor env fl pr ze.1) tab with
  | raised => rw [h1] at h; cases h
  | nan => rw [h1] at h; cases h
  | ok l =>
    rw [h1] at h
    cases h
    unfold corBlock
    rw [eachE_ok (g := correctEntry env pr ze.1) (fun a b hab => by
      unfold entCor at hab
      split at hab
      · cases hab
      · exact ofE_ok hab) h1]

variable [FloorRing K]

/-! ### `predict` -/

omit [IsStrictOrderedRing K] in
theorem gPredict_ok {env : Env K τ F S C Z} {fl : Faults K F S Z} {pr : Params K} {lab : τ}
    {births : List (Birth K F S C)} {s s' : GObj K τ F S C Z} (h : gPredict env fl pr lab births s = (s', .ok ())) :
    predict env pr lab births s.st = .ok s'.st ∧ s'.meas = s.meas ∧ s'.holes = s.holes := by
  unfold gPredict at h
  rw [andThen_of_ok (s1 := s) (a := s.st) rfl] at h
  obtain ⟨costs, h1, h⟩ := evalThen_ok h
  split at h1
  · cases h1
  obtain ⟨paths, h2, h⟩ := evalThen_ok h
  obtain ⟨bh, h3, h⟩ := evalThen_ok h
  obtain ⟨survTab, h4, h⟩ := evalThen_ok h
  obtain ⟨sh, h5, h⟩ := evalThen_ok h
  obtain ⟨s6, u, h6, h⟩ := andThen_ok h
  cases h6
  obtain ⟨s7, u, h7, h⟩ := andThen_ok h
  cases h7
  obtain ⟨hs, h8, h⟩ := evalThen_ok h
  cases h
  unfold predict
  rw [ofE_ok h1]
  dsimp only
  rw [ofE_ok h2]
  dsimp only
  rw [ofE_ok h3]
  dsimp only
  rw [eachE_ok (fun a b hab => entPred_ok hab) h4]
  dsimp only
  rw [ofE_ok h5]
  dsimp only
  rw [ofE_ok h8]
  exact ⟨rfl, rfl, rfl⟩

omit [IsStrictOrderedRing K] in
theorem gPredict_raised {env : Env K τ F S C Z} {fl : Faults K F S Z} {pr : Params K} {lab : τ}
    {births : List (Birth K F S C)} {s s' : GObj K τ F S C Z} (h : gPredict env fl pr lab births s = (s', .raised)) :
    s' = s := by
  unfold gPredict at h
  rw [andThen_of_ok (s1 := s) (a := s.st) rfl] at h
  rcases evalThen_raised h with ⟨-, h1⟩ | ⟨costs, -, h⟩
  · exact h1
  rcases evalThen_raised h with ⟨-, h1⟩ | ⟨paths, -, h⟩
  · exact h1
  rcases evalThen_raised h with ⟨-, h1⟩ | ⟨bh, -, h⟩
  · exact h1
  rcases evalThen_raised h with ⟨-, h1⟩ | ⟨survTab, -, h⟩
  · exact h1
  rcases evalThen_raised h with ⟨-, h1⟩ | ⟨sh, -, h⟩
  · exact h1
  exfalso
  rcases andThen_raised h with h1 | ⟨s1, u, h1, h⟩
  · cases h1
  rcases andThen_raised h with h1 | ⟨s1, u, h1, h⟩
  · cases h1
  rcases evalThen_raised h with ⟨h1, -⟩ | ⟨hs, -, h⟩
  · exact norm_not_raised h1
  · cases h

/-! ### `correct` -/

omit [IsStrictOrderedRing K] in
theorem gCorrect_ok {env : Env K τ F S C Z} {fl : Faults K F S Z} {pr : Params K} {save : Bool} {meas : List Z}
    {s s' : GObj K τ F S C Z} (h : gCorrect env fl pr save meas s = (s', .ok ())) :
    correct env pr meas s.st = .ok s'.st ∧ s'.meas = s.meas ++ (if save then [meas] else []) ∧ s'.holes = none := by
  unfold gCorrect at h
  obtain ⟨s0, u, h0, h⟩ := andThen_ok h
  have e0 : s0 = { s with meas := s.meas ++ (if save then [meas] else []) } := by
    cases save with
    | true => cases h0; rfl
    | false =>
      cases h0
      simp
  subst e0
  rw [andThen_of_ok (s1 := ({ s with meas := s.meas ++ (if save then [meas] else []) } : GObj K τ F S C Z))
    (a := s.st) rfl] at h
  obtain ⟨blocks, h1, h⟩ := evalThen_ok h
  obtain ⟨hs, h2, h⟩ := evalThen_ok h
  obtain ⟨s3, u, h3, h⟩ := andThen_ok h
  cases h3
  obtain ⟨s4, u, h4, h⟩ := andThen_ok h
  cases h4
  obtain ⟨s5, u, h5, h⟩ := andThen_ok h
  cases h5
  obtain ⟨th, h6, h⟩ := evalThen_ok h
  cases h
  unfold correct corBlocks
  rw [eachE_ok (fun a b hab => blockCor_ok hab) h1]
  dsimp only
  rw [ofE_ok h2]
  dsimp only
  rw [ofE_ok h6]
  exact ⟨rfl, rfl, rfl⟩

theorem gCorrect_raised {env : Env K τ F S C Z} {fl : Faults K F S Z} {pr : Params K} {save : Bool} {meas : List Z}
    {s s' : GObj K τ F S C Z} (hI : ∀ h ∈ s.st.hyps, ∀ i ∈ h.tracks, i < s.st.tab.length)
    (h : gCorrect env fl pr save meas s = (s', .raised)) :
    s' = { s with meas := s.meas ++ (if save then [meas] else []) } := by
  unfold gCorrect at h
  rcases andThen_raised h with h1 | ⟨s0, u, h0, h⟩
  · cases save <;> cases h1
  have e0 : s0 = { s with meas := s.meas ++ (if save then [meas] else []) } := by
    cases save with
    | true => cases h0; rfl
    | false =>
      cases h0
      simp
  subst e0
  rw [andThen_of_ok (s1 := ({ s with meas := s.meas ++ (if save then [meas] else []) } : GObj K τ F S C Z))
    (a := s.st) rfl] at h
  rcases evalThen_raised h with ⟨-, h1⟩ | ⟨blocks, hb, h⟩
  · exact h1
  rcases evalThen_raised h with ⟨-, h1⟩ | ⟨hs, hh, h⟩
  · exact h1
  exfalso
  rcases andThen_raised h with h1 | ⟨s1, u, h1, h⟩
  · cases h1
  rcases andThen_raised h with h1 | ⟨s1, u, h1, h⟩
  · cases h1
  rcases andThen_raised h with h1 | ⟨s1, u, h1, h⟩
  · cases h1
  rcases evalThen_raised h with ⟨h1, -⟩ | ⟨th, -, h⟩
  · have hbl : corBlocks env pr s.st.tab meas = .ok blocks := eachE_ok (fun a b hab => blockCor_ok hab) hb
    obtain ⟨b1, b2, b3⟩ := corBlocks_ok hbl
    have hrange : ∀ x ∈ hs, ∀ i ∈ x.tracks, i < (upTab s.st.tab blocks).length := by
      intro x hx i hi
      obtain ⟨p, hp, a, a1, _, a3⟩ := corHyps_mem (ofE_ok hh) hx
      rw [a3] at hi
      obtain ⟨t, _, rfl⟩ := List.mem_map.1 hi
      rw [upTab_length b2]
      have h1 := hI p hp p.tracks[t] (List.getElem_mem _)
      have h2 := Nat.mul_le_mul_left s.st.tab.length (a1 t)
      rw [Nat.mul_succ]
      omega
    unfold cleanUpd at h1
    rw [if_neg] at h1
    · cases h1
    · intro hc
      rw [List.any_eq_true] at hc
      obtain ⟨x, hx, hc⟩ := hc
      rw [List.any_eq_true] at hc
      obtain ⟨i, hi, hc⟩ := hc
      have := hrange x hx i hi
      simp at hc
      omega
  · cases h

/-! ### `cleanup` -/

omit [IsStrictOrderedRing K] in
theorem gPrune_eq (pr : Params K) (s : GObj K τ F S C Z) :
    (∃ t, prune pr s.st = .ok t ∧ gPrune pr s = ({ s with st := t }, .ok ())) ∨ (gPrune pr s).2 = .nan := by
  unfold gPrune prune
  rw [andThen_of_ok (s1 := ({ s with st := { s.st with hyps := s.st.hyps.filter fun h => decide (pr.pruneThreshold < h.prob) } } : GObj K τ F S C Z)) (a := ()) rfl]
  rw [andThen_of_ok (s1 := ({ s with st := { s.st with hyps := s.st.hyps.filter fun h => decide (pr.pruneThreshold < h.prob) } } : GObj K τ F S C Z)) (a := s.st.hyps.filter fun h => decide (pr.pruneThreshold < h.prob)) rfl]
  rcases norm_cases (s.st.hyps.filter fun h => decide (pr.pruneThreshold < h.prob)) with hn | ⟨hs, hn⟩
  · rw [hn]
    exact .inr rfl
  · rw [hn]
    exact .inl ⟨_, rfl, rfl⟩

omit [IsStrictOrderedRing K] in
theorem gCap_eq {env : Env K τ F S C Z} (ha : ∀ ws, IsArgsort ws (env.argsort ws)) (pr : Params K)
    (s : GObj K τ F S C Z) :
    (∃ t, cap env pr s.st = .ok t ∧ gCap env pr s = ({ s with st := t }, .ok ())) ∨ (gCap env pr s).2 = .nan := by
  unfold gCap cap
  rw [andThen_of_ok (s1 := s) (a := s.st.hyps) rfl]
  split
  · obtain ⟨kept, hk⟩ := traverseE_total (getE s.st.hyps)
      (((env.argsort (s.st.hyps.map fun h => h.prob)).reverse).take pr.maxHyps) (by
        intro i hi
        have h1 := (ha (s.st.hyps.map fun h => h.prob)).1.mem_iff.1 (List.mem_reverse.1 (List.mem_of_mem_take hi))
        rw [List.length_map, List.mem_range] at h1
        unfold getE
        rw [List.getElem?_eq_getElem h1]
        exact ⟨_, rfl⟩)
    rw [hk]
    dsimp only [ofE]
    rw [andThen_of_ok (s1 := s) (a := kept) rfl]
    rcases norm_cases kept with hn | ⟨hs, hn⟩
    · rw [hn]
      exact .inr rfl
    · rw [hn]
      exact .inl ⟨_, rfl, rfl⟩
  · exact .inl ⟨_, rfl, rfl⟩

/-! ### `extract_states` -/

omit [Field K] [LinearOrder K] [IsStrictOrderedRing K] [FloorRing K] in
theorem gReportOne_frame (cntr : ℕ) (label : τ × ℕ) (tIdx : ℕ) : ∀ (l : List ((S × C) × ℕ)) (s : GObj K τ F S C Z),
    ∃ r : List (List S) × List (List (τ × ℕ)) × List (List C),
      (gReportOne cntr label tIdx l s = ({ s with st := { s.st with states := r.1, labels := r.2.1, covs := r.2.2 } }, .ok ()) ∧
        reportOne cntr label tIdx l (s.st.states, s.st.labels, s.st.covs) = .ok r) ∨
      gReportOne cntr label tIdx l s = ({ s with st := { s.st with states := r.1, labels := r.2.1, covs := r.2.2 } }, .raised)
  | [], s => ⟨(s.st.states, s.st.labels, s.st.covs), .inl ⟨rfl, rfl⟩⟩
  | ((x, c), k) :: l, s => by
    unfold gReportOne reportOne
    by_cases h : tIdx + k < cntr
    · rw [if_pos h, if_pos h]
      exact gReportOne_frame cntr label tIdx l
        { s with st := { s.st with
          states := appendAt s.st.states (tIdx + k) x
          labels := appendAt s.st.labels (tIdx + k) label
          covs := appendAt s.st.covs (tIdx + k) c } }
    · rw [if_neg h]
      exact ⟨(s.st.states, s.st.labels, s.st.covs), .inr rfl⟩

omit [Field K] [LinearOrder K] [IsStrictOrderedRing K] [FloorRing K] in
theorem gReport_frame (cntr : ℕ) : ∀ (es : List (Ext τ S C)) (s : GObj K τ F S C Z),
    ∃ r : List (List S) × List (List (τ × ℕ)) × List (List C),
      (gReport cntr es s = ({ s with st := { s.st with states := r.1, labels := r.2.1, covs := r.2.2 } }, .ok ()) ∧
        report cntr es (s.st.states, s.st.labels, s.st.covs) = .ok r) ∨
      gReport cntr es s = ({ s with st := { s.st with states := r.1, labels := r.2.1, covs := r.2.2 } }, .raised)
  | [], s => ⟨(s.st.states, s.st.labels, s.st.covs), .inl ⟨rfl, rfl⟩⟩
  | e :: es, s => by
    unfold gReport report
    obtain ⟨r1, h1 | h1⟩ := gReportOne_frame (Z := Z) cntr e.label e.tIdx (e.states.zip e.covs).zipIdx s
    · rw [andThen_of_ok h1.1, h1.2]
      exact gReport_frame cntr es { s with st := { s.st with states := r1.1, labels := r1.2.1, covs := r1.2.2 } }
    · refine ⟨r1, .inr ?_⟩
      unfold andThen
      rw [h1]

variable [DecidableEq τ]

/-- The filter proper and the tables that extraction does not touch. -/
def Kept (s s' : GObj K τ F S C Z) : Prop :=
  s'.st.tab = s.st.tab ∧ s'.st.hyps = s.st.hyps ∧ s'.st.card = s.st.card ∧ s'.st.cntr = s.st.cntr ∧
    s'.meas = s.meas ∧ s'.holes = s.holes

omit [IsStrictOrderedRing K] [FloorRing K] in
theorem gExtract_frame (u c : Bool) (s : GObj K τ F S C Z) :
    Kept s (gExtract u c s).1 ∧
      ((gExtract u c s).2 = .ok () → ∃ i, extract u c s.st = .ok ((gExtract u c s).1.st, i)) := by
  unfold gExtract extract
  rw [andThen_of_ok (s1 := s) (a := s.st) rfl]
  cases hc : argmaxE s.st.card with
  | error e =>
    have : ∀ {β : Type _} (f : ℕ → M (GObj K τ F S C Z) β), (andThen (eval (ofE (.error e))) f s).1 = s ∧
        ∀ b, (andThen (eval (ofE (.error e))) f s).2 ≠ .ok b := by
      intro β f
      cases e <;> exact ⟨rfl, fun b hb => by cases hb⟩
    refine ⟨by rw [(this _).1]; exact ⟨rfl, rfl, rfl, rfl, rfl, rfl⟩, fun h => absurd h ((this _).2 _)⟩
  | ok card =>
    rw [andThen_of_ok (s1 := s) (a := card) rfl]
    let b : GObj K τ F S C Z := { s with st := { s.st with
      states := List.replicate s.st.cntr [], labels := List.replicate s.st.cntr []
      covs := List.replicate s.st.cntr [] } }
    rw [andThen_of_ok (s1 := ({ s with st := { s.st with states := List.replicate s.st.cntr [] } } : GObj K τ F S C Z))
      (a := ()) rfl]
    rw [andThen_of_ok (s1 := ({ s with st := { s.st with states := List.replicate s.st.cntr [], labels := List.replicate s.st.cntr [] } } : GObj K τ F S C Z))
      (a := ()) rfl]
    rw [andThen_of_ok (s1 := b) (a := ()) rfl]
    have hb : Kept s b := ⟨rfl, rfl, rfl, rfl, rfl, rfl⟩
    dsimp only
    by_cases hh : s.st.hyps = []
    · rw [if_pos hh, if_pos hh]
      exact ⟨hb, fun _ => ⟨none, rfl⟩⟩
    · rw [if_neg hh, if_neg hh]
      cases hi : argmaxE (maskedWeights card s.st.hyps) with
      | error e =>
        have : ∀ {β : Type _} (f : ℕ → M (GObj K τ F S C Z) β), (andThen (eval (ofE (.error e))) f b).1 = b ∧
            ∀ x, (andThen (eval (ofE (.error e))) f b).2 ≠ .ok x := by
          intro β f
          cases e <;> exact ⟨rfl, fun b hb => by cases hb⟩
        refine ⟨by rw [(this _).1]; exact hb, fun h => absurd h ((this _).2 _)⟩
      | ok idx =>
        rw [andThen_of_ok (s1 := b) (a := idx) rfl]
        dsimp only
        have hup : (∃ ext, (if u then updateExt b.st idx else .ok b.st.ext) = .ok ext ∧
            when u (andThen (eval (ofE (updateExt s.st idx))) fun ext =>
              setSt fun x => { x with ext := ext }) b = ({ b with st := { b.st with ext := ext } }, .ok ())) ∨
            (∀ {β : Type _} (f : Unit → M (GObj K τ F S C Z) β),
              (andThen (when u (andThen (eval (ofE (updateExt s.st idx))) fun ext =>
                setSt fun x => { x with ext := ext })) f b).1 = b ∧
              ∀ x, (andThen (when u (andThen (eval (ofE (updateExt s.st idx))) fun ext =>
                setSt fun x => { x with ext := ext })) f b).2 ≠ .ok x) := by
          cases u with
          | false => exact .inl ⟨b.st.ext, rfl, rfl⟩
          | true =>
            have e1 : updateExt b.st idx = updateExt s.st idx := rfl
            cases hu : updateExt s.st idx with
            | error e =>
              refine .inr ?_
              intro β f
              cases e <;> exact ⟨rfl, fun b hb => by cases hb⟩
            | ok ext =>
              refine .inl ⟨ext, ?_, rfl⟩
              rw [if_pos rfl, e1, hu]
        rcases hup with ⟨ext, hu1, hu2⟩ | hup
        · rw [andThen_of_ok hu2]
          have hu1' : (if u then updateExt { s.st with
              states := List.replicate s.st.cntr [], labels := List.replicate s.st.cntr []
              covs := List.replicate s.st.cntr [] } idx else .ok s.st.ext) = .ok ext := hu1
          rw [hu1']
          dsimp only
          rw [andThen_of_ok (s1 := ({ b with st := { b.st with ext := ext } } : GObj K τ F S C Z)) (a := ext) rfl]
          cases c with
          | false => exact ⟨hb, fun _ => ⟨some idx, rfl⟩⟩
          | true =>
            obtain ⟨r, h1 | h1⟩ := gReport_frame (Z := Z) s.st.cntr ext { b with st := { b.st with ext := ext } }
            · have h1' : when true (gReport s.st.cntr ext) ({ b with st := { b.st with ext := ext } } : GObj K τ F S C Z) = _ := h1.1
              rw [h1']
              refine ⟨hb, fun _ => ⟨some idx, ?_⟩⟩
              have h2 : report s.st.cntr ext (List.replicate s.st.cntr [], List.replicate s.st.cntr [],
                List.replicate s.st.cntr []) = .ok r := h1.2
              rw [if_pos rfl, h2]
            · have h1' : when true (gReport s.st.cntr ext) ({ b with st := { b.st with ext := ext } } : GObj K τ F S C Z) = _ := h1
              rw [h1']
              exact ⟨hb, fun h => by cases h⟩
        · refine ⟨by rw [(hup _).1]; exact hb, fun h => absurd h ((hup _).2 _)⟩

/-! ### `cleanup` -/

theorem gCleanup_eq {env : Env K τ F S C Z} (ha : ∀ ws, IsArgsort ws (env.argsort ws)) {pr : Params K}
    {bp bc be u c : Bool} {s s' : GObj K τ F S C Z} {r : Res Unit}
    (h : gCleanup env pr bp bc be u c s = (s', r)) (hr : r ≠ .nan) :
    ∃ t, cleanup env pr bp bc false false false s.st = .ok t ∧ Core t s'.st ∧ s'.meas = s.meas ∧ s'.holes = s.holes ∧
      (r = .ok () → cleanup env pr bp bc be u c s.st = .ok s'.st) ∧ (r = .raised → be = true) := by
  unfold gCleanup at h
  rw [andThen_of_ok (s1 := ({ s with st := { s.st with cntr := s.st.cntr + 1 } } : GObj K τ F S C Z)) (a := ()) rfl] at h
  have k1 : (∃ t1, (if bp then prune pr { s.st with cntr := s.st.cntr + 1 } else .ok { s.st with cntr := s.st.cntr + 1 }) =
      .ok t1 ∧ when bp (gPrune pr) ({ s with st := { s.st with cntr := s.st.cntr + 1 } } : GObj K τ F S C Z) =
        ({ s with st := t1 }, .ok ())) ∨
      (when bp (gPrune pr) ({ s with st := { s.st with cntr := s.st.cntr + 1 } } : GObj K τ F S C Z)).2 = .nan := by
    cases bp with
    | false => exact .inl ⟨_, rfl, rfl⟩
    | true => exact gPrune_eq pr ({ s with st := { s.st with cntr := s.st.cntr + 1 } } : GObj K τ F S C Z)
  rcases k1 with ⟨t1, g1, e1⟩ | k1
  · rw [andThen_of_ok e1] at h
    have k2 : (∃ t2, (if bc then cap env pr t1 else .ok t1) = .ok t2 ∧
        when bc (gCap env pr) ({ s with st := t1 } : GObj K τ F S C Z) = ({ s with st := t2 }, .ok ())) ∨
        (when bc (gCap env pr) ({ s with st := t1 } : GObj K τ F S C Z)).2 = .nan := by
      cases bc with
      | false => exact .inl ⟨_, rfl, rfl⟩
      | true => exact gCap_eq ha pr ({ s with st := t1 } : GObj K τ F S C Z)
    rcases k2 with ⟨t2, g2, e2⟩ | k2
    · rw [andThen_of_ok e2] at h
      have hc : ∀ be u c, cleanup env pr bp bc be u c s.st = (if be then
          match extract u c t2 with
          | .error e => .error e
          | .ok (s3, _) => .ok s3
          else .ok t2) := by
        intro be u c
        unfold cleanup
        rw [g1]
        dsimp only
        rw [g2]
        cases be with
        | false => rfl
        | true =>
          dsimp only
          rw [if_pos rfl, if_pos rfl]
          cases extract u c t2 <;> rfl
      refine ⟨t2, by rw [hc]; rfl, ?_⟩
      cases be with
      | false =>
        cases h
        exact ⟨⟨rfl, rfl, rfl, rfl⟩, rfl, rfl, fun _ => by rw [hc]; rfl, fun h => by cases h⟩
      | true =>
        have h' : gExtract u c ({ s with st := t2 } : GObj K τ F S C Z) = (s', r) := h
        obtain ⟨f1, f2⟩ := gExtract_frame u c ({ s with st := t2 } : GObj K τ F S C Z)
        rw [h'] at f1 f2
        refine ⟨⟨f1.1.symm, f1.2.1.symm, f1.2.2.1.symm, f1.2.2.2.1.symm⟩, f1.2.2.2.2.1, f1.2.2.2.2.2, ?_, fun _ => rfl⟩
        intro hr'
        obtain ⟨i, hi⟩ := f2 hr'
        rw [hc, if_pos rfl]
        have hi' : extract u c t2 = .ok (s'.st, i) := hi
        rw [hi']
    · exfalso
      unfold andThen at h
      cases hx : when bc (gCap env pr) ({ s with st := t1 } : GObj K τ F S C Z) with
      | mk a b =>
        rw [hx] at k2 h
        dsimp only at k2
        subst k2
        exact hr (congrArg Prod.snd h).symm
  · exfalso
    unfold andThen at h
    cases hx : when bp (gPrune pr) ({ s with st := { s.st with cntr := s.st.cntr + 1 } } : GObj K τ F S C Z) with
    | mk a b =>
      rw [hx] at k1 h
      dsimp only at k1
      subst k1
      exact hr (congrArg Prod.snd h).symm

/-! ### A history of calls -/

theorem gCall_ok {pr : Params K} {save : Bool} {o : GOp K τ F S C Z} (ho : Sorting o) {s s' : GObj K τ F S C Z}
    (h : gCall pr save o s = (s', .ok ())) : step pr s.st (plain o) = .ok s'.st := by
  cases o with
  | predict env fl lab b => exact (gPredict_ok h).1
  | correct env fl z => exact (gCorrect_ok h).1
  | cleanup env bp bc be u c =>
    obtain ⟨t, -, -, -, -, h1, -⟩ := gCleanup_eq ho h (by simp)
    exact h1 rfl
  | extract u c =>
    obtain ⟨-, h1⟩ := gExtract_frame u c s
    have h' : gExtract u c s = (s', .ok ()) := h
    rw [h'] at h1
    obtain ⟨i, hi⟩ := h1 rfl
    have hi' : extract u c s.st = .ok (s'.st, i) := hi
    simp only [plain, step]
    rw [hi']

omit [IsStrictOrderedRing K] in
theorem gPlay_cons {pr : Params K} {save : Bool} {s s' : GObj K τ F S C Z} {o : GOp K τ F S C Z}
    {os : List (GOp K τ F S C Z)} {fl : List Bool} (h : gPlay pr save s (o :: os) = some (s', fl)) :
    ∃ s1 fl', gPlay pr save s1 os = some (s', fl') ∧
      ((gCall pr save o s = (s1, .ok ()) ∧ fl = true :: fl') ∨
        (gCall pr save o s = (s1, .raised) ∧ fl = false :: fl')) := by
  unfold gPlay at h
  split at h
  · cases h
  · rename_i s1 h1
    cases h2 : gPlay pr save s1 os with
    | none => rw [h2] at h; cases h
    | some r =>
      rw [h2] at h
      obtain ⟨rfl, rfl⟩ := Prod.mk.inj (Option.some.inj h)
      exact ⟨s1, r.2, h2, .inr ⟨h1, rfl⟩⟩
  · rename_i s1 u h1
    cases h2 : gPlay pr save s1 os with
    | none => rw [h2] at h; cases h
    | some r =>
      rw [h2] at h
      obtain ⟨rfl, rfl⟩ := Prod.mk.inj (Option.some.inj h)
      exact ⟨s1, r.2, h2, .inl ⟨h1, rfl⟩⟩

theorem run_cons_ok {pr : Params K} {t t1 t2 : St K τ F S C} {o : Glmb.Op K τ F S C Z} {os : List (Glmb.Op K τ F S C Z)}
    (h1 : step pr t o = .ok t1) (h2 : run pr t1 os = .ok t2) : run pr t (o :: os) = .ok t2 := by
  simp only [run]
  rw [h1]
  exact h2

/-- One call, seen from the run of the remaining calls. -/
theorem gCall_core {pr : Params K} (heps : 0 < pr.eps) {save : Bool} {o : GOp K τ F S C Z} (ho : Sorting o)
    {s s1 : GObj K τ F S C Z} {t : St K τ F S C} (hI : IdxInv t) (hR : Core t s.st) (hh : s.holes = none) {b : Bool}
    (h : (gCall pr save o s = (s1, .ok ()) ∧ b = true) ∨ (gCall pr save o s = (s1, .raised) ∧ b = false)) :
    s1.meas = s.meas ++ recorded save o ∧ s1.holes = none ∧
    ∃ t1, IdxInv t1 ∧ Core t1 s1.st ∧ ∀ (os : List (GOp K τ F S C Z)) (fl : List Bool) (t2 : St K τ F S C),
      run pr t1 (remaining os fl) = .ok t2 → run pr t (remaining (o :: os) (b :: fl)) = .ok t2 := by
  cases o with
  | predict env flt lab bs =>
    rcases h with ⟨h, rfl⟩ | ⟨h, rfl⟩
    · obtain ⟨g1, g2, g3⟩ := gPredict_ok h
      obtain ⟨t1, p1, p2⟩ := predict_core g1 hR
      refine ⟨by simp [recorded, g2], g3.trans hh, t1, step_idx heps (.predict env lab bs) hI p1, p2, ?_⟩
      intro os fl t2 h2
      exact run_cons_ok (o := .predict env lab bs) p1 h2
    · have := gPredict_raised h
      subst this
      exact ⟨by simp [recorded], hh, t, hI, hR, fun os fl t2 h2 => h2⟩
  | correct env flt z =>
    rcases h with ⟨h, rfl⟩ | ⟨h, rfl⟩
    · obtain ⟨g1, g2, g3⟩ := gCorrect_ok h
      obtain ⟨t1, p1, p2⟩ := correct_core g1 hR
      refine ⟨g2, g3, t1, step_idx heps (.correct env z) hI p1, p2, ?_⟩
      intro os fl t2 h2
      exact run_cons_ok (o := .correct env z) p1 h2
    · have := gCorrect_raised (by
        intro a ha i hi
        rw [← hR.2.1] at ha
        rw [← hR.1]
        exact hI.range a ha i hi) h
      subst this
      exact ⟨rfl, hh, t, hI, hR, fun os fl t2 h2 => h2⟩
  | cleanup env bp bc be u c =>
    obtain ⟨r, hr, h'⟩ : ∃ r : Res Unit, r ≠ .nan ∧ gCleanup env pr bp bc be u c s = (s1, r) := by
      rcases h with ⟨h, -⟩ | ⟨h, -⟩
      · exact ⟨_, by simp, h⟩
      · exact ⟨_, by simp, h⟩
    obtain ⟨t0, g1, g2, g3, g4, -, -⟩ := gCleanup_eq ho h' hr
    obtain ⟨t1, p1, p2⟩ := cleanup_core g1 hR
    refine ⟨by simp [recorded, g3], g4.trans hh, t1,
      step_idx heps (.cleanup env bp bc false false false) hI p1, p2.trans g2, ?_⟩
    intro os fl t2 h2
    have h3 : run pr t (.cleanup env bp bc false false false :: remaining os fl) = .ok t2 := run_cons_ok p1 h2
    cases b <;> exact h3
  | extract u c =>
    have h' : (gExtract u c s).1 = s1 := by
      rcases h with ⟨h, -⟩ | ⟨h, -⟩
      · exact congrArg Prod.fst h
      · exact congrArg Prod.fst h
    obtain ⟨⟨k1, k2, k3, k4, k5, k6⟩, -⟩ := gExtract_frame u c s
    rw [h'] at k1 k2 k3 k4 k5 k6
    refine ⟨by simp [recorded, k5], k6.trans hh, t, hI,
      ⟨hR.1.trans k1.symm, hR.2.1.trans k2.symm, hR.2.2.1.trans k3.symm, hR.2.2.2.trans k4.symm⟩, ?_⟩
    intro os fl t2 h2
    cases b <;> exact h2

theorem gPlay_core {pr : Params K} (heps : 0 < pr.eps) {save : Bool} : ∀ (ops : List (GOp K τ F S C Z))
    (flags : List Bool) (s s' : GObj K τ F S C Z) (t : St K τ F S C), (∀ o ∈ ops, Sorting o) → IdxInv t →
    Core t s.st → s.holes = none → gPlay pr save s ops = some (s', flags) →
    flags.length = ops.length ∧ s'.meas = s.meas ++ ops.flatMap (recorded save) ∧ s'.holes = none ∧
    ∃ t', run pr t (remaining ops flags) = .ok t' ∧ Core t' s'.st
  | [], flags, s, s', t, _, _, hR, hh, h => by
    cases h
    exact ⟨rfl, by simp, hh, t, rfl, hR⟩
  | o :: os, flags, s, s', t, ho, hI, hR, hh, h => by
    obtain ⟨s1, fl, h2, h1⟩ := gPlay_cons h
    obtain ⟨b, hb, rfl⟩ : ∃ b, ((gCall pr save o s = (s1, .ok ()) ∧ b = true) ∨
        (gCall pr save o s = (s1, .raised) ∧ b = false)) ∧ flags = b :: fl := by
      rcases h1 with ⟨h1, rfl⟩ | ⟨h1, rfl⟩
      · exact ⟨true, .inl ⟨h1, rfl⟩, rfl⟩
      · exact ⟨false, .inr ⟨h1, rfl⟩, rfl⟩
    obtain ⟨g1, g2, t1, g3, g4, g5⟩ := gCall_core heps (ho o List.mem_cons_self) hI hR hh hb
    obtain ⟨k1, k2, k3, t', k4, k5⟩ := gPlay_core heps os fl s1 s' t1
      (fun x hx => ho x (List.mem_cons_of_mem _ hx)) g3 g4 g2 h2
    exact ⟨by simp [k1], by rw [k2, g1]; simp, k3, t', g5 os fl t' k4, k5⟩

/-! ### The theorems -/

/-- **C145, `predict`.** If `predict` raises, the filter is exactly as before the call. -/
theorem C145_predict (pr : Params K) (save : Bool) (env : Env K τ F S C Z) (fl : Faults K F S Z) (lab : τ)
    (births : List (Birth K F S C)) (s s' : GObj K τ F S C Z)
    (h : gCall pr save (.predict env fl lab births) s = (s', .raised)) : s' = s := gPredict_raised h

/-- **C145, `correct`** (partial: the measurement table is not as it was, `C145_refuted_correct`). If `correct` raises
after any sequence of calls on a new filter, of which some may have raised, then everything is as before the call except
that with `save_measurements` the scan is recorded. -/
theorem C145_correct_partial (pr : Params K) (heps : 0 < pr.eps) (save : Bool) (ops : List (GOp K τ F S C Z))
    (hs : ∀ o ∈ ops, Sorting o) (flags : List Bool) (env : Env K τ F S C Z) (fl : Faults K F S Z) (zs : List Z)
    (s s' : GObj K τ F S C Z) (hplay : gPlay pr save gFresh ops = some (s, flags))
    (h : gCall pr save (.correct env fl zs) s = (s', .raised)) :
    s'.st = s.st ∧ s'.holes = none ∧ s'.meas = s.meas ++ (if save then [zs] else []) := by
  obtain ⟨-, -, hh, t, hr, hR⟩ := gPlay_core heps ops flags gFresh s init hs init_idx ⟨rfl, rfl, rfl, rfl⟩ rfl hplay
  have hI : IdxInv t := run_induct IdxInv (fun st st' o hI h => step_idx heps o hI h) _ _ _ init_idx hr
  have := gCorrect_raised (by
    intro a ha i hi
    rw [← hR.2.1] at ha
    rw [← hR.1]
    exact hI.range a ha i hi) h
  subst this
  exact ⟨rfl, hh, rfl⟩

/-- **C145, `extract_states`** (partial: the reported states are not as they were, `C145_refuted_extract`). Whether
`extract_states` raises or not, the tracks, the hypotheses, the cardinality distribution, the step counter and the
measurement table are as before the call. -/
theorem C145_extract_partial (pr : Params K) (save u c : Bool) (s s' : GObj K τ F S C Z) (r : Res Unit)
    (h : gCall pr save (.extract u c) s = (s', r)) :
    s'.st.tab = s.st.tab ∧ s'.st.hyps = s.st.hyps ∧ s'.st.card = s.st.card ∧ s'.st.cntr = s.st.cntr ∧
      s'.meas = s.meas := by
  obtain ⟨⟨k1, k2, k3, k4, k5, -⟩, -⟩ := gExtract_frame u c s
  have h' : (gExtract u c s).1 = s' := congrArg Prod.fst h
  rw [h'] at k1 k2 k3 k4 k5
  exact ⟨k1, k2, k3, k4, k5⟩

/-- **C145, `cleanup`** (partial: the filter is not as it was, `C145_refuted_cleanup`). If `cleanup` raises, extraction
was asked for, and the tracks, the hypotheses, the cardinality distribution and the step counter are those after the
same clean-up without extraction: the time step is over, only its results are missing. -/
theorem C145_cleanup_partial (pr : Params K) (save : Bool) (env : Env K τ F S C Z)
    (ha : ∀ ws, IsArgsort ws (env.argsort ws)) (bp bc be u c : Bool) (s s' : GObj K τ F S C Z)
    (h : gCall pr save (.cleanup env bp bc be u c) s = (s', .raised)) :
    be = true ∧ s'.st.cntr = s.st.cntr + 1 ∧ s'.meas = s.meas ∧
    ∃ t, step pr s.st (.cleanup env bp bc false false false) = .ok t ∧
      t.tab = s'.st.tab ∧ t.hyps = s'.st.hyps ∧ t.card = s'.st.card ∧ t.cntr = s'.st.cntr := by
  obtain ⟨t, h1, h2, h3, h4, -, h6⟩ := gCleanup_eq ha h (by simp)
  refine ⟨h6 rfl, ?_, h3, t, h1, h2⟩
  rw [← h2.2.2.2]
  obtain ⟨s1, s2, k1, k2, k3⟩ := cleanup_ok h1
  have e1 : s1.cntr = s.st.cntr + 1 := by
    split at k1
    · obtain ⟨hs, -, rfl⟩ := prune_ok k1
      rfl
    · cases k1
      rfl
  have e2 : s2.cntr = s1.cntr := by
    split at k2
    · rcases cap_ok k2 with ⟨_, rfl⟩ | ⟨_, kept, hs, _, _, rfl⟩ <;> rfl
    · cases k2
      rfl
  rcases k3 with ⟨-, rfl⟩ | ⟨k, -⟩
  · rw [e2, e1]
  · cases k

/-- **C145, agreement.** A call that ends normally does what `Verif/Model/Glmb.lean` says. -/
theorem C145_agrees (pr : Params K) (save : Bool) (o : GOp K τ F S C Z) (ho : Sorting o) (s s' : GObj K τ F S C Z)
    (h : gCall pr save o s = (s', .ok ())) : step pr s.st (plain o) = .ok s'.st := gCall_ok ho h

/-- **C145, histories.** Let any sequence of calls be made on a new filter, where every exception is caught and the next
call is made all the same. Then the tracks, the hypotheses, the cardinality distribution and the step counter are those
of a filter on which nothing raises: on it the `predict` and `correct` calls that ended normally are made, and all
clean-ups (without extraction). The measurement table has the scans of all `correct` calls, in order, those that raised
included. -/
theorem C145_history (pr : Params K) (heps : 0 < pr.eps) (save : Bool) (ops : List (GOp K τ F S C Z))
    (hs : ∀ o ∈ ops, Sorting o) (flags : List Bool) (s : GObj K τ F S C Z)
    (h : gPlay pr save gFresh ops = some (s, flags)) :
    flags.length = ops.length ∧ s.meas = ops.flatMap (recorded save) ∧ s.holes = none ∧
    ∃ t, run pr init (remaining ops flags) = .ok t ∧
      t.tab = s.st.tab ∧ t.hyps = s.st.hyps ∧ t.card = s.st.card ∧ t.cntr = s.st.cntr := by
  obtain ⟨h1, h2, h3, t, h4, h5⟩ := gPlay_core heps ops flags gFresh s init hs init_idx ⟨rfl, rfl, rfl, rfl⟩ rfl h
  exact ⟨h1, by simpa [gFresh] using h2, h3, t, h4, h5⟩

end field

/-! ### Examples -/

/-- What is shown of a filter: the states in the track table, the tracks of the hypotheses, the step counter, the
reported states and labels, the measurement table, and which calls ended normally. -/
structure Shown where
  tab : List (List (List ℚ))
  hyps : List (List ℕ)
  cntr : ℕ
  states : List (List ℚ)
  labels : List (List (ℕ × ℕ))
  meas : List (List ℚ)
  ended : List Bool
  deriving DecidableEq

/-- The example of `Verif/Props/GlmbTrack.lean`, where the caller catches exceptions. -/
def exPlay (ops : List (GOp ℚ ℕ Unit ℚ Unit ℚ)) : Option Shown :=
  (gPlay exTrackPr true gFresh ops).map fun r => ⟨r.1.st.tab.map fun e => e.sHist, r.1.st.hyps.map fun h => h.tracks,
    r.1.st.cntr, r.1.st.states, r.1.st.labels, r.1.meas, r.2⟩

/-- An inner filter that raises when it predicts the state `9`, and when it corrects with the measurement `8`. -/
def exFaults : Faults ℚ Unit ℚ ℚ := ⟨false, fun _ s => s == 9, fun z _ _ _ => z == 8⟩

/-- An inner filter that never raises. -/
def exNoFaults : Faults ℚ Unit ℚ ℚ := ⟨false, fun _ _ => false, fun _ _ _ _ => false⟩

/-- A birth term. -/
def exBirths (x : ℚ) : List (Birth ℚ Unit ℚ Unit) := [⟨[()], [1], [x], [()], 9 / 10⟩]

/-- **C145, refuted for `correct`.** A scan whose correction raised is recorded, and recorded twice if the call is
repeated. -/
theorem C145_refuted_correct :
    exPlay [.predict exTrackEnv exNoFaults 0 (exBirths 0), .correct exTrackEnv exFaults [4, 8]] =
      some ⟨[[[0]]], [[0], []], 0, [], [], [[4, 8]], [true, false]⟩ ∧
    exPlay [.predict exTrackEnv exNoFaults 0 (exBirths 0), .correct exTrackEnv exFaults [4, 8],
        .correct exTrackEnv exNoFaults [4, 8]] =
      some ⟨[[[0]], [[2]], [[4]]], [[1], [2], [0], []], 0, [], [], [[4, 8], [4, 8]], [true, false, true]⟩ := by
  refine ⟨?_, ?_⟩ <;> decide +kernel

/-- **C145, refuted for `extract_states`.** After the first time step the state `2` is reported. In the second time step
`extract_states` is called before `cleanup`: it raises, because the tracks already go on to a time for which there is
no place in the results, and the state that was reported is gone. -/
theorem C145_refuted_extract :
    exPlay [.predict exTrackEnv exNoFaults 0 (exBirths 0), .correct exTrackEnv exNoFaults [4, 8],
        .cleanup exTrackEnv true true true true true, .predict exTrackEnv exNoFaults 1 (exBirths 0),
        .correct exTrackEnv exNoFaults [6]] =
      some ⟨[[[2], [3]], [[4], [5]], [[3]]], [[2, 0], [2, 1], []], 1, [[2]], [[(0, 0)]], [[4, 8], [6]],
        [true, true, true, true, true]⟩ ∧
    exPlay [.predict exTrackEnv exNoFaults 0 (exBirths 0), .correct exTrackEnv exNoFaults [4, 8],
        .cleanup exTrackEnv true true true true true, .predict exTrackEnv exNoFaults 1 (exBirths 0),
        .correct exTrackEnv exNoFaults [6], .extract true true] =
      some ⟨[[[2], [3]], [[4], [5]], [[3]]], [[2, 0], [2, 1], []], 1, [[]], [[]], [[4, 8], [6]],
        [true, true, true, true, true, false]⟩ := by
  refine ⟨?_, ?_⟩ <;> decide +kernel

/-- **C145, refuted for `cleanup`.** `cleanup` without pruning on a new filter raises, but its time step counts: the
object that is found in the first scan is afterwards reported at the second time, not at the first. -/
theorem C145_refuted_cleanup :
    exPlay [.cleanup exTrackEnv false true true true true] = some ⟨[], [[]], 1, [], [], [], [false]⟩ ∧
    exPlay [.cleanup exTrackEnv false true true true true, .predict exTrackEnv exNoFaults 0 (exBirths 0),
        .correct exTrackEnv exNoFaults [4, 8], .cleanup exTrackEnv true true true true true] =
      some ⟨[[[0]], [[2]], [[4]]], [[1], [2], [0], []], 2, [[], [2]], [[], [(0, 0)]], [[4, 8]],
        [false, true, true, true]⟩ ∧
    exPlay [.predict exTrackEnv exNoFaults 0 (exBirths 0),
        .correct exTrackEnv exNoFaults [4, 8], .cleanup exTrackEnv true true true true true] =
      some ⟨[[[0]], [[2]], [[4]]], [[1], [2], [0], []], 1, [[2]], [[(0, 0)]], [[4, 8]], [true, true, true]⟩ := by
  refine ⟨?_, ?_, ?_⟩ <;> decide +kernel

/-- A history with exceptions in all four methods. -/
def exOps : List (GOp ℚ ℕ Unit ℚ Unit ℚ) :=
  [.cleanup exTrackEnv false true true true true, .predict exTrackEnv exNoFaults 0 (exBirths 9),
    .predict exTrackEnv exFaults 1 (exBirths 0), .correct exTrackEnv exFaults [4, 8],
    .correct exTrackEnv exFaults [4], .extract true true, .cleanup exTrackEnv true true true true true]

/-- The hypotheses of the theorems of C145 are met: a call of each method raises, and in
the end a target is reported. -/
example : (0 : ℚ) < exTrackPr.eps ∧ (∀ o ∈ exOps, Sorting o) ∧
    exPlay exOps = some ⟨[[[9]], [[13 / 2]]], [[1], [0], []], 2, [[], [13 / 2]], [[], [(0, 0)]], [[4, 8], [4]],
      [false, true, false, false, true, false, true]⟩ := by
  refine ⟨by decide +kernel, ?_, by decide +kernel⟩
  intro o ho
  simp only [exOps, List.mem_cons, List.not_mem_nil, or_false] at ho
  rcases ho with rfl | rfl | rfl | rfl | rfl | rfl | rfl
  · exact exTrackEnv_sorts
  · trivial
  · trivial
  · trivial
  · trivial
  · trivial
  · exact exTrackEnv_sorts

end Gasur.Props.GlmbCrash
