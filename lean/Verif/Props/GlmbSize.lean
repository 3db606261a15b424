import Verif.Props.GlmbReport
import Verif.Props.PhdSize

/-!
# Property C123 (GLMB filter): the number of hypotheses stays bounded; C124: no more objects than birth terms
-/

set_option linter.unusedSectionVars false

namespace Gasur.Props

open Gasur.Glmb Gasur.Spec Gasur.Murty

variable {K τ F S C Z : Type*} [Field K] [LinearOrder K] [IsStrictOrderedRing K] [FloorRing K]

/-- Number of hypotheses after the calls `ops`, at most, if it was at most `N` before. -/
def hypBound (pr : Params K) : ℕ → List (Op K τ F S C Z) → ℕ
  | N, [] => N
  | N, .predict .. :: os => hypBound pr (pr.reqBirths * (pr.reqSurv + N)) os
  | N, .correct .. :: os => hypBound pr (pr.reqUpd + N) os
  | N, .cleanup _ _ cap _ _ _ :: os => hypBound pr (if cap then min N pr.maxHyps else N) os
  | N, .extract .. :: os => hypBound pr N os

/-- The square root of the environment of a call is not negative. -/
def SqrtOk : Op K τ F S C Z → Prop
  | .predict env _ _ => ∀ x, 0 ≤ env.num.sqrt x
  | .correct env _ => ∀ x, 0 ≤ env.num.sqrt x
  | .cleanup .. => True
  | .extract .. => True

theorem round_le_half (x : K) (hx : 0 ≤ x) : (((Phd.pyRound x).toNat : ℕ) : K) ≤ x + 1 / 2 := by
  have h := (C33_round x).1
  by_cases h0 : Phd.pyRound x ≤ 0
  · rw [Int.toNat_of_nonpos h0]
    simp only [Nat.cast_zero]
    linarith
  · push Not at h0
    have h1 : (((Phd.pyRound x).toNat : ℕ) : K) = ((Phd.pyRound x : ℤ) : K) := by
      rw [← Int.cast_natCast, Int.toNat_of_nonneg h0.le]
    rw [h1]
    have h3 := (abs_le.1 h).1
    linarith

/-- If each hypothesis gives at most its share plus `c`, all together give at most `req + c n`. -/
theorem shares_sum {β : Type*} {sq : K → K} {req : ℕ} {ss c : K} {hyps : List (Hyp K)} {ls : List (List β)}
    (h : List.Forall₂ (fun (x : Hyp K) (l : List β) => (l.length : K) ≤ req * sq x.prob / ss + c) hyps ls) :
    (ls.flatten.length : K) ≤ req * (hyps.map fun x => sq x.prob).sum / ss + c * hyps.length := by
  induction h with
  | nil => simp
  | cons h1 _ ih =>
    rw [List.flatten_cons, List.length_append, Nat.cast_add, List.map_cons, List.sum_cons, List.length_cons,
      Nat.cast_add, Nat.cast_one, mul_add, add_div]
    linarith

theorem shares_le {β : Type*} {sq : K → K} {req : ℕ} {c : K} {hyps : List (Hyp K)} {ls : List (List β)}
    (h : List.Forall₂ (fun (x : Hyp K) (l : List β) => (l.length : K) ≤
      req * sq x.prob / (hyps.map fun x => sq x.prob).sum + c) hyps ls) :
    (ls.flatten.length : K) ≤ req + c * hyps.length := by
  refine (shares_sum h).trans ?_
  by_cases h0 : (hyps.map fun x => sq x.prob).sum = 0
  · rw [h0]
    simp
  · rw [mul_div_assoc, div_self h0, mul_one]

theorem cleanPred_size (hyps : List (Hyp K)) : (cleanPred hyps).length ≤ hyps.length := by
  unfold cleanPred
  have hadd : ∀ (acc : List (Hyp K)) (x : Hyp K), (addHyp acc x).length ≤ acc.length + 1 := by
    intro acc x
    induction acc with
    | nil => simp [addHyp]
    | cons a l ih =>
      unfold addHyp
      split
      · simp
      · simpa using ih
  have : ∀ (l acc : List (Hyp K)), (l.foldl addHyp acc).length ≤ acc.length + l.length := by
    intro l
    induction l with
    | nil => simp
    | cons a l ih =>
      intro acc
      rw [List.foldl_cons, List.length_cons]
      have h1 := ih (addHyp acc a)
      have h2 := hadd acc a
      omega
  simpa using this hyps []

theorem normHyps_size {hyps hs : List (Hyp K)} (h : normHyps hyps = .ok hs) : hs.length = hyps.length := by
  rw [(normHyps_ok h).2, List.length_map]

theorem survHyps_size {env : Env K τ F S C Z} {pr : Params K} (heps : 0 < pr.eps) (hsq : ∀ x, 0 ≤ env.num.sqrt x)
    {tab : List (Entry K τ F S C)} {hyps out : List (Hyp K)} (h : survHyps env pr tab hyps = .ok out) :
    out.length ≤ pr.reqSurv + hyps.length := by
  unfold survHyps at h
  split at h
  · exact (nomatch h)
  · rename_i ls hl
    rw [normHyps_size h]
    have h0 : 0 ≤ sumSqrt env hyps := List.sum_nonneg (by
      intro x hx
      obtain ⟨y, _, rfl⟩ := List.mem_map.1 hx
      exact hsq _)
    have : (ls.flatten.length : K) ≤ pr.reqSurv + 1 * hyps.length := by
      refine shares_le (sq := env.num.sqrt) (((traverseE_ok _ _ _).1 hl).imp ?_)
      intro x l hx
      have hx0 : 0 ≤ (pr.reqSurv : K) * env.num.sqrt x.prob / sumSqrt env hyps :=
        div_nonneg (mul_nonneg (Nat.cast_nonneg _) (hsq _)) h0
      rcases survOne_ok heps hx with ⟨_, rfl⟩ | ⟨_, ents, costs, paths, _, _, _, h4, h5⟩
      · simp only [List.length_singleton, Nat.cast_one]
        change (1 : K) ≤ pr.reqSurv * env.num.sqrt x.prob / sumSqrt env hyps + 1
        linarith
      · rw [← h5.length_eq]
        have e1 : (paths.length : K) ≤ _ := Nat.cast_le.2 (kList_ok heps h4).1
        have e2 := round_le_half _ hx0
        change (paths.length : K) ≤ pr.reqSurv * env.num.sqrt x.prob / sumSqrt env hyps + 1
        linarith
    rw [one_mul] at this
    exact_mod_cast this

theorem predict_size {env : Env K τ F S C Z} {pr : Params K} (heps : 0 < pr.eps) (hsq : ∀ x, 0 ≤ env.num.sqrt x)
    {lab : τ} {births : List (Birth K F S C)} {st st' : St K τ F S C} (h : predict env pr lab births st = .ok st') :
    st'.hyps.length ≤ pr.reqBirths * (pr.reqSurv + st.hyps.length) := by
  obtain ⟨costs, paths, bh, survTab, sh, hs, _, h2, h3, _, h5, h6, rfl⟩ := predict_ok h
  refine (cleanPred_size hs).trans ?_
  rw [normHyps_size h6, List.length_flatMap]
  simp only [List.length_map, List.map_const', List.sum_replicate, smul_eq_mul]
  refine Nat.mul_le_mul ?_ (survHyps_size heps hsq h5)
  rw [normHyps_size h3, List.length_map]
  exact (kList_ok heps h2).1

theorem cleanUpd_size {tab : List (Option (Entry K τ F S C))} {hyps : List (Hyp K)} {tab' hyps'}
    (h : cleanUpd tab hyps = .ok (tab', hyps')) : hyps'.length ≤ hyps.length := by
  obtain ⟨_, _, _, _, rfl⟩ := cleanUpd_ok h
  rw [List.length_map]
  exact List.length_filter_le _ _

theorem corHyps_size {env : Env K τ F S C Z} {pr : Params K} (hsq : ∀ x, 0 ≤ env.num.sqrt x)
    {tab : List (Entry K τ F S C)} {blocks : List (List (Option (Entry K τ F S C) × K))} {hyps hs : List (Hyp K)}
    (h2 : corHyps env pr tab blocks hyps = .ok hs) : hs.length ≤ pr.reqUpd + hyps.length := by
  unfold corHyps at h2
  split at h2
  · exact (nomatch h2)
  · rename_i ls hl
    rw [normHyps_size h2]
    have h0 : 0 ≤ sumSqrt env hyps := List.sum_nonneg (by
      intro x hx
      obtain ⟨y, _, rfl⟩ := List.mem_map.1 hx
      exact hsq _)
    have : (ls.flatten.length : K) ≤ pr.reqUpd + 1 * hyps.length := by
      refine shares_le (sq := env.num.sqrt) (((traverseE_ok _ _ _).1 hl).imp ?_)
      intro x l hx
      have hx0 : 0 ≤ (pr.reqUpd : K) * env.num.sqrt x.prob / sumSqrt env hyps :=
        div_nonneg (mul_nonneg (Nat.cast_nonneg _) (hsq _)) h0
      change (l.length : K) ≤ pr.reqUpd * env.num.sqrt x.prob / sumSqrt env hyps + 1
      obtain ⟨ents, _, ⟨_, rfl⟩ | ⟨_, _, _, rfl⟩ | ⟨_, _, hne, _, rows, assigns, _, hm, rfl⟩⟩ := corOne_ok hx
      · simp only [List.length_singleton, Nat.cast_one]
        linarith
      · simp only [List.length_singleton, Nat.cast_one]
        linarith
      · obtain ⟨out, g1, _, _, _, g5, _⟩ := murty_spec (costMat env rows x.tracks.length blocks.length)
          (Phd.pyRound ((pr.reqUpd : K) * env.num.sqrt x.prob / sumSqrt env hyps)).toNat (List.length_pos_iff.2 hne)
        obtain rfl := Except.ok.inj (g1.symm.trans hm)
        rw [List.length_map, List.length_map]
        have e1 : (out.length : K) ≤ _ := Nat.cast_le.2 g5
        have e2 := round_le_half _ hx0
        linarith
    rw [one_mul] at this
    exact_mod_cast this

theorem correct_hyps_size {env : Env K τ F S C Z} {pr : Params K} (hsq : ∀ x, 0 ≤ env.num.sqrt x)
    {meas : List Z} {st st' : St K τ F S C} (h : correct env pr meas st = .ok st') :
    st'.hyps.length ≤ pr.reqUpd + st.hyps.length := by
  obtain ⟨blocks, hs, _, h2, h3, _⟩ := correct_ok h
  exact (cleanUpd_size h3).trans (corHyps_size hsq h2)

theorem prune_hyps_size {pr : Params K} {st st' : St K τ F S C} (h : prune pr st = .ok st') :
    st'.hyps.length ≤ st.hyps.length := by
  obtain ⟨hs, h1, rfl⟩ := prune_ok h
  simp only [normHyps_size h1]
  exact List.length_filter_le _ _

theorem cap_hyps_size {env : Env K τ F S C Z} {pr : Params K} {st st' : St K τ F S C} (h : cap env pr st = .ok st') :
    st'.hyps.length ≤ min st.hyps.length pr.maxHyps := by
  rcases cap_ok h with ⟨h1, rfl⟩ | ⟨h1, kept, hs, h2, h3, rfl⟩
  · omega
  · simp only [normHyps_size h3, ← h2.length_eq, List.length_take]
    omega

variable [DecidableEq τ]

theorem cleanup_hyps_size {env : Env K τ F S C Z} {pr : Params K} {bp bc be u c : Bool} {st st' : St K τ F S C}
    (h : cleanup env pr bp bc be u c st = .ok st') :
    st'.hyps.length ≤ if bc then min st.hyps.length pr.maxHyps else st.hyps.length := by
  obtain ⟨s1, s2, h1, h2, h3⟩ := cleanup_ok h
  have e1 : s1.hyps.length ≤ st.hyps.length := by
    split at h1
    · have := prune_hyps_size h1
      exact this
    · obtain rfl := Except.ok.inj h1
      exact le_refl _
  have e3 : st'.hyps.length = s2.hyps.length := by
    rcases h3 with ⟨_, rfl⟩ | ⟨_, o, h3⟩
    · rfl
    · rw [(Glmb.extract_frame h3).2.1]
  rw [e3]
  split at h2 <;> rename_i hbc
  · rw [if_pos hbc]
    have := cap_hyps_size h2
    omega
  · rw [if_neg hbc]
    obtain rfl := Except.ok.inj h2
    exact e1

theorem hypBound_append (pr : Params K) : ∀ (a b : List (Op K τ F S C Z)) (N : ℕ),
    hypBound pr N (a ++ b) = hypBound pr (hypBound pr N a) b
  | [], b, N => rfl
  | .predict .. :: a, b, N => hypBound_append pr a b _
  | .correct .. :: a, b, N => hypBound_append pr a b _
  | .cleanup .. :: a, b, N => hypBound_append pr a b _
  | .extract .. :: a, b, N => hypBound_append pr a b _

theorem step_hyps_size {pr : Params K} (heps : 0 < pr.eps) {st st' : St K τ F S C} {o : Op K τ F S C Z} (ho : SqrtOk o)
    (h : step pr st o = .ok st') {N : ℕ} (hN : st.hyps.length ≤ N) : st'.hyps.length ≤ hypBound pr N [o] := by
  cases o with
  | predict env lab births =>
    exact (predict_size heps ho h).trans (Nat.mul_le_mul_left _ (by omega))
  | correct env meas =>
    refine (correct_hyps_size ho h).trans ?_
    simp only [hypBound]
    omega
  | cleanup env bp bc be u c =>
    refine (cleanup_hyps_size h).trans ?_
    simp only [hypBound]
    split <;> omega
  | extract u c =>
    simp only [step] at h
    split at h
    · exact (nomatch h)
    · rename_i s o hx
      obtain rfl := Except.ok.inj h
      simp only [hypBound]
      rw [(Glmb.extract_frame hx).2.1]
      exact hN

theorem run_hyps_size {pr : Params K} (heps : 0 < pr.eps) : ∀ (ops : List (Op K τ F S C Z)) (st st' : St K τ F S C)
    (N : ℕ), (∀ o ∈ ops, SqrtOk o) → st.hyps.length ≤ N → run pr st ops = .ok st' →
      st'.hyps.length ≤ hypBound pr N ops
  | [], st, st', N, _, hN, h => by
    obtain rfl := Except.ok.inj h
    exact hN
  | o :: os, st, st', N, ho, hN, h => by
    unfold run at h
    split at h
    · exact (nomatch h)
    · rename_i s hs
      have := run_hyps_size heps os s st' _ (fun x hx => ho x (List.mem_cons_of_mem _ hx))
        (step_hyps_size heps (ho o List.mem_cons_self) hs hN) h
      rw [← hypBound_append] at this
      exact this

/-- **C123, GLMB filter.** After any sequence of calls on a new filter there are at most `hypBound` hypotheses. -/
theorem C123_glmb_hypotheses (pr : Params K) (heps : 0 < pr.eps) (ops : List (Op K τ F S C Z))
    (hops : ∀ o ∈ ops, SqrtOk o) (st : St K τ F S C) (h : run pr init ops = .ok st) :
    st.hyps.length ≤ hypBound pr 1 ops :=
  run_hyps_size heps ops init st 1 hops (by simp [init]) h

/-- One time step of the GLMB filter: `predict`, `correct`, `cleanup` with capping. -/
structure CapRound (K τ F S C Z : Type*) where
  env : Env K τ F S C Z
  lab : τ
  births : List (Birth K F S C)
  meas : List Z
  flags : Bool × Bool × Bool × Bool

/-- The calls of a time step. -/
def CapRound.ops (r : CapRound K τ F S C Z) : List (Op K τ F S C Z) :=
  [.predict r.env r.lab r.births, .correct r.env r.meas,
    .cleanup r.env r.flags.1 true r.flags.2.1 r.flags.2.2.1 r.flags.2.2.2]

/-- **C123, GLMB filter, time steps.** Whatever is born and measured, the number of hypotheses is never larger than
`req_upd + req_births (req_surv + max(1, max_hyps))`, and never larger than `max_hyps` after a time step, however many
time steps there are. `part` are the calls of a time step that is not finished. (Before the first call there is one
hypothesis.) -/
theorem C123_glmb_memory (pr : Params K) (heps : 0 < pr.eps) (hb : 1 ≤ pr.reqBirths)
    (rounds : List (CapRound K τ F S C Z))
    (now : CapRound K τ F S C Z) (part : List (Op K τ F S C Z)) (hpart : part <+: now.ops)
    (hsq : ∀ r ∈ rounds ++ [now], ∀ x, 0 ≤ r.env.num.sqrt x) (st : St K τ F S C)
    (h : run pr init (rounds.flatMap CapRound.ops ++ part) = .ok st) :
    st.hyps.length ≤ pr.reqUpd + pr.reqBirths * (pr.reqSurv + max 1 pr.maxHyps) ∧
      (part = [] → rounds ≠ [] → st.hyps.length ≤ pr.maxHyps) := by
  have hok : ∀ r ∈ rounds ++ [now], ∀ o ∈ r.ops, SqrtOk o := by
    intro r hr o ho
    simp only [CapRound.ops, List.mem_cons, List.not_mem_nil, or_false] at ho
    rcases ho with rfl | rfl | rfl
    · exact hsq r hr
    · exact hsq r hr
    · trivial
  have hle := C123_glmb_hypotheses pr heps _ (fun o ho => by
    rcases List.mem_append.1 ho with ho | ho
    · obtain ⟨r, hr, ho⟩ := List.mem_flatMap.1 ho
      exact hok r (List.mem_append_left _ hr) o ho
    · exact hok now (by simp) o (hpart.subset ho)) st h
  rw [hypBound_append] at hle
  have key : ∀ (l : List (CapRound K τ F S C Z)) (N : ℕ), l ≠ [] →
      hypBound pr N (l.flatMap CapRound.ops) ≤ pr.maxHyps := by
    intro l
    induction l with
    | nil => exact fun N hne => (hne rfl).elim
    | cons r l ih =>
      intro N _
      rw [List.flatMap_cons, hypBound_append]
      by_cases hl : l = []
      · subst hl
        simp only [CapRound.ops, hypBound, if_true, List.flatMap_nil]
        omega
      · exact ih _ hl
  have h1 : hypBound pr 1 (rounds.flatMap CapRound.ops) ≤ max 1 pr.maxHyps := by
    by_cases hr : rounds = []
    · subst hr
      simp [hypBound]
    · exact (key rounds 1 hr).trans (le_max_right _ _)
  constructor
  · refine hle.trans ?_
    generalize hypBound pr 1 (rounds.flatMap CapRound.ops) = N at h1
    have e2 : pr.reqBirths * (pr.reqSurv + N) ≤ pr.reqBirths * (pr.reqSurv + max 1 pr.maxHyps) :=
      Nat.mul_le_mul_left _ (by omega)
    have e1 : N ≤ pr.reqBirths * (pr.reqSurv + max 1 pr.maxHyps) := by
      have : 1 * (pr.reqSurv + max 1 pr.maxHyps) ≤ pr.reqBirths * (pr.reqSurv + max 1 pr.maxHyps) :=
        Nat.mul_le_mul_right _ hb
      omega
    unfold CapRound.ops at hpart
    rw [List.prefix_cons_iff] at hpart
    rcases hpart with rfl | ⟨t, rfl, ht⟩
    · simp only [hypBound]
      omega
    · rw [List.prefix_cons_iff] at ht
      rcases ht with rfl | ⟨t, rfl, ht⟩
      · simp only [hypBound]
        omega
      · rw [List.prefix_cons_iff] at ht
        rcases ht with rfl | ⟨t, rfl, ht⟩
        · simp only [hypBound]
          omega
        · obtain rfl := List.prefix_nil.1 ht
          simp only [hypBound, if_true]
          omega
  · rintro rfl hr
    exact hle.trans (key rounds 1 hr)

/-! Non-vacuity. -/

/-- The environment of the run `exTrackOps` with a square root that is never negative. -/
def exSizeEnv : Env ℚ ℕ Unit ℚ Unit ℚ :=
  { exTrackEnv with num := ⟨fun x => if x ≤ 0 then 0 else x, exTrackEnv.num.negLog, exTrackEnv.num.expNeg⟩ }

theorem exSizeEnv_sqrt (x : ℚ) : 0 ≤ exSizeEnv.num.sqrt x := by
  simp only [exSizeEnv]
  split <;> linarith

/-- Two time steps, the first with two measurements, the second with one. -/
def exSizeRounds : List (CapRound ℚ ℕ Unit ℚ Unit ℚ) :=
  [⟨exSizeEnv, 0, [⟨[()], [1], [0], [()], 9 / 10⟩], [4, 8], (true, true, true, true)⟩,
   ⟨exSizeEnv, 1, [⟨[()], [1], [10], [()], 9 / 10⟩], [6], (true, true, true, true)⟩]

/-- The hypotheses of C123 hold for the parameters of `exTrackOps` with `max_hyps = 1` and these two time steps. The
second `correct` call makes 3 hypotheses (the bound is `3 + 2 (2 + 1)`), 1 is left after the time step. -/
example : (0 : ℚ) < exTrackPr.eps ∧ 1 ≤ exTrackPr.reqBirths ∧
    (∀ r ∈ exSizeRounds, ∀ x, 0 ≤ r.env.num.sqrt x) ∧
    (run { exTrackPr with maxHyps := 1 } init (exSizeRounds.flatMap CapRound.ops).dropLast).toOption.map
      (fun st => st.hyps.length) = some 3 ∧
    (run { exTrackPr with maxHyps := 1 } init (exSizeRounds.flatMap CapRound.ops)).toOption.map
      (fun st => st.hyps.length) = some 1 := by
  refine ⟨by decide +kernel, by decide, ?_, by decide +kernel, by decide +kernel⟩
  intro r hr
  simp only [exSizeRounds, List.mem_cons, List.not_mem_nil, or_false] at hr
  rcases hr with rfl | rfl <;> exact exSizeEnv_sqrt

end Gasur.Props
