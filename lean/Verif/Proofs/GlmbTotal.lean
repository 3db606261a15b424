import Verif.Proofs.GlmbExtract
import Verif.Spec.Phd

/-! The GLMB recursion does not fail on valid input. -/

set_option linter.unusedSectionVars false
set_option linter.unusedSimpArgs false

namespace Gasur.Glmb

open Gasur.KShortest Gasur.Murty Gasur.Spec

variable {K τ F S C Z : Type*} [Field K] [LinearOrder K] [IsStrictOrderedRing K] [DecidableEq τ]

/-- A table entry whose histories are parallel and non-empty. -/
structure EntWF (e : Entry K τ F S C) : Prop where
  lw : e.wHist.length = e.sHist.length
  lc : e.cHist.length = e.sHist.length
  ne : e.sHist ≠ []
  par : ∀ (k : ℕ) (s : List S) (w : List K) (c : List C), e.sHist[k]? = some s → e.wHist[k]? = some w →
    e.cHist[k]? = some c → s.length = w.length ∧ c.length = w.length ∧ w ≠ []
  last : ∀ s, e.sHist.getLast? = some s → e.fStates.length = s.length

/-- A birth term whose lists are parallel and non-empty, with probability strictly between 0 and 1. -/
structure BirthWF (b : Birth K F S C) : Prop where
  lf : b.fStates.length = b.states.length
  lw : b.ws.length = b.states.length
  lc : b.covs.length = b.states.length
  ne : b.ws ≠ []
  p0 : 0 ≤ b.prob
  p1 : b.prob < 1

theorem birthTab_wf {lab : τ} {cntr : ℕ} {births : List (Birth K F S C)} (h : ∀ b ∈ births, BirthWF b)
    {e : Entry K τ F S C} (he : e ∈ birthTab lab cntr births) : EntWF e := by
  unfold birthTab at he
  obtain ⟨⟨b, k⟩, hb, rfl⟩ := List.mem_map.1 he
  have hb' := h b (List.fst_mem_of_mem_zipIdx hb)
  refine ⟨rfl, rfl, by simp, ?_, ?_⟩
  · intro k s w c h1 h2 h3
    cases k with
    | zero =>
      simp only [List.getElem?_cons_zero, Option.some.injEq] at h1 h2 h3
      subst h1; subst h2; subst h3
      exact ⟨hb'.lw.symm, by rw [hb'.lc, hb'.lw], hb'.ne⟩
    | succ k => simp at h1
  · intro s hs
    simp only [List.getLast?_singleton, Option.some.injEq] at hs
    subst hs
    exact hb'.lf

theorem getLast?_get {α : Type*} {l : List α} {a : α} (h : l.getLast? = some a) :
    l[l.length - 1]? = some a := by rw [← List.getLast?_eq_getElem?]; exact h

/-- The last lists of the histories of a well-formed entry. -/
theorem EntWF.lasts {e : Entry K τ F S C} (h : EntWF e) : ∃ s w c, e.sHist.getLast? = some s ∧
    e.wHist.getLast? = some w ∧ e.cHist.getLast? = some c ∧ e.fStates.length = s.length ∧
    s.length = w.length ∧ c.length = w.length ∧ w ≠ [] := by
  have n1 : 0 < e.sHist.length := List.length_pos_iff.2 h.ne
  have hw : e.wHist ≠ [] := by rw [← List.length_pos_iff, h.lw]; exact n1
  have hc : e.cHist ≠ [] := by rw [← List.length_pos_iff, h.lc]; exact n1
  have g1 := List.getLast?_eq_some_getLast h.ne
  have g2 := List.getLast?_eq_some_getLast hw
  have g3 := List.getLast?_eq_some_getLast hc
  have p2 := getLast?_get g2
  have p3 := getLast?_get g3
  rw [h.lw] at p2
  rw [h.lc] at p3
  obtain ⟨q1, q2, q3⟩ := h.par _ _ _ _ (getLast?_get g1) p2 p3
  exact ⟨_, _, _, g1, g2, g3, h.last _ g1, q1, q2, q3⟩

theorem append_get {α : Type*} {l : List α} {a x : α} {k : ℕ} (h : (l ++ [a])[k]? = some x) :
    (l[k]? = some x ∧ k < l.length) ∨ (k = l.length ∧ x = a) := by
  rcases Nat.lt_or_ge k l.length with hk | hk
  · rw [List.getElem?_append_left hk] at h
    exact .inl ⟨h, hk⟩
  · rw [List.getElem?_append_right hk] at h
    have : k - l.length = 0 := by
      by_contra hc
      obtain ⟨m, hm⟩ := Nat.exists_eq_succ_of_ne_zero hc
      rw [hm] at h
      simp at h
    rw [this] at h
    simp only [List.getElem?_cons_zero, Option.some.injEq] at h
    exact .inr ⟨by omega, h.symm⟩

variable [FloorRing K]

theorem predictEntry_total (env : Env K τ F S C Z) {e : Entry K τ F S C} (h : EntWF e) :
    ∃ e', predictEntry env e = .ok e' ∧ EntWF e' ∧ e'.sHist.length = e.sHist.length + 1 := by
  obtain ⟨s, w, c, h1, h2, h3, h4, h5, h6, h7⟩ := h.lasts
  have hp : predictEntry env e = .ok { e with
        fStates := List.zipWith (fun f x => (env.predF f x).1) e.fStates s
        sHist := e.sHist ++ [List.zipWith (fun f x => (env.predF f x).2.1) e.fStates s]
        cHist := e.cHist ++ [List.zipWith (fun f x => (env.predF f x).2.2) e.fStates s]
        wHist := e.wHist ++ [w] } := by
    unfold predictEntry
    rw [h1, h2]
    simp only
    rw [if_pos h4]
  refine ⟨_, hp, ⟨?_, ?_, ?_, ?_, ?_⟩, ?_⟩
  · simp [h.lw]
  · simp [h.lc]
  · simp
  · intro k s' w' c' e1 e2 e3
    simp only at e1 e2 e3
    rcases append_get e1 with ⟨e1, k1⟩ | ⟨k1, rfl⟩ <;> rcases append_get e2 with ⟨e2, k2⟩ | ⟨k2, rfl⟩ <;>
      rcases append_get e3 with ⟨e3, k3⟩ | ⟨k3, rfl⟩
    · exact h.par k _ _ _ e1 e2 e3
    all_goals first
      | (exfalso; have := h.lw; have := h.lc; omega)
      | skip
    refine ⟨?_, ?_, h7⟩
    · rw [List.length_zipWith, h4]; simpa using h5
    · rw [List.length_zipWith, h4]; simpa using h5
  · intro s' hs'
    simp only [List.getLast?_append, List.getLast?_singleton, Option.some_or, Option.some.injEq] at hs'
    subst hs'
    simp
  · simp

theorem traverseE_optE {α β : Type*} (f : α → Option β) {l : List α} {r : List β}
    (h : traverseE (fun x => optE (f x)) l = .ok r) : List.Forall₂ (fun a b => f a = some b) l r := by
  refine ((traverseE_ok _ _ _).1 h).imp ?_
  intro a b hab
  cases hf : f a with
  | none => rw [hf] at hab; simp [optE] at hab
  | some c => rw [hf] at hab; simp only [optE, Except.ok.injEq] at hab; rw [hab]

/-- Likelihoods returned by the inner filter are non-negative. -/
def LikOk (env : Env K τ F S C Z) : Prop := ∀ z f s w r, env.corF z f s w = some r → 0 ≤ r.2.2.2

/-- The same for the filter states of one table entry. -/
def LikAt (env : Env K τ F S C Z) (e : Entry K τ F S C) : Prop :=
  ∀ f ∈ e.fStates, ∀ z s w r, env.corF z f s w = some r → 0 ≤ r.2.2.2

theorem LikOk.at {env : Env K τ F S C Z} (h : LikOk env) (e : Entry K τ F S C) : LikAt env e :=
  fun f _ z s w r => h z f s w r

theorem dropLast_append_get {α : Type*} {l : List α} {a x : α} {k : ℕ} (hl : l ≠ [])
    (h : (l.dropLast ++ [a])[k]? = some x) :
    (l[k]? = some x ∧ k < l.length - 1) ∨ (k = l.length - 1 ∧ x = a) := by
  rcases append_get h with ⟨h1, h2⟩ | ⟨h1, h2⟩
  · rw [List.length_dropLast] at h2
    rw [List.getElem?_dropLast, if_pos h2] at h1
    exact .inl ⟨h1, h2⟩
  · rw [List.length_dropLast] at h1
    exact .inr ⟨h1, h2⟩

theorem correctEntry_total (env : Env K τ F S C Z) (pr : Params K) (heps : 0 < pr.eps)
    (z : Z) {e : Entry K τ F S C} (hl : LikAt env e) (h : EntWF e) :
    ∃ o c, correctEntry env pr z e = .ok (o, c) ∧ 0 ≤ c ∧
      ∀ e', o = some e' → EntWF e' ∧ e'.sHist.length = e.sHist.length := by
  obtain ⟨s, w, c, h1, h2, h3, h4, h5, h6, h7⟩ := h.lasts
  have hc : e.cHist ≠ [] := by
    rintro h0; rw [h0] at h3; simp at h3
  have hw : e.wHist ≠ [] := by
    rintro h0; rw [h0] at h2; simp at h2
  unfold correctEntry
  rw [h1, h2]
  simp only
  rw [if_pos ⟨h4, h5, hc⟩]
  cases ht : traverseE (fun x : F × S × K => optE (env.corF z x.1 x.2.1 x.2.2))
      (e.fStates.zip (s.zip w)) with
  | error _ => exact ⟨none, 0, rfl, le_refl _, by simp⟩
  | ok rs =>
    simp only
    have hf := traverseE_optE (fun x : F × S × K => env.corF z x.1 x.2.1 x.2.2) ht
    have hlen : rs.length = s.length := by
      rw [← hf.length_eq, List.length_zip, List.length_zip, h4, ← h5]; simp
    have hrs : rs ≠ [] := by
      rw [← List.length_pos_iff, hlen, h5]; exact List.length_pos_iff.2 h7
    have hq : ∀ r ∈ rs, 0 ≤ r.2.2.2 := by
      intro r hr
      obtain ⟨a, hm, ha⟩ := forall₂_mem_right hf hr
      exact hl a.1 (List.of_mem_zip hm).1 _ _ _ _ ha
    have hpos : 0 < (rs.map fun r => r.2.2.2 + pr.eps).sum := by
      apply List.sum_pos
      · intro x hx
        obtain ⟨r, hr, rfl⟩ := List.mem_map.1 hx
        have := hq r hr
        linarith
      · simpa using hrs
    rw [if_neg (by rintro ⟨_, h0⟩; exact absurd h0 hpos.ne')]
    refine ⟨_, _, rfl, hpos.le, ?_⟩
    intro e' he'
    simp only [Option.some.injEq] at he'
    subst he'
    have n1 : 0 < e.sHist.length := List.length_pos_iff.2 h.ne
    refine ⟨⟨?_, ?_, ?_, ?_, ?_⟩, ?_⟩
    · simp [h.lw]
    · simp [h.lc]
    · simp
    · intro k s' w' c' e1 e2 e3
      simp only at e1 e2 e3
      rcases dropLast_append_get h.ne e1 with ⟨e1, k1⟩ | ⟨k1, rfl⟩ <;>
      rcases dropLast_append_get hw e2 with ⟨e2, k2⟩ | ⟨k2, rfl⟩ <;>
      rcases dropLast_append_get hc e3 with ⟨e3, k3⟩ | ⟨k3, rfl⟩
      · exact h.par k _ _ _ e1 e2 e3
      all_goals first
        | (exfalso; have := h.lw; have := h.lc; omega)
        | skip
      simpa using hrs
    · intro s' hs'
      simp only [List.getLast?_append, List.getLast?_singleton, Option.some_or, Option.some.injEq] at hs'
      subst hs'
      simp
    · simp only [List.length_append, List.length_dropLast, List.length_singleton]
      omega

/-! ### Prediction -/

/-- The log odds of a positive `p` are not within `eps` of zero without being zero (such costs are not arcs for
`bfm_shortest_path`). -/
def OddsOk (env : Env K τ F S C Z) (pr : Params K) (p : K) : Prop :=
  p = 0 ∨ env.num.negLog (p / (1 - p)) = 0 ∨ pr.eps ≤ |env.num.negLog (p / (1 - p))|

/-- Conditions on the numerical functions and the external pieces, for the entries of a table. -/
structure EnvPos (env : Env K τ F S C Z) (pr : Params K) (tab : List (Entry K τ F S C)) : Prop where
  exp : ∀ x, 0 < env.num.expNeg x
  sqrt : ∀ x, 0 < x → 0 < env.num.sqrt x
  odds : ∀ e ∈ tab, OddsOk env pr (env.psurv e)
  surv : ∀ e ∈ tab, 0 ≤ env.psurv e ∧ env.psurv e < 1
  det : ∀ e ∈ tab, env.pdet e < 1
  lik : ∀ e ∈ tab, LikAt env e
  argsort : ∀ ws, IsArgsort ws (env.argsort ws)

theorem kList_total {env : Env K τ F S C Z} {pr : Params K} (heps : 0 < pr.eps) {costs : List (WithTop K)} (k : ℕ)
    (h : ∀ c ∈ costs, ∀ x : K, c = x → x = 0 ∨ pr.eps ≤ |x|) : ∃ out, kList env pr costs k = .ok out := by
  unfold kList
  rcases Nat.eq_zero_or_pos k with rfl | hk
  · refine ⟨[], ?_⟩
    simp [kShortestInf]
  · obtain ⟨p, c, rest, h1, _⟩ := KSub.kShortestInf_spec (fun i : Fin costs.length => costs[i])
      (env.sortInds costs.length fun i => costs[i]) heps (fun i => h _ (List.getElem_mem _)) k hk
    rw [h1]
    exact ⟨_, rfl⟩

theorem odds_total {env : Env K τ F S C Z} {pr : Params K} {p : K} {c : WithTop K} (ho : OddsOk env pr p)
    (h : Odds env p c) (x : K) (hx : c = x) : x = 0 ∨ pr.eps ≤ |x| := by
  rcases h with ⟨_, h⟩ | ⟨h0, _, h⟩
  · rw [h] at hx
    exact absurd hx.symm WithTop.coe_ne_top
  · rw [h, WithTop.coe_inj] at hx
    rw [← hx]
    exact ho.resolve_left h0.ne'

theorem expNegTop_pos {env : Env K τ F S C Z} (hE : ∀ x, 0 < env.num.expNeg x) {x : WithTop K}
    (hx : x ≠ ⊤) : 0 < expNegTop env x := by
  cases x with
  | top => exact absurd rfl hx
  | coe x => exact hE x

theorem prod_pos_list {α : Type*} {l : List α} {f : α → K} (h : ∀ a ∈ l, 0 < f a) :
    0 < (l.map f).prod := by
  apply List.prod_pos
  intro x hx
  obtain ⟨a, ha, rfl⟩ := List.mem_map.1 hx
  exact h a ha

theorem logOdds_pos {env : Env K τ F S C Z} {p : K} (h0 : 0 < p) (h1 : p < 1) :
    logOdds env p = .ok ((env.num.negLog (p / (1 - p)) : K) : WithTop K) := by
  unfold logOdds; rw [if_neg h0.ne', if_pos ⟨h0, h1⟩]

theorem logOdds_total {env : Env K τ F S C Z} {p : K} (h0 : 0 ≤ p) (h1 : p < 1) : ∃ c, logOdds env p = .ok c := by
  rcases h0.eq_or_lt with h0 | h0
  · exact ⟨⊤, by unfold logOdds; rw [if_pos h0.symm]⟩
  · exact ⟨_, logOdds_pos h0 h1⟩

theorem sumSqrt_pos {env : Env K τ F S C Z} (hE : ∀ x, 0 < x → 0 < env.num.sqrt x) {hyps : List (Hyp K)}
    (hne : hyps ≠ []) (hp : ∀ h ∈ hyps, 0 < h.prob) : 0 < sumSqrt env hyps := by
  unfold sumSqrt
  apply List.sum_pos
  · intro x hx
    obtain ⟨h, hh, rfl⟩ := List.mem_map.1 hx
    exact hE _ (hp h hh)
  · simpa using hne

theorem survOne_total {env : Env K τ F S C Z} {pr : Params K} (heps : 0 < pr.eps)
    {tab : List (Entry K τ F S C)} (hE : EnvPos env pr tab) {ss : K} (hss : ss ≠ 0) {h : Hyp K} (hp : 0 < h.prob)
    (hr : ∀ i ∈ h.tracks, i < tab.length) :
    ∃ out, survOne env pr tab ss h = .ok out ∧ ∀ x ∈ out, 0 < x.prob := by
  suffices hs : ∃ out, survOne env pr tab ss h = .ok out by
    obtain ⟨out, ho⟩ := hs
    refine ⟨out, ho, ?_⟩
    intro x hx
    rcases survOne_ok heps ho with ⟨_, rfl⟩ | ⟨_, ents, costs, paths, _, h2, _, _, h4⟩
    · rw [List.mem_singleton] at hx
      rw [hx]; exact hp
    · obtain ⟨pc, _, hpc, _, hpr⟩ := forall₂_mem_right h4 hx
      rw [hpr]
      refine mul_pos (mul_pos (prod_pos_list ?_) hp) (expNegTop_pos hE.exp hpc.2)
      intro e he
      obtain ⟨c, _, h1⟩ := forall₂_mem_left h2 he
      linarith [h1.range.2]
  unfold survOne
  split
  · exact ⟨_, rfl⟩
  · obtain ⟨ents, he⟩ := traverseE_total (getE tab) h.tracks fun i hi => ⟨_, getE_lt (hr i hi)⟩
    have hmt : ∀ e ∈ ents, e ∈ tab := by
      intro e hm
      obtain ⟨i, _, hi⟩ := forall₂_mem_right ((traverseE_ok _ _ _).1 he) hm
      exact List.mem_of_getElem? (getE_ok.1 hi)
    rw [he]
    simp only
    obtain ⟨costs, hc⟩ := traverseE_total (logOdds env) (ents.map env.psurv) (by
      intro p hp
      obtain ⟨e, hm, rfl⟩ := List.mem_map.1 hp
      exact logOdds_total (hE.surv e (hmt e hm)).1 (hE.surv e (hmt e hm)).2)
    rw [hc]
    simp only
    unfold share
    rw [if_neg hss]
    simp only
    have hc2 := (traverseE_ok _ _ _).1 hc
    obtain ⟨paths, hk⟩ := kList_total (env := env) heps (costs := costs)
      (Phd.pyRound ((pr.reqSurv : K) * env.num.sqrt h.prob / ss)).toNat (by
        intro c hc
        obtain ⟨p, hp, hpc⟩ := forall₂_mem_right hc2 hc
        obtain ⟨e, hm, rfl⟩ := List.mem_map.1 hp
        exact odds_total (hE.odds e (hmt e hm)) (logOdds_ok hpc))
    rw [hk]
    simp only
    apply traverseE_total
    intro pc hpc
    have hlt := ((kList_ok heps hk).2.2 pc hpc).2.1
    have hlen : costs.length = h.tracks.length := by
      have := hc2.length_eq
      rw [List.length_map] at this
      rw [← this, ((traverseE_ok _ _ _).1 he).length_eq]
    obtain ⟨ts, hts⟩ := traverseE_total (getE h.tracks) pc.1 fun i hi =>
      ⟨_, getE_lt (by rw [← hlen]; exact hlt i hi)⟩
    rw [hts]
    exact ⟨_, rfl⟩

theorem survHyps_total {env : Env K τ F S C Z} {pr : Params K} (heps : 0 < pr.eps)
    {tab : List (Entry K τ F S C)} (hE : EnvPos env pr tab) {hyps : List (Hyp K)} (hp : ∀ h ∈ hyps, 0 < h.prob)
    (hr : ∀ h ∈ hyps, ∀ i ∈ h.tracks, i < tab.length) :
    ∃ out, survHyps env pr tab hyps = .ok out ∧ ∀ x ∈ out, 0 < x.prob := by
  have hall : ∀ h ∈ hyps, ∃ out, survOne env pr tab (sumSqrt env hyps) h = .ok out ∧
      ∀ x ∈ out, 0 < x.prob := fun h hh =>
    survOne_total heps hE (sumSqrt_pos hE.sqrt (List.ne_nil_of_mem hh) hp).ne' (hp h hh) (hr h hh)
  obtain ⟨ls, hls⟩ := traverseE_total (survOne env pr tab (sumSqrt env hyps)) hyps
    fun h hh => let ⟨o, ho, _⟩ := hall h hh; ⟨o, ho⟩
  have hpos : ∀ x ∈ ls.flatten, 0 < x.prob := by
    intro x hx
    obtain ⟨l, hl, hxl⟩ := List.mem_flatten.1 hx
    obtain ⟨h, hh, hs⟩ := forall₂_mem_right ((traverseE_ok _ _ _).1 hls) hl
    obtain ⟨o, ho, hop⟩ := hall h hh
    rw [ho, Except.ok.injEq] at hs
    exact hop x (hs ▸ hxl)
  obtain ⟨out, ho⟩ := normHyps_total hpos
  refine ⟨out, ?_, normHyps_pos ho hpos⟩
  unfold survHyps
  rw [hls]
  exact ho

theorem addHyp_pos : ∀ (l : List (Hyp K)) (h : Hyp K), (∀ x ∈ l, 0 < x.prob) → 0 < h.prob →
    ∀ x ∈ addHyp l h, 0 < x.prob
  | [], h, _, h0, x, hx => by
    simp only [addHyp, List.mem_singleton] at hx
    rw [hx]; exact h0
  | a :: l, h, hl, h0, x, hx => by
    unfold addHyp at hx
    split at hx
    · rcases List.mem_cons.1 hx with rfl | hx
      · have := hl a List.mem_cons_self
        simp only
        linarith
      · exact hl x (List.mem_cons_of_mem _ hx)
    · rcases List.mem_cons.1 hx with rfl | hx
      · exact hl x List.mem_cons_self
      · exact addHyp_pos l h (fun y hy => hl y (List.mem_cons_of_mem _ hy)) h0 x hx

theorem cleanPred_pos (hyps : List (Hyp K)) (h : ∀ x ∈ hyps, 0 < x.prob) :
    ∀ x ∈ cleanPred hyps, 0 < x.prob := by
  unfold cleanPred
  have : ∀ (l acc : List (Hyp K)), (∀ x ∈ acc, 0 < x.prob) → (∀ x ∈ l, 0 < x.prob) →
      ∀ x ∈ l.foldl addHyp acc, 0 < x.prob := by
    intro l
    induction l with
    | nil => intro acc h _; exact h
    | cons a l ih =>
      intro acc h h2
      exact ih _ (addHyp_pos _ _ h (h2 a List.mem_cons_self))
        fun x hx => h2 x (List.mem_cons_of_mem _ hx)
  exact this hyps [] (by simp) h

theorem calcCard_ne (hyps : List (Hyp K)) : calcCard hyps ≠ [] := by
  unfold calcCard
  split
  · simp
  · intro h
    have := congrArg List.length h
    simp at this

/-- State invariant of the regular schedule; `d` is 0 between time steps and 1 between `predict` and
`cleanup`. -/
structure TInv (d : ℕ) (st : St K τ F S C) : Prop where
  idx : IdxInv st
  ent : ∀ e ∈ st.tab, EntWF e
  time : ∀ e ∈ st.tab, e.tIdx + e.sHist.length ≤ st.cntr + d
  meas : ∀ e ∈ st.tab, e.tIdx + e.mHist.length ≤ st.cntr + d
  pos : ∀ h ∈ st.hyps, 0 < h.prob
  ext : ∀ x ∈ st.ext, x.tIdx + x.states.length ≤ st.cntr ∧ x.tIdx + x.mHist.length ≤ st.cntr ∧
    x.states.length = x.covs.length

theorem init_tinv : TInv 0 (init : St K τ F S C) := by
  refine ⟨init_idx, ?_, ?_, ?_, ?_, ?_⟩ <;> simp [init]

theorem predict_total {env : Env K τ F S C Z} {pr : Params K} (heps : 0 < pr.eps) {st : St K τ F S C}
    (hE : EnvPos env pr st.tab) (lab : τ) {births : List (Birth K F S C)} (hb : ∀ b ∈ births, BirthWF b)
    (hbo : ∀ b ∈ births, OddsOk env pr b.prob) (hI : TInv 0 st) :
    ∃ st', predict env pr lab births st = .ok st' ∧ TInv 1 st' ∧
      (∀ e ∈ st'.tab, e.tIdx + e.mHist.length ≤ st'.cntr) ∧ st'.card ≠ [] := by
  obtain ⟨costs, hc⟩ := traverseE_total (logOdds env) (births.map fun b => b.prob) (by
    intro p hp
    obtain ⟨b, hb', rfl⟩ := List.mem_map.1 hp
    exact logOdds_total (hb b hb').p0 (hb b hb').p1)
  obtain ⟨paths, hk⟩ := kList_total (env := env) heps (costs := costs) pr.reqBirths (by
    intro c hc'
    obtain ⟨p, hp, hpc⟩ := forall₂_mem_right ((traverseE_ok _ _ _).1 hc) hc'
    obtain ⟨b, hb', rfl⟩ := List.mem_map.1 hp
    exact odds_total (hbo b hb') (logOdds_ok hpc))
  have hbp : ∀ x ∈ paths.map (fun pc => (⟨(births.map fun b => 1 - b.prob).prod *
      expNegTop env pc.2, pc.1⟩ : Hyp K)), 0 < x.prob := by
    intro x hx
    obtain ⟨pc, hpc, rfl⟩ := List.mem_map.1 hx
    refine mul_pos (prod_pos_list ?_) (expNegTop_pos hE.exp ((kList_ok heps hk).2.2 pc hpc).2.2.1)
    intro b hb'
    have := (hb b hb').p1
    linarith
  obtain ⟨bh, hbh⟩ := normHyps_total hbp
  have hbhp := normHyps_pos hbh hbp
  obtain ⟨survTab, hst⟩ := traverseE_total (predictEntry env) st.tab fun e he =>
    let ⟨e', h1, _⟩ := predictEntry_total env (hI.ent e he); ⟨e', h1⟩
  obtain ⟨sh, hsh, hshp⟩ := survHyps_total heps hE (tab := st.tab) hI.pos hI.idx.range
  have hcp : ∀ x ∈ (bh.flatMap fun b => sh.map fun s =>
      ({ prob := b.prob * s.prob, tracks := b.tracks ++ s.tracks.map fun x => x + births.length } : Hyp K)),
      0 < x.prob := by
    intro x hx
    obtain ⟨b, hb', hx⟩ := List.mem_flatMap.1 hx
    obtain ⟨s, hs, rfl⟩ := List.mem_map.1 hx
    exact mul_pos (hbhp b hb') (hshp s hs)
  obtain ⟨hs, hhs⟩ := normHyps_total hcp
  have hpr : predict env pr lab births st = .ok { st with
                tab := birthTab lab st.cntr births ++ survTab
                card := calcCard sh
                hyps := cleanPred hs } := by
    unfold predict birthHyps setPredHyps
    rw [hc]
    simp only
    rw [hk]
    simp only
    rw [hbh]
    simp only
    rw [hst]
    simp only
    rw [hsh]
    simp only
    rw [hhs]
  have hst2 := (traverseE_ok _ _ _).1 hst
  have hsurv : ∀ e ∈ survTab, EntWF e ∧ e.tIdx + e.sHist.length ≤ st.cntr + 1 ∧
      e.tIdx + e.mHist.length ≤ st.cntr := by
    intro e he
    obtain ⟨e0, he0, h1⟩ := forall₂_mem_right hst2 he
    obtain ⟨e', h2, h3, h4⟩ := predictEntry_total env (hI.ent e0 he0)
    rw [h2, Except.ok.injEq] at h1
    subst h1
    obtain ⟨_, l2, l3⟩ := predictEntry_label h2
    have := hI.time e0 he0
    have := hI.meas e0 he0
    refine ⟨h3, ?_, ?_⟩
    · rw [h4, l2]; omega
    · rw [l2, l3]; omega
  have hbirth : ∀ e ∈ birthTab (K := K) lab st.cntr births, EntWF e ∧
      e.tIdx + e.sHist.length ≤ st.cntr + 1 ∧ e.tIdx + e.mHist.length ≤ st.cntr := by
    intro e he
    refine ⟨birthTab_wf hb he, ?_⟩
    obtain ⟨k, hk⟩ := List.mem_iff_getElem?.1 he
    obtain ⟨_, b2, b3, b4⟩ := birthTab_get hk
    rw [b2, b3, b4]
    simp
  refine ⟨_, hpr, ⟨predict_idx heps hI.idx hpr, ?_, ?_, ?_, ?_, hI.ext⟩, ?_, calcCard_ne _⟩
  · intro e he
    rcases List.mem_append.1 he with he | he
    · exact (hbirth e he).1
    · exact (hsurv e he).1
  · intro e he
    rcases List.mem_append.1 he with he | he
    · exact (hbirth e he).2.1
    · exact (hsurv e he).2.1
  · intro e he
    rcases List.mem_append.1 he with he | he
    · exact ((hbirth e he).2.2).trans (Nat.le_succ _)
    · exact ((hsurv e he).2.2).trans (Nat.le_succ _)
  · exact cleanPred_pos _ (normHyps_pos hhs hcp)
  · intro e he
    rcases List.mem_append.1 he with he | he
    · exact (hbirth e he).2.2
    · exact (hsurv e he).2.2

/-! ### Correction -/

theorem costEntry_total {pr : Params K} {clutter pd c : K} (hpd : pd < 1) :
    ∃ x, costEntry pr clutter pd c = .ok x := by
  unfold costEntry
  rw [if_neg (by have : 0 < 1 - pd := by linarith
                 exact this.ne')]
  exact ⟨_, rfl⟩

theorem corOne_total {env : Env K τ F S C Z} {pr : Params K} {tab : List (Entry K τ F S C)}
    (hE : EnvPos env pr tab) (hcl : 0 < pr.clutterRate * pr.clutterDen)
    {blocks : List (List (Option (Entry K τ F S C) × K))} (hb : ∀ b ∈ blocks, b.length = tab.length)
    {ss : K} (hss : ss ≠ 0) {h : Hyp K} (hp : 0 < h.prob) (hr : ∀ i ∈ h.tracks, i < tab.length) :
    ∃ out, corOne env pr tab blocks ss h = .ok out ∧ ∀ x ∈ out, 0 < x.prob := by
  suffices hs : ∃ out, corOne env pr tab blocks ss h = .ok out by
    obtain ⟨out, ho⟩ := hs
    refine ⟨out, ho, ?_⟩
    intro x hx
    obtain ⟨ents, hents, h1⟩ := corOne_ok ho
    have hdet : 0 < (ents.map fun e => 1 - env.pdet e).prod := by
      apply prod_pos_list
      intro e hm
      obtain ⟨i, _, hi⟩ := forall₂_mem_right hents hm
      have := hE.det e (List.mem_of_getElem? hi)
      linarith
    obtain h1 | h1 | h1 := h1
    · obtain ⟨_, rfl⟩ := h1
      rw [List.mem_singleton] at hx
      subst hx
      exact mul_pos (mul_pos (hE.exp _) hdet) hp
    · obtain ⟨_, hcl, _, rfl⟩ := h1
      rw [List.mem_singleton] at hx
      subst hx
      exact mul_pos (mul_pos (hE.exp _) (pow_pos hcl _)) hp
    · obtain ⟨_, hcl, _, _, rows, assigns, _, _, rfl⟩ := h1
      obtain ⟨ac, _, rfl⟩ := List.mem_map.1 hx
      exact mul_pos (mul_pos (mul_pos (mul_pos (hE.exp _) (pow_pos hcl _)) hdet) hp) (hE.exp _)
  unfold corOne
  obtain ⟨ents, he⟩ := traverseE_total (getE tab) h.tracks fun i hi => ⟨_, getE_lt (hr i hi)⟩
  rw [he]
  simp only
  by_cases h0 : blocks = []
  · rw [if_pos h0]; exact ⟨_, rfl⟩
  · rw [if_neg h0, if_neg (not_le.2 hcl)]
    by_cases ht : h.tracks = []
    · rw [if_pos ht]; exact ⟨_, rfl⟩
    · rw [if_neg ht]
      have hmt : ∀ e ∈ ents, e ∈ tab := by
        intro e hm
        obtain ⟨i, _, hi⟩ := forall₂_mem_right ((traverseE_ok _ _ _).1 he) hm
        exact List.mem_of_getElem? (getE_ok.1 hi)
      have hrows : ∃ rows, costRows env pr blocks h.tracks ents = .ok rows := by
        apply traverseE_total
        intro te hte
        have hte1 : te.1 ∈ h.tracks := (List.of_mem_zip hte).1
        apply traverseE_total
        intro b hb'
        unfold blockCost
        rw [getE_lt (by rw [hb b hb']; exact hr _ hte1)]
        exact costEntry_total (hE.det _ (hmt _ (List.of_mem_zip hte).2))
      obtain ⟨rows, hrows⟩ := hrows
      rw [hrows]
      simp only
      unfold share
      rw [if_neg hss]
      simp only
      obtain ⟨out, hm, _⟩ := murty_spec (costMat env rows h.tracks.length blocks.length)
        (Phd.pyRound ((pr.reqUpd : K) * env.num.sqrt h.prob / ss)).toNat (List.length_pos_iff.2 ht)
      rw [hm]
      exact ⟨_, rfl⟩

theorem correct_total {env : Env K τ F S C Z} {pr : Params K} (heps : 0 < pr.eps) {st : St K τ F S C}
    (hE : EnvPos env pr st.tab) (hcl : 0 < pr.clutterRate * pr.clutterDen) (meas : List Z)
    (hI : TInv 1 st) (hm : ∀ e ∈ st.tab, e.tIdx + e.mHist.length ≤ st.cntr) :
    ∃ st', correct env pr meas st = .ok st' ∧ TInv 1 st' ∧ st'.card ≠ [] := by
  have hce : ∀ z e, e ∈ st.tab → ∃ r, correctEntry env pr z e = .ok r := fun z e he =>
    let ⟨o, c, h1, _⟩ := correctEntry_total env pr heps z (hE.lik e he) (hI.ent e he); ⟨(o, c), h1⟩
  obtain ⟨blocks, hbl⟩ : ∃ blocks, corBlocks env pr st.tab meas = .ok blocks := by
    apply traverseE_total
    intro ze _
    unfold corBlock
    obtain ⟨l, hl⟩ := traverseE_total (correctEntry env pr ze.1) st.tab fun e he => hce _ e he
    rw [hl]
    exact ⟨_, rfl⟩
  obtain ⟨b1, b2, b3⟩ := corBlocks_ok hbl
  have hall : ∀ h ∈ st.hyps, ∃ out, corOne env pr st.tab blocks (sumSqrt env st.hyps) h = .ok out ∧
      ∀ x ∈ out, 0 < x.prob := fun h hh =>
    corOne_total hE hcl b2 (sumSqrt_pos hE.sqrt (List.ne_nil_of_mem hh) hI.pos).ne' (hI.pos h hh)
      (hI.idx.range h hh)
  obtain ⟨ls, hls⟩ := traverseE_total (corOne env pr st.tab blocks (sumSqrt env st.hyps)) st.hyps
    fun h hh => let ⟨o, ho, _⟩ := hall h hh; ⟨o, ho⟩
  have hpos : ∀ x ∈ ls.flatten, 0 < x.prob := by
    intro x hx
    obtain ⟨l, hl, hxl⟩ := List.mem_flatten.1 hx
    obtain ⟨h, hh, hs⟩ := forall₂_mem_right ((traverseE_ok _ _ _).1 hls) hl
    obtain ⟨o, ho, hop⟩ := hall h hh
    rw [ho, Except.ok.injEq] at hs
    exact hop x (hs ▸ hxl)
  obtain ⟨hs, hhs⟩ := normHyps_total hpos
  have hcor : corHyps env pr st.tab blocks st.hyps = .ok hs := by
    unfold corHyps; rw [hls]; exact hhs
  have hrange : ∀ x ∈ hs, ∀ i ∈ x.tracks, i < (upTab st.tab blocks).length := by
    intro x hx i hi
    obtain ⟨p, hp, a, a1, _, a3⟩ := corHyps_mem hcor hx
    rw [a3] at hi
    obtain ⟨t, _, rfl⟩ := List.mem_map.1 hi
    rw [upTab_length b2]
    have h1 := hI.idx.range p hp p.tracks[t] (List.getElem_mem _)
    have h2 := Nat.mul_le_mul_left st.tab.length (a1 t)
    rw [Nat.mul_succ]
    omega
  have hcorrect : ∃ st', correct env pr meas st = .ok st' := by
    unfold correct
    rw [hbl]
    simp only
    rw [hcor]
    simp only
    unfold cleanUpd
    rw [if_neg]
    · exact ⟨_, rfl⟩
    · intro hc
      rw [List.any_eq_true] at hc
      obtain ⟨x, hx, hc⟩ := hc
      rw [List.any_eq_true] at hc
      obtain ⟨i, hi, hc⟩ := hc
      have := hrange x hx i hi
      have h2 : (upTab st.tab blocks).length ≤ i := by simpa using hc
      omega
  obtain ⟨st', hst'⟩ := hcorrect
  obtain ⟨blocks', hs', h1, h2, h3, h4⟩ := correct_ok hst'
  rw [hbl, Except.ok.injEq] at h1
  subst h1
  rw [hcor, Except.ok.injEq] at h2
  subst h2
  have hcntr : st'.cntr = st.cntr := by rw [h4]
  have hext : st'.ext = st.ext := by rw [h4]
  have hent : ∀ e' ∈ st'.tab, EntWF e' ∧ e'.tIdx + e'.sHist.length ≤ st.cntr + 1 ∧
      e'.tIdx + e'.mHist.length ≤ st.cntr + 1 := by
    intro e' he'
    obtain ⟨e, he, m, hu⟩ := correct_tab hI.idx hst' he'
    obtain ⟨_, l2, l3⟩ := hu.label
    have ht := hI.time e he
    have hmm := hm e he
    have hmh : e'.tIdx + e'.mHist.length ≤ st.cntr + 1 := by
      rw [l2, l3, List.length_append, List.length_singleton]; omega
    rcases hu with ⟨_, rfl⟩ | ⟨j, z, e0, c, _, _, hc, rfl⟩
    · exact ⟨⟨(hI.ent e he).lw, (hI.ent e he).lc, (hI.ent e he).ne, (hI.ent e he).par,
        (hI.ent e he).last⟩, ht, hmh⟩
    · obtain ⟨o, c', g1, _, g2⟩ := correctEntry_total env pr heps z (hE.lik e he) (hI.ent e he)
      rw [hc, Except.ok.injEq, Prod.mk.injEq] at g1
      obtain ⟨w, hlen⟩ := g2 e0 g1.1.symm
      refine ⟨⟨w.lw, w.lc, w.ne, w.par, w.last⟩, ?_, hmh⟩
      rw [l2]
      simp only [addMeas]
      rw [hlen]; exact ht
  refine ⟨st', hst', ⟨correct_idx hI.idx hst', fun e he => (hent e he).1, ?_, ?_, ?_, ?_⟩, ?_⟩
  · intro e he; rw [hcntr]; exact (hent e he).2.1
  · intro e he; rw [hcntr]; exact (hent e he).2.2
  · obtain ⟨_, _, _, _, hh⟩ := cleanUpd_ok h3
    rw [hh]
    intro x hx
    obtain ⟨q, hq, rfl⟩ := List.mem_map.1 hx
    exact normHyps_pos hhs hpos q (List.mem_filter.1 hq).1
  · rw [hext, hcntr]; exact hI.ext
  · rw [h4]; exact calcCard_ne _

/-! ### Clean-up and extraction -/

theorem addUsed_total (cntr tIdx : ℕ) : ∀ (l : List (Option ℕ)) (k : ℕ) (used : List ℕ),
    tIdx + k + l.length ≤ cntr → ∃ u, addUsed cntr tIdx (l.zipIdx k) used = .ok u
  | [], k, used, _ => ⟨used, by simp [addUsed]⟩
  | none :: l, k, used, h => by
    rw [List.zipIdx_cons]
    unfold addUsed
    exact addUsed_total cntr tIdx l (k + 1) used (by rw [List.length_cons] at h; omega)
  | some m :: l, k, used, h => by
    rw [List.zipIdx_cons]
    unfold addUsed
    rw [if_pos (by rw [List.length_cons] at h; omega)]
    exact addUsed_total cntr tIdx l (k + 1) _ (by rw [List.length_cons] at h; omega)

theorem allUsed_total (cntr : ℕ) : ∀ (l : List (Ext τ S C)) (used : List ℕ),
    (∀ x ∈ l, x.tIdx + x.mHist.length ≤ cntr) → ∃ u, allUsed cntr l used = .ok u
  | [], used, _ => ⟨used, rfl⟩
  | e :: es, used, h => by
    unfold allUsed
    obtain ⟨u, hu⟩ := addUsed_total cntr e.tIdx e.mHist 0 used (by
      have := h e List.mem_cons_self; omega)
    rw [hu]
    exact allUsed_total cntr es u fun x hx => h x (List.mem_cons_of_mem _ hx)

theorem clashes_total (cntr tIdx : ℕ) (used : List ℕ) : ∀ (l : List (Option ℕ)) (k : ℕ),
    tIdx + k + l.length ≤ cntr → ∃ b, clashes cntr tIdx used (l.zipIdx k) = .ok b
  | [], k, _ => ⟨false, by simp [clashes]⟩
  | none :: l, k, h => by
    rw [List.zipIdx_cons]
    unfold clashes
    exact clashes_total cntr tIdx used l (k + 1) (by rw [List.length_cons] at h; omega)
  | some m :: l, k, h => by
    rw [List.zipIdx_cons]
    unfold clashes
    rw [if_pos (by rw [List.length_cons] at h; omega)]
    split
    · exact ⟨_, rfl⟩
    · exact clashes_total cntr tIdx used l (k + 1) (by rw [List.length_cons] at h; omega)

theorem keepOld_total (cntr : ℕ) (labels : List (τ × ℕ)) (used : List ℕ) : ∀ (l : List (Ext τ S C)),
    (∀ x ∈ l, x.tIdx + x.mHist.length ≤ cntr) → ∃ r, keepOld cntr labels used l = .ok r
  | [], _ => ⟨[], rfl⟩
  | e :: es, h => by
    unfold keepOld
    obtain ⟨r, hr⟩ := keepOld_total cntr labels used es fun x hx => h x (List.mem_cons_of_mem _ hx)
    split
    · exact ⟨r, hr⟩
    · obtain ⟨b, hb⟩ := clashes_total cntr e.tIdx used e.mHist 0 (by
        have := h e List.mem_cons_self; omega)
      rw [hb]
      simp only
      rw [hr]
      exact ⟨_, rfl⟩

theorem mkExt_total {e : Entry K τ F S C} (h : EntWF e) : ∃ x, mkExt e = .ok x := by
  unfold mkExt
  rw [if_pos ⟨h.lw, h.lc.symm⟩]
  obtain ⟨l, hl⟩ : ∃ l, traverseE bestState (e.wHist.zip (e.sHist.zip e.cHist)) = .ok l := by
    apply traverseE_total
    rintro ⟨w, s, c⟩ hx
    obtain ⟨k, hk, hkv⟩ := List.getElem_of_mem hx
    simp only [List.getElem_zip, Prod.mk.injEq] at hkv
    obtain ⟨hw, hs, hc⟩ := hkv
    rw [List.length_zip, List.length_zip] at hk
    obtain ⟨p1, p2, p3⟩ := h.par k s w c (List.getElem?_eq_some_iff.2 ⟨by omega, hs⟩)
      (List.getElem?_eq_some_iff.2 ⟨by omega, hw⟩) (List.getElem?_eq_some_iff.2 ⟨by omega, hc⟩)
    unfold bestState
    obtain ⟨i, hi, hlt⟩ := argmaxE_total p3
    rw [hi]
    simp only
    rw [getE_lt (l := s) (by omega), getE_lt (l := c) (by omega)]
    exact ⟨_, rfl⟩
  rw [hl]
  exact ⟨_, rfl⟩

theorem reportOne_total (cntr : ℕ) (label : τ × ℕ) (tIdx : ℕ) : ∀ (l : List (S × C)) (k : ℕ)
    (r : List (List S) × List (List (τ × ℕ)) × List (List C)), tIdx + k + l.length ≤ cntr →
    ∃ r', reportOne cntr label tIdx (l.zipIdx k) r = .ok r'
  | [], k, r, _ => ⟨r, by simp [reportOne]⟩
  | (s, c) :: l, k, r, h => by
    rw [List.zipIdx_cons]
    unfold reportOne
    rw [if_pos (by rw [List.length_cons] at h; omega)]
    exact reportOne_total cntr label tIdx l (k + 1) _ (by rw [List.length_cons] at h; omega)

theorem report_total (cntr : ℕ) : ∀ (l : List (Ext τ S C))
    (r : List (List S) × List (List (τ × ℕ)) × List (List C)),
    (∀ x ∈ l, x.tIdx + x.states.length ≤ cntr) → ∃ r', report cntr l r = .ok r'
  | [], r, _ => ⟨r, rfl⟩
  | e :: es, r, h => by
    unfold report
    obtain ⟨r1, h1⟩ := reportOne_total cntr e.label e.tIdx (e.states.zip e.covs) 0 r (by
      have := h e List.mem_cons_self
      rw [List.length_zip]; omega)
    rw [h1]
    exact report_total cntr es r1 fun x hx => h x (List.mem_cons_of_mem _ hx)

theorem extract_total (u c : Bool) {st : St K τ F S C} (hI : TInv 0 st) (hcard : st.card ≠ []) :
    ∃ st' o, extract u c st = .ok (st', o) ∧ TInv 0 st' ∧ st'.card ≠ [] := by
  have hsuff : ∃ r, extract u c st = .ok r := by
    unfold extract
    obtain ⟨n, hn, _⟩ := argmaxE_total hcard
    rw [hn]
    simp only
    split
    · exact ⟨_, rfl⟩
    · rename_i h0
      obtain ⟨idx, hidx, hlt⟩ := argmaxE_total (l := maskedWeights n st.hyps) (by
        unfold maskedWeights; simpa using h0)
      rw [hidx]
      simp only
      have hlt' : idx < st.hyps.length := by simpa [maskedWeights] using hlt
      obtain ⟨ext, hext, hextwf⟩ : ∃ ext, (if u then updateExt { st with
          states := List.replicate st.cntr [], labels := List.replicate st.cntr []
          covs := List.replicate st.cntr [] } idx else .ok st.ext) = .ok ext ∧
          ∀ x ∈ ext, x.tIdx + x.states.length ≤ st.cntr := by
        cases u with
        | false => exact ⟨st.ext, rfl, fun x hx => (hI.ext x hx).1⟩
        | true =>
          rw [if_pos rfl]
          have hh : (st.hyps[idx]) ∈ st.hyps := List.getElem_mem _
          obtain ⟨ents, he⟩ := traverseE_total (getE st.tab) (st.hyps[idx]).tracks fun i hi =>
            ⟨_, getE_lt (hI.idx.range _ hh i hi)⟩
          have he2 := (traverseE_ok _ _ _).1 he
          have hem : ∀ e ∈ ents, e ∈ st.tab := by
            intro e hee
            obtain ⟨i, _, hi⟩ := forall₂_mem_right he2 hee
            exact List.mem_of_getElem? (getE_ok.1 hi)
          obtain ⟨news, hn⟩ := traverseE_total mkExt ents fun e hee => mkExt_total (hI.ent e (hem e hee))
          have hn2 := (traverseE_ok _ _ _).1 hn
          have hnew : ∀ x ∈ news, x.tIdx + x.mHist.length ≤ st.cntr ∧
              x.tIdx + x.states.length ≤ st.cntr := by
            intro x hx
            obtain ⟨e, hee, hmk⟩ := forall₂_mem_right hn2 hx
            obtain ⟨_, k2, k3, _, k5, _⟩ := mkExt_ok hmk
            rw [k2, k3, k5]
            exact ⟨hI.meas e (hem e hee), hI.time e (hem e hee)⟩
          obtain ⟨used, hus⟩ := allUsed_total st.cntr news [] fun x hx => (hnew x hx).1
          obtain ⟨old, hold⟩ := keepOld_total st.cntr (news.map fun e => e.label) used st.ext
            fun x hx => (hI.ext x hx).2.1
          refine ⟨old ++ news, ?_, ?_⟩
          · unfold updateExt
            simp only
            rw [getE_lt hlt']
            simp only
            rw [he]
            simp only
            rw [hn]
            simp only
            rw [hus]
            simp only
            rw [hold]
          · intro x hx
            rcases List.mem_append.1 hx with hx | hx
            · exact (hI.ext x ((keepOld_sub _ _ _ _ _ hold).1.subset hx)).1
            · exact (hnew x hx).2
      rw [hext]
      simp only
      split
      · obtain ⟨r, hr⟩ := report_total st.cntr ext (List.replicate st.cntr [], List.replicate st.cntr [],
          List.replicate st.cntr []) hextwf
        rw [hr]
        exact ⟨_, rfl⟩
      · exact ⟨_, rfl⟩
  obtain ⟨⟨st', o⟩, h⟩ := hsuff
  refine ⟨st', o, h, ?_, ?_⟩
  · obtain ⟨f1, f2, f3, f4⟩ := extract_frame h
    refine ⟨⟨by rw [f1, f2]; exact hI.idx.range, by rw [f2]; exact hI.idx.nodup⟩, by rw [f1]; exact hI.ent,
      by rw [f1, f4]; exact hI.time, by rw [f1, f4]; exact hI.meas, by rw [f2]; exact hI.pos, ?_⟩
    rw [f4]
    obtain ⟨n, _, ⟨_, _, rfl⟩ | ⟨_, idx, ext, r, _, _, hext, _, rfl⟩⟩ := extract_ok h
    · exact hI.ext
    · cases u with
      | false =>
        simp only [Bool.false_eq_true, if_false, Except.ok.injEq] at hext
        subst hext
        exact hI.ext
      | true =>
        rw [if_pos rfl] at hext
        obtain ⟨hyp, ents, news, old, _, g2, g3, rfl, g4, _⟩ := updateExt_ok hext
        intro x hx
        rcases List.mem_append.1 hx with hx | hx
        · exact hI.ext x (g4.subset hx)
        · obtain ⟨e, hee, hmk⟩ := forall₂_mem_right g3 hx
          obtain ⟨i, _, hi⟩ := forall₂_mem_right g2 hee
          have hm := List.mem_of_getElem? hi
          obtain ⟨_, k2, k3, k4, k5, _⟩ := mkExt_ok hmk
          rw [k2, k3, k5]
          exact ⟨hI.time e hm, hI.meas e hm, k5 ▸ k4⟩
  · rw [(extract_frame h).2.2.1]; exact hcard

theorem cleanup_total {env : Env K τ F S C Z} {pr : Params K}
    (hA : ∀ ws, IsArgsort ws (env.argsort ws))
    (bp bc be u c : Bool) {st : St K τ F S C} (hI : TInv 1 st) (hcard : st.card ≠ []) :
    ∃ st', cleanup env pr bp bc be u c st = .ok st' ∧ TInv 0 st' ∧ st'.card ≠ [] := by
  have hI0 : TInv 0 ({ st with cntr := st.cntr + 1 } : St K τ F S C) :=
    ⟨⟨hI.idx.range, hI.idx.nodup⟩, hI.ent, hI.time, hI.meas, hI.pos, fun x hx => by
      obtain ⟨a, b, c⟩ := hI.ext x hx
      exact ⟨a.trans (Nat.le_succ _), b.trans (Nat.le_succ _), c⟩⟩
  have hprune : ∃ s1, (if bp then prune pr { st with cntr := st.cntr + 1 }
      else .ok { st with cntr := st.cntr + 1 }) = .ok s1 ∧ TInv 0 s1 ∧ s1.card ≠ [] := by
    cases bp with
    | false => exact ⟨_, rfl, hI0, hcard⟩
    | true =>
      rw [if_pos rfl]
      have hfp : ∀ x ∈ st.hyps.filter (fun h => decide (pr.pruneThreshold < h.prob)), 0 < x.prob :=
        fun x hx => hI.pos x (List.mem_filter.1 hx).1
      obtain ⟨hs, hn⟩ := normHyps_total hfp
      have hpr : prune pr ({ st with cntr := st.cntr + 1 } : St K τ F S C) =
          .ok { st with cntr := st.cntr + 1, hyps := hs, card := calcCard hs } := by
        unfold prune
        simp only
        rw [hn]
      refine ⟨_, hpr, ⟨(prune_shrinks hpr).idx hI0.idx, hI0.ent, hI0.time, hI0.meas,
        normHyps_pos hn hfp, hI0.ext⟩, calcCard_ne _⟩
  obtain ⟨s1, h1, hI1, hc1⟩ := hprune
  have hcap : ∃ s2, (if bc then cap env pr s1 else .ok s1) = .ok s2 ∧ TInv 0 s2 ∧ s2.card ≠ [] := by
    cases bc with
    | false => exact ⟨_, rfl, hI1, hc1⟩
    | true =>
      rw [if_pos rfl]
      by_cases hlt : pr.maxHyps < s1.hyps.length
      · obtain ⟨kept, hk⟩ := traverseE_total (getE s1.hyps)
          (((env.argsort (s1.hyps.map fun h => h.prob)).reverse).take pr.maxHyps) (by
            intro i hi
            have h3 := List.mem_reverse.1 (List.mem_of_mem_take hi)
            have h4 := (hA (s1.hyps.map fun h => h.prob)).1.subset h3
            rw [List.mem_range, List.length_map] at h4
            exact ⟨_, getE_lt h4⟩)
        have hk2 : ∀ x ∈ kept, 0 < x.prob := by
          intro x hx
          obtain ⟨i, _, hi⟩ := forall₂_mem_right ((traverseE_ok _ _ _).1 hk) hx
          exact hI1.pos x (List.mem_of_getElem? (getE_ok.1 hi))
        obtain ⟨hs, hn⟩ := normHyps_total hk2
        have hc : cap env pr s1 = .ok { s1 with hyps := hs, card := calcCard hs } := by
          unfold cap
          rw [if_pos hlt, hk]
          simp only
          rw [hn]
        exact ⟨_, hc, ⟨(cap_shrinks hc).idx hI1.idx, hI1.ent, hI1.time, hI1.meas,
          normHyps_pos hn hk2, hI1.ext⟩, calcCard_ne _⟩
      · refine ⟨s1, ?_, hI1, hc1⟩
        unfold cap
        rw [if_neg hlt]
  obtain ⟨s2, h2, hI2, hc2⟩ := hcap
  unfold cleanup
  rw [h1]
  simp only
  rw [h2]
  simp only
  cases be with
  | false => exact ⟨s2, rfl, hI2, hc2⟩
  | true =>
    obtain ⟨s3, o, h3, hI3, hc3⟩ := extract_total u c hI2 hc2
    rw [if_pos rfl, h3]
    exact ⟨s3, rfl, hI3, hc3⟩

end Gasur.Glmb
