import Verif.Model.Glmb
import Verif.Proofs.KSub
import Verif.Proofs.MurtyMain
import Verif.Props.Murty
import Mathlib.Algebra.BigOperators.Group.List.Basic
import Mathlib.Algebra.Order.BigOperators.Group.List
import Mathlib.Tactic.Linarith
import Mathlib.Tactic.Ring
import Mathlib.Data.List.Forall2

/-! Basic lemmas about the GLMB model. -/

set_option linter.unusedSectionVars false
set_option linter.unusedSimpArgs false

namespace Gasur.Glmb

open Gasur.KShortest Gasur.Murty Gasur.Spec

theorem traverseE_ok {α β ε : Type*} (f : α → Except ε β) : ∀ (l : List α) (r : List β),
    traverseE f l = .ok r ↔ List.Forall₂ (fun a b => f a = .ok b) l r
  | [], r => by
    simp only [traverseE, Except.ok.injEq]
    constructor
    · rintro rfl; exact .nil
    · intro h; cases h; rfl
  | a :: l, r => by
    unfold traverseE
    cases hf : f a with
    | error e =>
      simp only [reduceCtorEq, false_iff]
      intro h
      cases h with
      | cons h1 _ => rw [hf] at h1; simp at h1
    | ok b =>
      simp only
      cases ht : traverseE f l with
      | error e =>
        simp only [reduceCtorEq, false_iff]
        intro h
        cases h with
        | cons h1 h2 => rw [← traverseE_ok f l, ht] at h2; simp at h2
      | ok r' =>
        simp only [Except.ok.injEq]
        constructor
        · rintro rfl
          exact .cons hf ((traverseE_ok f l r').1 ht)
        · intro h
          cases h with
          | cons h1 h2 =>
            rw [hf] at h1
            simp only [Except.ok.injEq] at h1
            rw [← traverseE_ok f l, ht] at h2
            simp only [Except.ok.injEq] at h2
            rw [h1, h2]

theorem traverseE_total {α β ε : Type*} (f : α → Except ε β) : ∀ (l : List α),
    (∀ a ∈ l, ∃ b, f a = .ok b) → ∃ r, traverseE f l = .ok r
  | [], _ => ⟨[], rfl⟩
  | a :: l, h => by
    obtain ⟨b, hb⟩ := h a List.mem_cons_self
    obtain ⟨r, hr⟩ := traverseE_total f l fun x hx => h x (List.mem_cons_of_mem _ hx)
    exact ⟨b :: r, by simp [traverseE, hb, hr]⟩

theorem getE_ok {α : Type*} {l : List α} {i : ℕ} {a : α} : getE l i = .ok a ↔ l[i]? = some a := by
  unfold getE
  cases l[i]? <;> simp

theorem getE_lt {α : Type*} {l : List α} {i : ℕ} (h : i < l.length) : getE l i = .ok l[i] := by
  rw [getE_ok]
  exact List.getElem?_eq_getElem h

theorem forall₂_mem_right {α β : Type*} {R : α → β → Prop} {l : List α} {r : List β}
    (h : List.Forall₂ R l r) {b} (hb : b ∈ r) : ∃ a ∈ l, R a b := by
  induction h with
  | nil => simp at hb
  | cons h1 _ ih =>
    rcases List.mem_cons.1 hb with rfl | hb
    · exact ⟨_, List.mem_cons_self, h1⟩
    · obtain ⟨a, ha, hr⟩ := ih hb
      exact ⟨a, List.mem_cons_of_mem _ ha, hr⟩

theorem forall₂_mem_left {α β : Type*} {R : α → β → Prop} {l : List α} {r : List β}
    (h : List.Forall₂ R l r) {a} (ha : a ∈ l) : ∃ b ∈ r, R a b := by
  induction h with
  | nil => simp at ha
  | cons h1 _ ih =>
    rcases List.mem_cons.1 ha with rfl | ha
    · exact ⟨_, List.mem_cons_self, h1⟩
    · obtain ⟨b, hb, hr⟩ := ih ha
      exact ⟨b, List.mem_cons_of_mem _ hb, hr⟩

/-- Picking the elements at distinct positions of a duplicate-free list. -/
theorem pick_nodup {α : Type*} {l : List α} (hl : l.Nodup) {is : List ℕ} {r : List α}
    (h : List.Forall₂ (fun i a => l[i]? = some a) is r) (his : is.Nodup) : r.Nodup := by
  induction h with
  | nil => exact List.nodup_nil
  | @cons i a is r h1 h2 ih =>
    rw [List.nodup_cons] at his ⊢
    refine ⟨?_, ih his.2⟩
    intro ha
    obtain ⟨j, hj, hja⟩ := forall₂_mem_right h2 ha
    have hi' := List.getElem?_eq_some_iff.1 h1
    have hj' := List.getElem?_eq_some_iff.1 hja
    obtain ⟨hi1, hi2⟩ := hi'
    obtain ⟨hj1, hj2⟩ := hj'
    have : i = j := (List.Nodup.getElem_inj_iff hl).1 (hi2.trans hj2.symm)
    exact his.1 (this ▸ hj)

theorem pick_subset {α : Type*} {l : List α} {is : List ℕ} {r : List α}
    (h : List.Forall₂ (fun i a => l[i]? = some a) is r) : r ⊆ l := by
  intro a ha
  obtain ⟨i, _, hi⟩ := forall₂_mem_right h ha
  exact List.mem_of_getElem? hi

variable {K τ F S C Z : Type*} [Field K] [LinearOrder K] [IsStrictOrderedRing K]

/-! ### Normalisation -/

theorem normHyps_ok {hyps hs : List (Hyp K)} (h : normHyps hyps = .ok hs) :
    (hyps = [] ∨ (hyps.map fun h => h.prob).sum ≠ 0) ∧
    hs = hyps.map fun h => { h with prob := h.prob / (hyps.map fun h => h.prob).sum } := by
  unfold normHyps at h
  split at h
  · simp at h
  · rename_i hc
    simp only [Except.ok.injEq] at h
    refine ⟨?_, h.symm⟩
    by_cases hn : hyps = []
    · exact .inl hn
    · exact .inr fun h0 => hc ⟨hn, h0⟩

theorem normHyps_tracks {hyps hs : List (Hyp K)} (h : normHyps hyps = .ok hs) :
    hs.map (fun h => h.tracks) = hyps.map fun h => h.tracks := by
  rw [(normHyps_ok h).2, List.map_map]
  rfl

theorem normHyps_mem {hyps hs : List (Hyp K)} (h : normHyps hyps = .ok hs) {x} (hx : x ∈ hs) :
    ∃ y ∈ hyps, x.tracks = y.tracks ∧ x.prob = y.prob / (hyps.map fun h => h.prob).sum := by
  rw [(normHyps_ok h).2] at hx
  obtain ⟨y, hy, rfl⟩ := List.mem_map.1 hx
  exact ⟨y, hy, rfl, rfl⟩

theorem normHyps_sum {hyps hs : List (Hyp K)} (h : normHyps hyps = .ok hs) (hne : hs ≠ []) :
    (hs.map fun h => h.prob).sum = 1 := by
  obtain ⟨h1, h2⟩ := normHyps_ok h
  have h3 : (hyps.map fun h => h.prob).sum ≠ 0 := by
    rcases h1 with h1 | h1
    · rw [h1] at h2; exact absurd h2 hne
    · exact h1
  rw [h2, List.map_map]
  have : ((fun h : Hyp K => h.prob) ∘ fun h : Hyp K =>
      ({ h with prob := h.prob / (hyps.map fun h => h.prob).sum } : Hyp K)) =
      fun h => h.prob * ((hyps.map fun h => h.prob).sum)⁻¹ := by
    funext x
    simp [div_eq_mul_inv]
  rw [this, List.sum_map_mul_right]
  exact mul_inv_cancel₀ h3

theorem sum_nonneg_of {hyps : List (Hyp K)} (h : ∀ x ∈ hyps, 0 ≤ x.prob) :
    0 ≤ (hyps.map fun h => h.prob).sum := by
  apply List.sum_nonneg
  intro x hx
  obtain ⟨y, hy, rfl⟩ := List.mem_map.1 hx
  exact h y hy

theorem sum_pos_of {hyps : List (Hyp K)} (h : ∀ x ∈ hyps, 0 < x.prob) (hne : hyps ≠ []) :
    0 < (hyps.map fun h => h.prob).sum := by
  cases hyps with
  | nil => exact absurd rfl hne
  | cons a l =>
    rw [List.map_cons, List.sum_cons]
    have := h a List.mem_cons_self
    have := sum_nonneg_of (hyps := l) fun x hx => (h x (List.mem_cons_of_mem _ hx)).le
    linarith

theorem normHyps_nonneg {hyps hs : List (Hyp K)} (h : normHyps hyps = .ok hs)
    (hp : ∀ x ∈ hyps, 0 ≤ x.prob) : ∀ x ∈ hs, 0 ≤ x.prob := by
  intro x hx
  obtain ⟨y, hy, _, h2⟩ := normHyps_mem h hx
  rw [h2]
  exact div_nonneg (hp y hy) (sum_nonneg_of hp)

theorem normHyps_pos {hyps hs : List (Hyp K)} (h : normHyps hyps = .ok hs)
    (hp : ∀ x ∈ hyps, 0 < x.prob) : ∀ x ∈ hs, 0 < x.prob := by
  intro x hx
  obtain ⟨y, hy, _, h2⟩ := normHyps_mem h hx
  rw [h2]
  exact div_pos (hp y hy) (sum_pos_of hp (List.ne_nil_of_mem hy))

theorem normHyps_total {hyps : List (Hyp K)} (hp : ∀ x ∈ hyps, 0 < x.prob) :
    ∃ hs, normHyps hyps = .ok hs := by
  unfold normHyps
  rw [if_neg]
  · exact ⟨_, rfl⟩
  · rintro ⟨hne, h0⟩
    exact absurd h0 (sum_pos_of hp hne).ne'

theorem normHyps_of_sum_one {hyps : List (Hyp K)} (h : (hyps.map fun h => h.prob).sum = 1) :
    normHyps hyps = .ok hyps := by
  unfold normHyps
  rw [if_neg (by rw [h]; simp), h]
  simp

/-! ### k_shortest on lists -/

theorem kList_ok {env : Env K τ F S C Z} {pr : Params K} (heps : 0 < pr.eps) {costs : List (WithTop K)} {k : ℕ}
    {out} (h : kList env pr costs k = .ok out) :
    out.length ≤ k ∧ (0 < k → out ≠ []) ∧
    ∀ q ∈ out, q.1.Nodup ∧ (∀ i ∈ q.1, i < costs.length) ∧ q.2 ≠ ⊤ ∧ ∀ i ∈ q.1, ∃ x : K, costs[i]? = some (x : WithTop K) := by
  unfold kList at h
  cases hk : kShortestInf (fun i : Fin costs.length => costs[i])
      (env.sortInds costs.length fun i => costs[i]) pr.eps k with
  | error e => rw [hk] at h; simp at h
  | ok l =>
    rw [hk] at h
    simp only [Except.ok.injEq] at h
    subst h
    obtain ⟨h1, h2, h3⟩ := KSub.kShortestInf_ok _ _ heps k hk
    refine ⟨by simpa using h1, by simpa using h2, ?_⟩
    intro q hq
    obtain ⟨q', hq', rfl⟩ := List.mem_map.1 hq
    obtain ⟨g1, g2, g3⟩ := h3 q' hq'
    refine ⟨g1.map Fin.val_injective, ?_, g2, ?_⟩
    · intro i hi
      obtain ⟨j, _, rfl⟩ := List.mem_map.1 hi
      exact j.isLt
    · intro i hi
      obtain ⟨j, hj, rfl⟩ := List.mem_map.1 hi
      obtain ⟨x, hx⟩ := WithTop.ne_top_iff_exists.1 (g3 j hj)
      refine ⟨x, ?_⟩
      rw [List.getElem?_eq_getElem j.isLt]
      exact congrArg some hx.symm

/-! ### Clean-up of predictions -/

theorem addHyp_mem : ∀ {l : List (Hyp K)} {h x : Hyp K}, x ∈ addHyp l h →
    ∃ y, (y ∈ l ∨ y = h) ∧ x.tracks = y.tracks
  | [], h, x, hx => by
    simp only [addHyp, List.mem_singleton] at hx
    exact ⟨h, .inr rfl, by rw [hx]⟩
  | a :: l, h, x, hx => by
    unfold addHyp at hx
    split at hx
    · rcases List.mem_cons.1 hx with rfl | hx
      · exact ⟨a, .inl List.mem_cons_self, rfl⟩
      · exact ⟨x, .inl (List.mem_cons_of_mem _ hx), rfl⟩
    · rcases List.mem_cons.1 hx with rfl | hx
      · exact ⟨x, .inl List.mem_cons_self, rfl⟩
      · obtain ⟨y, hy | hy, h2⟩ := addHyp_mem hx
        · exact ⟨y, .inl (List.mem_cons_of_mem _ hy), h2⟩
        · exact ⟨y, .inr hy, h2⟩

theorem cleanPred_mem {hyps : List (Hyp K)} {x : Hyp K} (hx : x ∈ cleanPred hyps) :
    ∃ y ∈ hyps, x.tracks = y.tracks := by
  unfold cleanPred at hx
  have : ∀ (l acc : List (Hyp K)) (x : Hyp K), x ∈ l.foldl addHyp acc →
      ∃ y, (y ∈ l ∨ y ∈ acc) ∧ x.tracks = y.tracks := by
    intro l
    induction l with
    | nil => intro acc x hx; exact ⟨x, .inr hx, rfl⟩
    | cons a l ih =>
      intro acc x hx
      rw [List.foldl_cons] at hx
      obtain ⟨y, hy | hy, h2⟩ := ih _ _ hx
      · exact ⟨y, .inl (List.mem_cons_of_mem _ hy), h2⟩
      · obtain ⟨y', hy' | hy', h3⟩ := addHyp_mem hy
        · exact ⟨y', .inr hy', h2.trans h3⟩
        · exact ⟨y', .inl (by rw [hy']; exact List.mem_cons_self), h2.trans h3⟩
  obtain ⟨y, hy | hy, h2⟩ := this _ _ _ hx
  · exact ⟨y, hy, h2⟩
  · simp at hy

variable [FloorRing K]

/-! ### Surviving hypotheses -/

theorem share_ok {env : Env K τ F S C Z} {req : ℕ} {p s : K} {k} (h : share env req p s = .ok k) :
    s ≠ 0 ∧ k = (Phd.pyRound ((req : K) * env.num.sqrt p / s)).toNat := by
  unfold share at h
  split at h
  · simp at h
  · rename_i hc
    simp only [Except.ok.injEq] at h
    exact ⟨hc, h.symm⟩

/-- The cost of including an element of probability `p`. -/
def Odds (env : Env K τ F S C Z) (p : K) (x : WithTop K) : Prop :=
  (p = 0 ∧ x = ⊤) ∨ (0 < p ∧ p < 1 ∧ x = ((env.num.negLog (p / (1 - p)) : K) : WithTop K))

theorem Odds.range {env : Env K τ F S C Z} {p : K} {x : WithTop K} (h : Odds env p x) : 0 ≤ p ∧ p < 1 := by
  rcases h with ⟨rfl, _⟩ | ⟨h1, h2, _⟩
  · exact ⟨le_refl _, one_pos⟩
  · exact ⟨h1.le, h2⟩

theorem Odds.pos {env : Env K τ F S C Z} {p : K} {x : K} (h : Odds env p x) : 0 < p := by
  rcases h with ⟨_, h⟩ | ⟨h1, _, _⟩
  · exact absurd h (WithTop.coe_ne_top)
  · exact h1

theorem logOdds_ok {env : Env K τ F S C Z} {p : K} {x : WithTop K} (h : logOdds env p = .ok x) : Odds env p x := by
  unfold logOdds at h
  split at h
  · rename_i hc
    simp only [Except.ok.injEq] at h
    exact .inl ⟨hc, h.symm⟩
  · split at h
    · rename_i hc
      simp only [Except.ok.injEq] at h
      exact .inr ⟨hc.1, hc.2, h.symm⟩
    · simp at h

/-- What a successful `survOne` returns. -/
theorem survOne_ok {env : Env K τ F S C Z} {pr : Params K} (heps : 0 < pr.eps)
    {tab : List (Entry K τ F S C)} {ss : K} {h : Hyp K} {out} (hs : survOne env pr tab ss h = .ok out) :
    (h.tracks = [] ∧ out = [h]) ∨
    (h.tracks ≠ [] ∧ ∃ (ents : List (Entry K τ F S C)) (costs : List (WithTop K)) (paths : List (List ℕ × WithTop K)),
      List.Forall₂ (fun i e => tab[i]? = some e) h.tracks ents ∧
      List.Forall₂ (fun e c => Odds env (env.psurv e) c) ents costs ∧ ss ≠ 0 ∧
      kList env pr costs (Phd.pyRound ((pr.reqSurv : K) * env.num.sqrt h.prob / ss)).toNat = .ok paths ∧
      List.Forall₂ (fun pc h' =>
        (pc.1.Nodup ∧ pc.2 ≠ ⊤) ∧ List.Forall₂ (fun i t => h.tracks[i]? = some t) pc.1 h'.tracks ∧
        h'.prob = (ents.map fun e => 1 - env.psurv e).prod * h.prob * expNegTop env pc.2)
        paths out) := by
  unfold survOne at hs
  split at hs
  · rename_i h0
    simp only [Except.ok.injEq] at hs
    exact .inl ⟨h0, hs.symm⟩
  · rename_i h0
    right
    refine ⟨h0, ?_⟩
    split at hs
    · simp at hs
    · rename_i ents he
      split at hs
      · simp at hs
      · rename_i costs hc
        split at hs
        · simp at hs
        · rename_i k hk
          split at hs
          · simp at hs
          · rename_i paths hp
            obtain ⟨hss, rfl⟩ := share_ok hk
            refine ⟨ents, costs, paths, ?_, ?_, hss, hp, ?_⟩
            · exact ((traverseE_ok _ _ _).1 he).imp fun _ _ h => getE_ok.1 h
            · have := (traverseE_ok _ _ _).1 hc
              rw [List.forall₂_map_left_iff] at this
              exact this.imp fun _ _ h => logOdds_ok h
            · have hk' := (kList_ok heps hp).2.2
              have h2 := (traverseE_ok _ _ _).1 hs
              clear hs hp
              induction h2 with
              | nil => exact .nil
              | @cons pc h' l l' h1 h2 ih =>
                refine .cons ?_ (ih fun q hq => hk' q (List.mem_cons_of_mem _ hq))
                obtain ⟨g1, _, g3, _⟩ := hk' pc List.mem_cons_self
                refine ⟨⟨g1, g3⟩, ?_⟩
                split at h1
                · simp at h1
                · rename_i ts hts
                  simp only [Except.ok.injEq] at h1
                  subst h1
                  exact ⟨((traverseE_ok _ _ _).1 hts).imp fun _ _ h => getE_ok.1 h, rfl⟩

theorem survOne_tracks {env : Env K τ F S C Z} {pr : Params K} (heps : 0 < pr.eps)
    {tab : List (Entry K τ F S C)} {ss : K} {h : Hyp K} {out} (hs : survOne env pr tab ss h = .ok out)
    {h'} (hh : h' ∈ out) :
    h'.tracks ⊆ h.tracks ∧ (h.tracks.Nodup → h'.tracks.Nodup) := by
  rcases survOne_ok heps hs with ⟨_, rfl⟩ | ⟨_, ents, costs, paths, _, _, _, _, h4⟩
  · rw [List.mem_singleton] at hh
    subst hh
    exact ⟨fun _ h => h, fun h => h⟩
  · obtain ⟨pc, _, hp1, hp2, _⟩ := forall₂_mem_right h4 hh
    exact ⟨pick_subset hp2, fun hn => pick_nodup hn hp2 hp1.1⟩

/-- What a successful `survHyps` returns. -/
theorem survHyps_mem {env : Env K τ F S C Z} {pr : Params K} (heps : 0 < pr.eps)
    {tab : List (Entry K τ F S C)} {hyps : List (Hyp K)} {out}
    (hs : survHyps env pr tab hyps = .ok out) {h'} (hh : h' ∈ out) :
    ∃ h ∈ hyps, h'.tracks ⊆ h.tracks ∧ (h.tracks.Nodup → h'.tracks.Nodup) := by
  unfold survHyps at hs
  split at hs
  · simp at hs
  · rename_i ls hls
    obtain ⟨y, hy, ht, _⟩ := normHyps_mem hs hh
    obtain ⟨l, hl, hyl⟩ := List.mem_flatten.1 hy
    obtain ⟨h, hh', hsv⟩ := forall₂_mem_right ((traverseE_ok _ _ _).1 hls) hl
    rw [ht]
    exact ⟨h, hh', survOne_tracks heps hsv hyl⟩

/-- The steps of a successful `predict`. -/
theorem predict_ok {env : Env K τ F S C Z} {pr : Params K} {lab : τ} {births : List (Birth K F S C)}
    {st st' : St K τ F S C} (h : predict env pr lab births st = .ok st') :
    ∃ costs paths bh survTab sh hs,
      List.Forall₂ (fun (b : Birth K F S C) c => Odds env b.prob c) births costs ∧
      kList env pr costs pr.reqBirths = .ok paths ∧
      birthHyps env births paths = .ok bh ∧
      List.Forall₂ (fun e e' => predictEntry env e = .ok e') st.tab survTab ∧
      survHyps env pr st.tab st.hyps = .ok sh ∧
      setPredHyps births.length bh sh = .ok hs ∧
      st' = { st with
        tab := birthTab lab st.cntr births ++ survTab
        card := calcCard sh
        hyps := cleanPred hs } := by
  unfold predict at h
  split at h
  · simp at h
  · rename_i costs hc
    split at h
    · simp at h
    · rename_i paths hp
      split at h
      · simp at h
      · rename_i bh hb
        split at h
        · simp at h
        · rename_i survTab ht
          split at h
          · simp at h
          · rename_i sh hsh
            split at h
            · simp at h
            · rename_i hs hhs
              simp only [Except.ok.injEq] at h
              refine ⟨costs, paths, bh, survTab, sh, hs, ?_, hp, hb, (traverseE_ok _ _ _).1 ht, hsh, hhs,
                h.symm⟩
              have := (traverseE_ok _ _ _).1 hc
              rw [List.forall₂_map_left_iff] at this
              exact this.imp fun _ _ h => logOdds_ok h

/-- Members of the predicted hypothesis list before normalisation. -/
theorem setPredHyps_mem {nb : ℕ} {bh sh hs : List (Hyp K)} (h : setPredHyps nb bh sh = .ok hs) {x}
    (hx : x ∈ hs) : ∃ b ∈ bh, ∃ s ∈ sh, x.tracks = b.tracks ++ s.tracks.map fun i => i + nb := by
  obtain ⟨y, hy, ht, _⟩ := normHyps_mem h hx
  obtain ⟨b, hb, hy⟩ := List.mem_flatMap.1 hy
  obtain ⟨s, hs', rfl⟩ := List.mem_map.1 hy
  exact ⟨b, hb, s, hs', ht⟩

theorem birthHyps_mem {env : Env K τ F S C Z} {births : List (Birth K F S C)} {paths bh}
    (h : birthHyps env births paths = .ok bh) {x} (hx : x ∈ bh) : ∃ pc ∈ paths, x.tracks = pc.1 := by
  obtain ⟨y, hy, ht, _⟩ := normHyps_mem h hx
  obtain ⟨pc, hpc, rfl⟩ := List.mem_map.1 hy
  exact ⟨pc, hpc, ht⟩

/-- Index invariant (C14). -/
structure IdxInv (st : St K τ F S C) : Prop where
  range : ∀ h ∈ st.hyps, ∀ i ∈ h.tracks, i < st.tab.length
  nodup : ∀ h ∈ st.hyps, h.tracks.Nodup

/-- Every predicted hypothesis consists of distinct births and a duplicate-free part of an old
hypothesis. -/
theorem predict_hyp {env : Env K τ F S C Z} {pr : Params K} (heps : 0 < pr.eps) {lab : τ}
    {births : List (Birth K F S C)} {st st' : St K τ F S C}
    (h : predict env pr lab births st = .ok st') {x} (hx : x ∈ st'.hyps) :
    ∃ bs ss : List ℕ, x.tracks = bs ++ ss.map (fun i => i + births.length) ∧
      bs.Nodup ∧ (∀ i ∈ bs, i < births.length) ∧
      ∃ y ∈ st.hyps, ss ⊆ y.tracks ∧ (y.tracks.Nodup → ss.Nodup) := by
  obtain ⟨costs, paths, bh, survTab, sh, hs, h1, h2, h3, h4, h5, h6, rfl⟩ := predict_ok h
  obtain ⟨y, hy, ht⟩ := cleanPred_mem hx
  obtain ⟨b, hb, s, hs', hts⟩ := setPredHyps_mem h6 hy
  obtain ⟨pc, hpc, hbt⟩ := birthHyps_mem h3 hb
  obtain ⟨g1, g2, _⟩ := (kList_ok heps h2).2.2 pc hpc
  obtain ⟨z, hz, k1, k2⟩ := survHyps_mem heps h5 hs'
  refine ⟨b.tracks, s.tracks, ht.trans hts, by rw [hbt]; exact g1, ?_, z, hz, k1, k2⟩
  intro i hi
  rw [hbt] at hi
  have := g2 i hi
  rwa [← h1.length_eq] at this

theorem birthTab_length (lab : τ) (cntr : ℕ) (births : List (Birth K F S C)) :
    (birthTab (K := K) lab cntr births).length = births.length := by
  simp [birthTab]

theorem predict_tab {env : Env K τ F S C Z} {pr : Params K} {lab : τ} {births : List (Birth K F S C)}
    {st st' : St K τ F S C} (h : predict env pr lab births st = .ok st') :
    ∃ survTab, List.Forall₂ (fun e e' => predictEntry env e = .ok e') st.tab survTab ∧
      st'.tab = birthTab lab st.cntr births ++ survTab ∧ st'.cntr = st.cntr ∧ st'.ext = st.ext := by
  obtain ⟨costs, paths, bh, survTab, sh, hs, h1, h2, h3, h4, h5, h6, rfl⟩ := predict_ok h
  exact ⟨survTab, h4, rfl, rfl, rfl⟩

theorem predict_idx {env : Env K τ F S C Z} {pr : Params K} (heps : 0 < pr.eps) {lab : τ}
    {births : List (Birth K F S C)} {st st' : St K τ F S C} (hI : IdxInv st)
    (h : predict env pr lab births st = .ok st') : IdxInv st' := by
  obtain ⟨survTab, ht1, ht2, _⟩ := predict_tab h
  have hlen : st'.tab.length = births.length + st.tab.length := by
    rw [ht2, List.length_append, birthTab_length, ht1.length_eq]
  constructor
  · intro x hx i hi
    obtain ⟨bs, ss, e1, e2, e3, y, hy, e4, e5⟩ := predict_hyp heps h hx
    rw [e1] at hi
    rw [hlen]
    rcases List.mem_append.1 hi with hi | hi
    · have := e3 i hi; omega
    · obtain ⟨j, hj, rfl⟩ := List.mem_map.1 hi
      have := hI.range y hy j (e4 hj)
      omega
  · intro x hx
    obtain ⟨bs, ss, e1, e2, e3, y, hy, e4, e5⟩ := predict_hyp heps h hx
    rw [e1, List.nodup_append]
    refine ⟨e2, (e5 (hI.nodup y hy)).map (fun a b hab => by simpa using hab), ?_⟩
    intro a ha b hb hab
    obtain ⟨j, _, rfl⟩ := List.mem_map.1 hb
    have := e3 a ha
    omega

end Gasur.Glmb
