import Verif.Props.GlmbTwice
import Verif.Props.GlmbDistinct
import Verif.Model.Jglmb
import Verif.Spec.Event

/-!
# Property C164: what a clean-up of a GLMB filter can change
-/

set_option linter.unusedSectionVars false

namespace Gasur.Props

open Gasur.Glmb Gasur.Spec

variable {K τ F S C Z : Type*} [Field K] [LinearOrder K] [IsStrictOrderedRing K] [FloorRing K]
  [DecidableEq τ]

theorem probEvent_append (P : List ℕ → Bool) (a b : List (Hyp K)) : probEvent P (a ++ b) = probEvent P a + probEvent P b := by
  simp [probEvent]

theorem probEvent_perm (P : List ℕ → Bool) {a b : List (Hyp K)} (h : a.Perm b) : probEvent P a = probEvent P b :=
  ((h.filter _).map _).sum_eq

theorem hypMass_append (a b : List (Hyp K)) : hypMass (a ++ b) = hypMass a + hypMass b := by
  simp [hypMass]

theorem hypMass_perm {a b : List (Hyp K)} (h : a.Perm b) : hypMass a = hypMass b := (h.map _).sum_eq

theorem hypMass_nonneg {l : List (Hyp K)} (h : ∀ x ∈ l, 0 ≤ x.prob) : 0 ≤ hypMass l := by
  refine List.sum_nonneg fun y hy => ?_
  obtain ⟨x, hx, rfl⟩ := List.mem_map.1 hy
  exact h x hx

theorem probEvent_bounds (P : List ℕ → Bool) : ∀ {l : List (Hyp K)}, (∀ x ∈ l, 0 ≤ x.prob) →
    0 ≤ probEvent P l ∧ probEvent P l ≤ hypMass l
  | [], _ => by simp [probEvent, hypMass]
  | h :: l, hl => by
    obtain ⟨q1, q2⟩ := probEvent_bounds P fun x hx => hl x (List.mem_cons_of_mem _ hx)
    have h0 := hl h List.mem_cons_self
    unfold probEvent hypMass at *
    rw [List.filter_cons, List.map_cons, List.sum_cons]
    split
    · rw [List.map_cons, List.sum_cons]
      exact ⟨by linarith, by linarith⟩
    · exact ⟨q1, by linarith⟩

theorem probEvent_scaled (P : List ℕ → Bool) {c : K} {l l' : List (Hyp K)}
    (h : List.Forall₂ (fun (h h' : Hyp K) => h'.tracks = h.tracks ∧ h'.prob = h.prob / c) l l') :
    probEvent P l' = probEvent P l / c := by
  unfold probEvent
  induction h with
  | nil => simp
  | cons h1 _ ih =>
    rw [List.filter_cons, List.filter_cons, h1.1]
    split
    · rw [List.map_cons, List.sum_cons, List.map_cons, List.sum_cons, ih, h1.2, add_div]
    · exact ih

/-- Dropping hypotheses and rescaling the others changes no probability by more than what was dropped. -/
theorem drop_error {all kept dropped hyps' : List (Hyp K)} (hperm : (kept ++ dropped).Perm all)
    (hp : ∀ h ∈ all, 0 < h.prob) (hs : hypMass all = 1)
    (h : List.Forall₂ (fun (h h' : Hyp K) => h'.tracks = h.tracks ∧ h'.prob = h.prob / hypMass kept) kept hyps')
    (P : List ℕ → Bool) : |probEvent P hyps' - probEvent P all| ≤ hypMass dropped := by
  have hk : ∀ x ∈ kept, 0 ≤ x.prob := fun x hx => (hp x (hperm.subset (List.mem_append_left _ hx))).le
  have hd : ∀ x ∈ dropped, 0 ≤ x.prob := fun x hx => (hp x (hperm.subset (List.mem_append_right _ hx))).le
  obtain ⟨a1, a2⟩ := probEvent_bounds P hk
  obtain ⟨d1, d2⟩ := probEvent_bounds P hd
  have hA : hypMass kept + hypMass dropped = 1 := by rw [← hypMass_append, hypMass_perm hperm, hs]
  have hA0 := hypMass_nonneg hk
  have hD0 := hypMass_nonneg hd
  rw [probEvent_scaled P h, ← probEvent_perm P hperm, probEvent_append]
  rcases hA0.eq_or_lt with h0 | h0
  · rw [← h0] at a2
    have : probEvent P kept = 0 := le_antisymm a2 a1
    rw [this, zero_div, zero_add, zero_sub, abs_neg, abs_of_nonneg d1]
    exact d2
  · have e : probEvent P kept / hypMass kept - probEvent P kept = probEvent P kept / hypMass kept * hypMass dropped := by
      rw [show hypMass dropped = 1 - hypMass kept by linarith]
      field_simp
    have e1 : 0 ≤ probEvent P kept / hypMass kept := div_nonneg a1 h0.le
    have e2 : probEvent P kept / hypMass kept ≤ 1 := (div_le_one h0).2 a2
    have e3 := mul_le_mul_of_nonneg_right e2 hD0
    have e4 := mul_nonneg e1 hD0
    rw [abs_le]
    constructor <;> linarith

theorem drop_attained {all kept dropped hyps' : List (Hyp K)} (hperm : (kept ++ dropped).Perm all)
    (hd : all.Pairwise fun a b => a.tracks ≠ b.tracks)
    (h : List.Forall₂ (fun (h h' : Hyp K) => h'.tracks = h.tracks ∧ h'.prob = h.prob / hypMass kept) kept hyps') :
    ∃ P : List ℕ → Bool, probEvent P hyps' = 0 ∧ probEvent P all = hypMass dropped := by
  have hd' : (kept ++ dropped).Pairwise fun a b => a.tracks ≠ b.tracks :=
    (hperm.pairwise_iff (fun {_ _} h => Ne.symm h)).2 hd
  obtain ⟨-, -, h3⟩ := List.pairwise_append.1 hd'
  refine ⟨fun ts => decide (ts ∈ dropped.map Hyp.tracks), ?_, ?_⟩
  · rw [probEvent_scaled _ h, show probEvent _ kept = 0 from ?_, zero_div]
    unfold probEvent
    rw [List.filter_eq_nil_iff.2]
    · rfl
    · intro x hx hm
      obtain ⟨y, hy, he⟩ := List.mem_map.1 (of_decide_eq_true hm)
      exact h3 x hx y hy he.symm
  · rw [← probEvent_perm _ hperm, probEvent_append]
    have e1 : probEvent (fun ts => decide (ts ∈ dropped.map Hyp.tracks)) kept = 0 := by
      unfold probEvent
      rw [List.filter_eq_nil_iff.2]
      · rfl
      · intro x hx hm
        obtain ⟨y, hy, he⟩ := List.mem_map.1 (of_decide_eq_true hm)
        exact h3 x hx y hy he.symm
    rw [e1, zero_add]
    unfold probEvent hypMass
    rw [List.filter_eq_self.2]
    intro x hx
    exact decide_eq_true (List.mem_map_of_mem hx)

/-- What `cap` leaves, from the original weights of hypotheses that were rescaled before. -/
theorem cap_scaled (env : Env K τ F S C Z) (pr : Params K) (ha : ∀ ws, IsArgsort ws (env.argsort ws))
    {S' : List (Hyp K)} (hS : ∀ h ∈ S', 0 < h.prob) {st st' : St K τ F S C}
    (hst : List.Forall₂ (fun (h h' : Hyp K) => h'.tracks = h.tracks ∧ h'.prob = h.prob / hypMass S') S' st.hyps)
    (h : cap env pr st = .ok st') :
    ∃ kept capped, (kept ++ capped).Perm S' ∧ kept.length = min pr.maxHyps S'.length ∧
      (∀ x ∈ kept, ∀ y ∈ capped, y.prob ≤ x.prob) ∧
      List.Forall₂ (fun (h h' : Hyp K) => h'.tracks = h.tracks ∧ h'.prob = h.prob / hypMass kept) kept st'.hyps ∧
      st'.tab = st.tab := by
  rcases S'.eq_nil_or_concat with hnil | hne
  · subst hnil
    cases hst.length_eq ▸ (rfl : ([] : List (Hyp K)).length = 0)
    have hh : st.hyps = [] := List.length_eq_zero_iff.1 hst.length_eq.symm
    unfold cap at h
    rw [hh, if_neg (by simp)] at h
    cases h
    exact ⟨[], [], .refl _, by simp, by simp, by rw [hh]; exact .nil, rfl⟩
  have hne : S' ≠ [] := by
    obtain ⟨a, b, rfl⟩ := hne
    simp
  have hM : 0 < hypMass S' := by
    refine List.sum_pos _ ?_ (by simpa using hne)
    intro x hx
    obtain ⟨y, hy, rfl⟩ := List.mem_map.1 hx
    exact hS y hy
  set A := hypMass S' with hA
  let un : Hyp K → Hyp K := fun x => { x with prob := x.prob * A }
  have hun : st.hyps.map un = S' := by
    have this : List.Forall₂ (· = ·) (st.hyps.map un) S' := by
      rw [List.forall₂_map_left_iff]
      refine List.Forall₂.flip (hst.imp ?_)
      rintro ⟨p, t⟩ ⟨p', t'⟩ ⟨h1, h2⟩
      dsimp only at h1 h2
      subst h1 h2
      change Hyp.mk (p / A * A) _ = _
      rw [div_mul_cancel₀ _ hM.ne']
    exact List.forall₂_eq_eq_eq ▸ this
  have hpos : ∀ x ∈ st.hyps, 0 < x.prob := by
    intro x hx
    obtain ⟨y, hy, q⟩ := forall₂_mem_right hst hx
    rw [q.2]
    exact div_pos (hS y hy) hM
  have hlen := hst.length_eq
  obtain ⟨c1, c2⟩ := C21_cap env pr ha st hpos
  by_cases hle : st.hyps.length ≤ pr.maxHyps
  · rw [c1 hle] at h
    cases h
    exact ⟨S', [], by simp, by omega, by simp, hst, rfl⟩
  · obtain ⟨st2, kept, dropped, q1, q2, q3, q4, q5, -, q7⟩ := c2 (by omega)
    rw [h] at q1
    cases q1
    refine ⟨kept.map un, dropped.map un, ?_, ?_, ?_, ?_, q7⟩
    · rw [← List.map_append, ← hun]
      exact q2.map un
    · rw [List.length_map, q3]
      omega
    · intro x hx y hy
      obtain ⟨x', hx', rfl⟩ := List.mem_map.1 hx
      obtain ⟨y', hy', rfl⟩ := List.mem_map.1 hy
      exact mul_le_mul_of_nonneg_right (q4 x' hx' y' hy') hM.le
    · rw [List.forall₂_map_left_iff]
      have hsum : hypMass (kept.map un) = (kept.map fun h => h.prob).sum * A := by
        unfold hypMass
        rw [List.map_map, ← List.sum_map_mul_right]
        rfl
      refine q5.imp ?_
      rintro a b ⟨h1, h2⟩
      refine ⟨h1, ?_⟩
      rw [h2, hsum]
      change _ = a.prob * A / _
      rw [mul_div_mul_right _ _ hM.ne']

/-- Of hypotheses, the heaviest have at least the mass of any other selection of the same size. -/
theorem heaviest {kept capped : List (Hyp K)} (hp : ∀ x ∈ kept ++ capped, 0 ≤ x.prob)
    (hb : ∀ x ∈ kept, ∀ y ∈ capped, y.prob ≤ x.prob) (sub rest : List (Hyp K))
    (hperm : (sub ++ rest).Perm (kept ++ capped)) (hl : sub.length ≤ kept.length) : hypMass sub ≤ hypMass kept := by
  rcases eq_or_ne kept [] with rfl | hne
  · have : sub = [] := List.length_eq_zero_iff.1 (by simpa using hl)
    rw [this]
  obtain ⟨m, hm, hmin⟩ := Finset.exists_min_image (kept.map Hyp.prob).toFinset id (by
    obtain ⟨x, hx⟩ := List.exists_mem_of_ne_nil _ hne
    exact ⟨x.prob, by simpa using ⟨x, hx, rfl⟩⟩)
  have hm' : m ∈ kept.map Hyp.prob := by simpa using hm
  obtain ⟨w, hw, hwm⟩ := List.mem_map.1 hm'
  have hmk : ∀ x ∈ kept, m ≤ x.prob := fun x hx => hmin _ (by simpa using ⟨x, hx, rfl⟩)
  have hmc : ∀ y ∈ capped, y.prob ≤ m := fun y hy => hwm ▸ hb w hw y hy
  have hm0 : 0 ≤ m := hwm ▸ hp w (List.mem_append_left _ hw)
  have hsub : ∀ l : List (Hyp K), (l.map fun x => x.prob - m).sum = hypMass l - l.length * m := by
    intro l
    induction l with
    | nil => simp [hypMass]
    | cons a l ih =>
      unfold hypMass at *
      rw [List.map_cons, List.sum_cons, ih, List.map_cons, List.sum_cons, List.length_cons]
      push_cast
      ring
  have e1 : (sub.map fun x => x.prob - m).sum ≤ (sub.map fun x => max (x.prob - m) 0).sum :=
    List.sum_le_sum fun x _ => le_max_left _ _
  have e2 : (0 : K) ≤ (rest.map fun x => max (x.prob - m) 0).sum := by
    refine List.sum_nonneg fun y hy => ?_
    obtain ⟨x, _, rfl⟩ := List.mem_map.1 hy
    exact le_max_right _ _
  have e3 := (hperm.map fun x => max (x.prob - m) 0).sum_eq
  rw [List.map_append, List.sum_append, List.map_append, List.sum_append] at e3
  have e4 : (kept.map fun x => max (x.prob - m) 0) = kept.map fun x => x.prob - m :=
    List.map_congr_left fun x hx => max_eq_left (sub_nonneg.2 (hmk x hx))
  have e5 : (capped.map fun x => max (x.prob - m) 0).sum = 0 := by
    refine List.sum_eq_zero fun y hy => ?_
    obtain ⟨x, hx, rfl⟩ := List.mem_map.1 hy
    exact max_eq_right (sub_nonpos.2 (hmc x hx))
  rw [e4, e5, hsub] at e3
  rw [hsub] at e1
  have e6 : (sub.length : K) * m ≤ kept.length * m := mul_le_mul_of_nonneg_right (by exact_mod_cast hl) hm0
  linarith

/-- **C164.** What a clean-up can change. If `cleanup` of hypotheses with positive probabilities of sum one returns, then
the hypotheses split into those that are kept, those that are capped and those that are pruned: pruned are those whose
probability is not above the threshold (none without pruning), of the others the heaviest `max_hyps` are kept (all
without capping), with their probabilities divided by their sum, and no choice of as many of the hypotheses that were not
pruned has a larger sum. No statement about which tracks are there (as there being `n` objects, or a certain track) changes
its probability by more than the sum of the probabilities of the hypotheses capped and pruned, hence by no more than that of
those capped plus the threshold times the number of those pruned; and if no two hypotheses have the same tracks, then the
probability of some statement changes by exactly this much. -/
theorem C164_cleanup_error (env : Env K τ F S C Z) (pr : Params K) (ha : ∀ ws, IsArgsort ws (env.argsort ws))
    (bp bc be u c : Bool) (st st' : St K τ F S C) (hp : ∀ h ∈ st.hyps, 0 < h.prob) (hs : hypMass st.hyps = 1)
    (h : cleanup env pr bp bc be u c st = .ok st') :
    ∃ kept capped pruned, (kept ++ (capped ++ pruned)).Perm st.hyps ∧
      (bp = false → pruned = []) ∧ (bp = true → (∀ x ∈ kept ++ capped, pr.pruneThreshold < x.prob) ∧
        ∀ x ∈ pruned, x.prob ≤ pr.pruneThreshold) ∧
      (bc = false → capped = []) ∧ (bc = true → kept.length = min pr.maxHyps (kept ++ capped).length) ∧
      (∀ sub rest, (sub ++ rest).Perm (kept ++ capped) → sub.length ≤ kept.length → hypMass sub ≤ hypMass kept) ∧
      List.Forall₂ (fun (h h' : Hyp K) => h'.tracks = h.tracks ∧ h'.prob = h.prob / hypMass kept) kept st'.hyps ∧
      st'.tab = st.tab ∧
      (∀ P, |probEvent P st'.hyps - probEvent P st.hyps| ≤ hypMass capped + hypMass pruned) ∧
      (bp = true → hypMass pruned ≤ pruned.length * pr.pruneThreshold) ∧
      ((st.hyps.Pairwise fun a b => a.tracks ≠ b.tracks) →
        ∃ P, |probEvent P st'.hyps - probEvent P st.hyps| = hypMass capped + hypMass pruned) := by
  obtain ⟨s1, s2, h1, h2, h3⟩ := cleanup_ok h
  have h3' : st'.hyps = s2.hyps ∧ st'.tab = s2.tab := by
    cases be with
    | false =>
      simp at h3
      subst h3
      exact ⟨rfl, rfl⟩
    | true =>
      simp at h3
      obtain ⟨o, h3⟩ := h3
      have := extract_frame h3
      exact ⟨this.2.1, this.1⟩
  have step1 : ∃ S' pruned, (S' ++ pruned).Perm st.hyps ∧ (bp = false → pruned = []) ∧
      (bp = true → (∀ x ∈ S', pr.pruneThreshold < x.prob) ∧ ∀ x ∈ pruned, x.prob ≤ pr.pruneThreshold) ∧
      List.Forall₂ (fun (h h' : Hyp K) => h'.tracks = h.tracks ∧ h'.prob = h.prob / hypMass S') S' s1.hyps ∧
      s1.tab = st.tab := by
    cases bp with
    | false =>
      simp at h1
      subst h1
      refine ⟨st.hyps, [], by simp, by simp, by simp, ?_, rfl⟩
      exact List.forall₂_same.2 fun x _ => ⟨rfl, by rw [hs, div_one]⟩
    | true =>
      simp only [if_true] at h1
      obtain ⟨s, q1, q2, q3, -⟩ := C20_prune pr { st with cntr := st.cntr + 1 } hp
      rw [h1] at q1
      cases q1
      refine ⟨_, st.hyps.filter fun h => !decide (pr.pruneThreshold < h.prob), List.filter_append_perm _ _, by simp, ?_,
        q2, q3⟩
      intro _
      exact ⟨fun x hx => of_decide_eq_true (List.mem_filter.1 hx).2, fun x hx => by
        have := (List.mem_filter.1 hx).2
        simpa using this⟩
  obtain ⟨S', pruned, p1, p2, p3, p4, p5⟩ := step1
  have hS : ∀ x ∈ S', 0 < x.prob := fun x hx => hp x (p1.subset (List.mem_append_left _ hx))
  have hP : ∀ x ∈ pruned, 0 < x.prob := fun x hx => hp x (p1.subset (List.mem_append_right _ hx))
  have step2 : ∃ kept capped, (kept ++ capped).Perm S' ∧ (bc = false → capped = []) ∧
      (bc = true → kept.length = min pr.maxHyps S'.length) ∧ (∀ x ∈ kept, ∀ y ∈ capped, y.prob ≤ x.prob) ∧
      List.Forall₂ (fun (h h' : Hyp K) => h'.tracks = h.tracks ∧ h'.prob = h.prob / hypMass kept) kept s2.hyps ∧
      s2.tab = s1.tab := by
    cases bc with
    | false =>
      simp at h2
      subst h2
      exact ⟨S', [], by simp, by simp, by simp, by simp, p4, rfl⟩
    | true =>
      simp only [if_true] at h2
      obtain ⟨kept, capped, q1, q2, q3, q4, q5⟩ := cap_scaled env pr ha hS p4 h2
      exact ⟨kept, capped, q1, by simp, fun _ => q2, q3, q4, q5⟩
  obtain ⟨kept, capped, c1, c2, c3, c4, c5, c6⟩ := step2
  have hperm : (kept ++ (capped ++ pruned)).Perm st.hyps := by
    rw [← List.append_assoc]
    exact (c1.append_right _).trans p1
  rw [← h3'.1] at c5
  refine ⟨kept, capped, pruned, hperm, p2, ?_, c2, ?_, ?_, c5, by rw [h3'.2, c6, p5], ?_, ?_, ?_⟩
  · exact fun hb => ⟨fun x hx => (p3 hb).1 x (c1.subset hx), (p3 hb).2⟩
  · exact fun hb => by rw [c3 hb, c1.length_eq]
  · exact fun sub rest hsub hl => heaviest (fun x hx => (hS x (c1.subset hx)).le) c4 sub rest hsub hl
  · intro P
    rw [← hypMass_append]
    exact drop_error hperm hp hs c5 P
  · intro hb
    have := (List.sum_le_card_nsmul (pruned.map Hyp.prob) pr.pruneThreshold) (by
      intro y hy
      obtain ⟨x, hx, rfl⟩ := List.mem_map.1 hy
      exact (p3 hb).2 x hx)
    rwa [List.length_map, nsmul_eq_mul] at this
  · intro hd
    obtain ⟨P, e1, e2⟩ := drop_attained hperm hd c5
    refine ⟨P, ?_⟩
    rw [e1, e2, zero_sub, abs_neg, ← hypMass_append, abs_of_nonneg]
    refine hypMass_nonneg fun x hx => ?_
    exact (hp x (hperm.subset (List.mem_append_right _ hx))).le

/-- **C164, joint filter.** The clean-up of the joint filter changes the probability of no statement about which tracks are
there by more than the sum of what it drops. -/
theorem C164_joint (env : Env K τ F S C Z) (jp : Jglmb.JParams K) (ha : ∀ ws, IsArgsort ws (env.argsort ws))
    (bp bc be u c : Bool) (st st' : Jglmb.JSt K τ F S C) (hp : ∀ h ∈ st.g.hyps, 0 < h.prob) (hs : hypMass st.g.hyps = 1)
    (h : Jglmb.step jp st (.cleanup env bp bc be u c) = .ok st') :
    ∃ kept dropped, (kept ++ dropped).Perm st.g.hyps ∧
      List.Forall₂ (fun (h h' : Hyp K) => h'.tracks = h.tracks ∧ h'.prob = h.prob / hypMass kept) kept st'.g.hyps ∧
      st'.g.tab = st.g.tab ∧ ∀ P, |probEvent P st'.g.hyps - probEvent P st.g.hyps| ≤ hypMass dropped := by
  simp only [Jglmb.step] at h
  cases he : Glmb.cleanup env jp.base bp bc be u c st.g with
  | error e => rw [he] at h; exact (nomatch h)
  | ok g =>
    rw [he] at h
    obtain rfl := Except.ok.inj h
    obtain ⟨kept, capped, pruned, p1, -, -, -, -, -, p2, p3, q, -⟩ := C164_cleanup_error env jp.base ha bp bc be u c st.g g hp
      hs he
    exact ⟨kept, capped ++ pruned, p1, p2, p3, fun P => by rw [hypMass_append]; exact q P⟩

/-- Four hypotheses for the example. -/
def stFour : St ℚ ℕ Unit ℚ Unit :=
  { init with hyps := [⟨1 / 20, [0]⟩, ⟨1 / 2, []⟩, ⟨3 / 20, [1]⟩, ⟨3 / 10, [0, 1]⟩] }

/-- The conditions of C164 can be met: one hypothesis is pruned, one capped, and no probability changes by more than
`3/20 + 1/20`. -/
example : ∃ st', cleanup exTrackEnv { exTrackPr with pruneThreshold := 1 / 10, maxHyps := 2 } true true false false false
      stFour = .ok st' ∧ st'.hyps.map (fun h => (h.prob, h.tracks)) = [(5 / 8, []), (3 / 8, [0, 1])] ∧
    ∀ P, |probEvent P st'.hyps - probEvent P stFour.hyps| ≤ 1 / 5 := by
  have hrun : (cleanup exTrackEnv { exTrackPr with pruneThreshold := 1 / 10, maxHyps := 2 } true true false false false
      stFour).toOption.map (fun st => st.hyps.map fun h => (h.prob, h.tracks)) = some [(5 / 8, []), (3 / 8, [0, 1])] := by
    decide +kernel
  cases hc : cleanup exTrackEnv { exTrackPr with pruneThreshold := 1 / 10, maxHyps := 2 } true true false false false
      stFour with
  | error e => rw [hc] at hrun; exact (nomatch hrun)
  | ok st' =>
    rw [hc] at hrun
    have hmap : st'.hyps.map (fun h => (h.prob, h.tracks)) = [(5 / 8, []), (3 / 8, [0, 1])] := Option.some.inj hrun
    obtain ⟨kept, capped, pruned, p1, -, -, -, -, -, p2, -, q, -⟩ := C164_cleanup_error exTrackEnv _ exTrackEnv_sorts _ _ _
      _ _ stFour st' (by decide +kernel) (by decide +kernel) hc
    have hs := hypMass_perm p1
    rw [hypMass_append, hypMass_append, show hypMass stFour.hyps = 1 by decide +kernel] at hs
    have hm : hypMass kept = 4 / 5 := by
      cases hl : st'.hyps with
      | nil => rw [hl] at hmap; exact (nomatch hmap)
      | cons x xs =>
        rw [hl] at hmap p2
        cases p2 with
        | @cons a b l r h1 h2 =>
          rw [List.map_cons] at hmap
          have hx := (List.cons.inj hmap).1
          rw [Prod.mk.injEq] at hx
          have hmem : a ∈ stFour.hyps := p1.subset (by simp)
          have ht : a.tracks = [] := by rw [← h1.1]; exact hx.2
          have ha : a.prob = 1 / 2 := by
            simp only [stFour, List.mem_cons, List.not_mem_nil, or_false] at hmem
            rcases hmem with rfl | rfl | rfl | rfl <;> simp_all
          have h3 := h1.2
          rw [hx.1, ha] at h3
          have h0 : hypMass (a :: l) ≠ 0 := by
            intro h0
            rw [h0] at h3
            norm_num at h3
          rw [eq_div_iff h0] at h3
          linarith
    refine ⟨st', rfl, hmap, fun P => (q P).trans ?_⟩
    linarith

end Gasur.Props
