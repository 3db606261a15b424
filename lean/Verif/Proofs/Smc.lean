import Verif.Props.GlmbExtract
import Verif.Spec.Smc

/-! Particle filters. -/

set_option linter.unusedSectionVars false

namespace Gasur.Smc

open Gasur.Glmb Gasur.Spec

variable {K τ X G S C Z : Type*} [Field K] [LinearOrder K] [IsStrictOrderedRing K]

theorem forall₂_and_mem_left {α β : Type*} {R : α → β → Prop} : ∀ {l : List α} {r : List β}, List.Forall₂ R l r →
    List.Forall₂ (fun a b => R a b ∧ a ∈ l) l r
  | _, _, .nil => .nil
  | _, _, .cons h1 h2 =>
    .cons ⟨h1, by simp⟩ ((forall₂_and_mem_left h2).imp fun _ _ h => ⟨h.1, List.mem_cons_of_mem _ h.2⟩)

theorem sum_div_list (l : List K) (c : K) : (l.map fun w => w / c).sum = l.sum / c := by
  induction l with
  | nil => simp
  | cons a l ih => rw [List.map_cons, List.sum_cons, ih, List.sum_cons, add_div]

/-- Normalised positive weights form a distribution. -/
theorem normTo_dist {f : PState K X G} {l : List K} (hp : f.parts ≠ []) (hl : l.length = f.parts.length)
    (h0 : ∀ w ∈ l, 0 ≤ w) (hs : l.sum ≠ 0) : IsParticleDist (normTo f l) := by
  refine ⟨hp, by simpa [normTo] using hl, ?_, ?_⟩
  · intro w hw
    obtain ⟨v, hv, rfl⟩ := List.mem_map.1 (show w ∈ l.map fun w => w / l.sum from hw)
    exact div_nonneg (h0 v hv) (List.sum_nonneg h0)
  · change (l.map fun w => w / l.sum).sum = 1
    rw [sum_div_list, div_self hs]

theorem zipWith_bounds {ws qs : List K} (hlen : ws.length = qs.length) (hw : ∀ w ∈ ws, 0 ≤ w) {a b : K}
    (hq : ∀ q ∈ qs, a ≤ q ∧ q ≤ b) :
    a * ws.sum ≤ (List.zipWith (· * ·) ws qs).sum ∧ (List.zipWith (· * ·) ws qs).sum ≤ b * ws.sum := by
  induction ws generalizing qs with
  | nil => simp
  | cons w ws ih =>
    cases qs with
    | nil => simp at hlen
    | cons q qs =>
      obtain ⟨h1, h2⟩ := ih (by simpa using hlen) (fun x hx => hw x (List.mem_cons_of_mem _ hx))
        (fun x hx => hq x (List.mem_cons_of_mem _ hx))
      obtain ⟨q1, q2⟩ := hq q (by simp)
      have := hw w (by simp)
      simp only [List.zipWith_cons_cons, List.sum_cons]
      constructor <;> nlinarith

theorem zipWith_nonneg {f : K → K → K} {l r : List K} (h : ∀ a ∈ l, ∀ b ∈ r, 0 ≤ f a b) : ∀ x ∈ List.zipWith f l r, 0 ≤ x := by
  intro x hx
  obtain ⟨i, hi⟩ := List.mem_iff_getElem?.1 hx
  rw [List.getElem?_zipWith_eq_some] at hi
  obtain ⟨a, b, h1, h2, rfl⟩ := hi
  exact h a (List.mem_of_getElem? h1) b (List.mem_of_getElem? h2)

/-- The average over a distribution lies between the bounds. -/
theorem avgProb_bounds {q : List X → List K} {a b : K} (hlen : ∀ xs, (q xs).length = xs.length)
    (hq : ∀ xs, ∀ p ∈ q xs, a ≤ p ∧ p ≤ b) {e : Entry K τ (PState K X G) S C}
    (he : e.fStates ≠ []) (hd : ∀ f ∈ e.fStates, IsParticleDist f) : a ≤ avgProb q e ∧ avgProb q e ≤ b := by
  unfold avgProb
  cases hf : e.fStates with
  | nil => exact absurd hf he
  | cons f fs =>
    obtain ⟨_, h2, h3, h4⟩ := hd f (by rw [hf]; simp)
    have := zipWith_bounds (qs := q f.parts) (by rw [hlen, h2]) h3 (hq f.parts)
    rw [h4, mul_one, mul_one] at this
    exact this

theorem innerPredict_dist {pf : PFilter K X G S C Z} (hpf : GoodFilter pf) {ps : List X → List K} {a b : K} (ha : 0 < a)
    (hlen : ∀ xs, (ps xs).length = xs.length) (hq : ∀ xs, ∀ p ∈ ps xs, a ≤ p ∧ p ≤ b) {f : PState K X G} (s : S)
    (hf : IsParticleDist f) : IsParticleDist (innerPredict pf ps f s).1 := by
  unfold innerPredict
  rw [if_neg hf.1]
  obtain ⟨g1, g2, g3, g4⟩ := hpf.pred f hf
  have hb := zipWith_bounds (qs := ps (pf.predict f).1.parts) (by rw [hlen, g2]) g3 (hq _)
  refine normTo_dist g1 (by simp [hlen, g2]) ?_ ?_
  · refine zipWith_nonneg fun w hw p hp => mul_nonneg (g3 w hw) (ha.le.trans (hq _ p hp).1)
  · rw [g4, mul_one] at hb
    exact (lt_of_lt_of_le ha hb.1).ne'

theorem detWeights_pos {eps : K} (heps : 0 < eps) {pd : List X → List K} {d : K} (hlen : ∀ xs, (pd xs).length = xs.length)
    (hq : ∀ xs, ∀ p ∈ pd xs, 0 ≤ p ∧ p ≤ d) {g : PState K X G} (hg : IsParticleDist g) :
    (detWeights eps pd g).length = g.parts.length ∧ (∀ w ∈ detWeights eps pd g, 0 < w) ∧ 0 < (detWeights eps pd g).sum := by
  obtain ⟨g1, g2, g3, g4⟩ := hg
  have hl : (detWeights eps pd g).length = g.parts.length := by simp [detWeights, hlen, g2]
  have hp : ∀ w ∈ detWeights eps pd g, 0 < w := by
    intro x hx
    unfold detWeights at hx
    obtain ⟨i, hi⟩ := List.mem_iff_getElem?.1 hx
    rw [List.getElem?_zipWith_eq_some] at hi
    obtain ⟨p, w, h1, h2, rfl⟩ := hi
    have := mul_nonneg (hq _ p (List.mem_of_getElem? h1)).1 (g3 w (List.mem_of_getElem? h2))
    linarith
  refine ⟨hl, hp, List.sum_pos _ hp ?_⟩
  intro h0
  rw [h0, List.length_nil] at hl
  exact g1 (List.length_eq_zero_iff.1 hl.symm)

theorem innerCorrect_dist {pf : PFilter K X G S C Z} (hpf : GoodFilter pf) {eps : K} (heps : 0 < eps)
    {pd : List X → List K} {d : K} (hlen : ∀ xs, (pd xs).length = xs.length)
    (hq : ∀ xs, ∀ p ∈ pd xs, 0 ≤ p ∧ p ≤ d) {z : Z} {f : PState K X G} {s : S} {w : K} {x}
    (hf : IsParticleDist f) (h : innerCorrect eps pf pd z f s w = some x) : IsParticleDist x.1 ∧ 0 ≤ x.2.2.2 := by
  unfold innerCorrect at h
  rw [if_neg hf.1] at h
  split at h
  · simp at h
  · rename_i g s' likely hc
    rw [Option.some.injEq] at h
    subst h
    obtain ⟨h1, h2, h3⟩ := hpf.cor _ _ _ _ _ hf hc
    obtain ⟨k1, k2, k3⟩ := detWeights_pos heps hlen hq h1
    exact ⟨normTo_dist h1.1 k1 (fun w hw => (k2 w hw).le) k3.ne',
      List.sum_nonneg (zipWith_nonneg fun l hl w hw => mul_nonneg (h3 l hl) (k2 w hw).le)⟩

end Gasur.Smc
