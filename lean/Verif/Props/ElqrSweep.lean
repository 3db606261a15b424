import Mathlib.Analysis.Matrix.Order
import Verif.Spec.ElqrSweep
import Verif.Props.ElqrIter

/-!
# Properties C81 and C82: the sweeps of a round
-/

namespace Gasur.Props

open Matrix Gasur.Spec Gasur.Guidance Gasur.Elqr

theorem lastE_ok {α : Type} {l : List α} {a : α} : lastE l = .ok a ↔ l.getLast? = some a := by
  unfold lastE
  cases l.getLast? with
  | none => simp
  | some b => simp

/-- The new control input. -/
theorem ctrlStep_ok' {n : ℕ} {kk src : ℕ} {g g' : Plan n} (h : ctrlStep kk src g = .ok g') :
    ∃ (t : Tab) (u : List ℝ) (K l : Arr) (x : Vec n), g.ctrlInput = some t ∧ g.feedback[kk]? = some K ∧
      g.feedforward[kk]? = some l ∧ g.means[src]? = some x ∧ (K.rows = t.cols → u = law t.cols K l x) ∧
      kk < t.rows.length ∧ g' = { g with ctrlInput := some ⟨t.cols, t.rows.set kk u⟩ } := by
  unfold ctrlStep at h
  obtain ⟨K, hK, h⟩ := bind_ok.1 h
  obtain ⟨x, hx, h⟩ := bind_ok.1 h
  obtain ⟨l, hl, h⟩ := bind_ok.1 h
  obtain ⟨t, ht, h⟩ := bind_ok.1 h
  obtain ⟨u, hu, h⟩ := bind_ok.1 h
  obtain ⟨_, hr, h⟩ := bind_ok.1 h
  exact ⟨t, u, K, l, x, tabE_ok.1 ht, getE_ok.1 hK, getE_ok.1 hl, getE_ok.1 hx, fun hm => control_ok hu hm,
    (List.getElem?_eq_some_iff.1 (getE_ok.1 hr)).1, (Except.ok.inj h).symm⟩

/-- The arguments of a pass after the control inputs have been set. -/
theorem passIn_told {n : ℕ} {k src ii : ℕ} {all xs : List (Vec n)} {g g1 : Plan n} {i : PassIn n}
    (h1 : ctrlStep k src g = .ok g1) (h2 : passIn k src all xs ii g1 = .ok i) : ∃ t : Tab, Told xs k ii g i ∧
      g.means[src]? = some i.xHat ∧ i.allStates = all ∧ g.ctrlInput = some t ∧
      g1 = { g with ctrlInput := some ⟨t.cols, t.rows.set k i.uHat⟩ } := by
  obtain ⟨t, u, K, l, x, a1, a2, a3, a4, a5, a6, rfl⟩ := ctrlStep_ok' h1
  unfold passIn at h2
  obtain ⟨x', b1, h2⟩ := bind_ok.1 h2
  obtain ⟨t', b2, h2⟩ := bind_ok.1 h2
  obtain ⟨u', b3, h2⟩ := bind_ok.1 h2
  obtain ⟨fb, b4, h2⟩ := bind_ok.1 h2
  obtain ⟨ff, b5, h2⟩ := bind_ok.1 h2
  obtain ⟨ccm, b6, h2⟩ := bind_ok.1 h2
  obtain ⟨ccv, b7, h2⟩ := bind_ok.1 h2
  obtain ⟨cgm, b8, h2⟩ := bind_ok.1 h2
  obtain ⟨cgv, b9, h2⟩ := bind_ok.1 h2
  obtain ⟨x0, b10, h2⟩ := bind_ok.1 h2
  rw [getE_ok] at b1 b3 b4 b5 b6 b7 b8 b9 b10
  rw [tabE_ok] at b2
  cases b2
  dsimp only at b1 b3 b4 b5 b6 b7 b8 b9 b10
  rw [List.getElem?_set_self a6] at b3
  cases b3
  rw [a4] at b1; cases b1
  rw [a2] at b4; cases b4
  rw [a3] at b5; cases b5
  cases h2
  exact ⟨t, ⟨a2, a3, b6, b7, b8, b9, ⟨t, a1, a5⟩, b10, rfl, rfl, rfl, rfl, rfl⟩, a4, rfl, a1, rfl⟩

theorem get_of_mapIdx {α β : Type} {f : ℕ → α → Except GErr β} {as : List α} {bs : List β} (h : mapIdxE f 0 as = .ok bs)
    {k : ℕ} {a : α} (ha : as[k]? = some a) : ∃ b, bs[k]? = some b ∧ f k a = .ok b := by
  obtain ⟨e1, e2⟩ := mapIdxE_ok h
  have hk : k < bs.length := by rw [e1]; exact (List.getElem?_eq_some_iff.1 ha).1
  have := e2 k a _ ha (List.getElem?_eq_getElem hk)
  rw [Nat.zero_add] at this
  exact ⟨_, List.getElem?_eq_getElem hk, this⟩

theorem fwdStep_spec {n : ℕ} {ext : Ext n} {xs : List (Vec n)} {k : ℕ} {gs gs' : List (Plan n)}
    (h : fwdStep ext xs k gs = .ok gs') : ForwardStep ext xs k gs gs' := by
  unfold fwdStep at h
  obtain ⟨cur, h1, h⟩ := bind_ok.1 h
  obtain ⟨g1, h2, h3⟩ := bind_ok.1 h
  refine ⟨(mapIdxE_ok h3).1.trans (mapIdxE_ok h2).1, ?_⟩
  intro ii g g' hg hg'
  obtain ⟨p, hp, e1⟩ := get_of_mapIdx h2 hg
  obtain ⟨q, hq, e2⟩ := get_of_mapIdx h3 hp
  rw [hg'] at hq
  cases hq
  obtain ⟨i, o, f1, f2, rfl⟩ := fwdOne_ok e2
  obtain ⟨t, a1, a2, a3, a4, rfl⟩ := passIn_told e1 f1
  refine ⟨i, o, t, a1, a2, by rw [a3]; exact (mapIdxE_ok h1).1, ?_, f2, a4, rfl⟩
  intro j p hj
  obtain ⟨x, hx, e3⟩ := get_of_mapIdx h1 hj
  rw [a3, hx, getE_ok.1 e3]

theorem bwdStep_spec {n : ℕ} {ext : Ext n} {xs : List (Vec n)} {k : ℕ} {gs gs' : List (Plan n)}
    (h : bwdStep ext xs k gs = .ok gs') : BackwardStep ext xs k gs gs' := by
  unfold bwdStep at h
  obtain ⟨g1, h2, h⟩ := bind_ok.1 h
  obtain ⟨prev, h1, h3⟩ := bind_ok.1 h
  refine ⟨(mapIdxE_ok h3).1.trans (mapIdxE_ok h2).1, ?_⟩
  intro ii g g' hg hg'
  obtain ⟨p, hp, e1⟩ := get_of_mapIdx h2 hg
  obtain ⟨q, hq, e2⟩ := get_of_mapIdx h3 hp
  rw [hg'] at hq
  cases hq
  obtain ⟨i, o, f1, f2, _, rfl⟩ := bwdOne_ok e2
  obtain ⟨t, a1, a2, a3, a4, rfl⟩ := passIn_told e1 f1
  refine ⟨i, o, t, a1, a2, by rw [a3]; exact (mapIdxE_ok h1).1.trans (mapIdxE_ok h2).1, ?_, f2, a4, rfl⟩
  intro j p x y K l s hj hx hy hK hl hs hr v
  obtain ⟨p1, hp1, e3⟩ := get_of_mapIdx h2 hj
  obtain ⟨x', hx', e4⟩ := get_of_mapIdx h1 hp1
  rw [a3, hx'] at hx
  cases hx
  obtain ⟨t', u, K', l', z, c1, c2, c3, c4, c5, c6, rfl⟩ := ctrlStep_ok' e3
  rw [hs] at c1; cases c1
  rw [hK] at c2; cases c2
  rw [hl] at c3; cases c3
  rw [hy] at c4; cases c4
  have hu := c5 hr
  subst hu
  unfold prevState at e4
  obtain ⟨z, d1, e4⟩ := bind_ok.1 e4
  obtain ⟨t', d2, e4⟩ := bind_ok.1 e4
  obtain ⟨u, d3, e4⟩ := bind_ok.1 e4
  rw [getE_ok] at d1 d3
  rw [tabE_ok] at d2
  cases d2
  dsimp only at d1 d3 e4
  rw [List.getElem?_set_self c6] at d3
  cases d3
  rw [hy] at d1
  cases d1
  unfold applyDyn at e4
  split at e4
  · have := Except.ok.inj e4
    rw [← this]
    constructor
    · intro f hf
      beta_reduce
      rw [hf]; rfl
    · intro hf
      beta_reduce
      rw [hf]; rfl
  · exact (nomatch e4)

theorem finalOne_spec {n : ℕ} {ext : Ext n} {ts : List (Comp n)} {g g' : Plan n} (h : finalOne ext ts g = .ok g') :
    Turn ext ts g g' := by
  unfold finalOne at h
  obtain ⟨x, h1, h⟩ := bind_ok.1 h
  obtain ⟨t, h2, h⟩ := bind_ok.1 h
  obtain ⟨u, h3, h⟩ := bind_ok.1 h
  obtain ⟨⟨m, v⟩, h4, h⟩ := bind_ok.1 h
  obtain ⟨_, _, h⟩ := bind_ok.1 h
  obtain ⟨_, _, h⟩ := bind_ok.1 h
  obtain ⟨cm, h5, h⟩ := bind_ok.1 h
  obtain ⟨cv, h6, h⟩ := bind_ok.1 h
  obtain ⟨a, h7, h⟩ := bind_ok.1 h
  obtain ⟨b, h8, h⟩ := bind_ok.1 h
  obtain ⟨p, h9, h⟩ := bind_ok.1 h
  obtain ⟨q, h10, h⟩ := bind_ok.1 h
  obtain ⟨w, h11, h⟩ := bind_ok.1 h
  obtain ⟨hu, rfl⟩ := invE_ok.1 h11
  have toMat_shape : ∀ {c : Arr} {a : Mat n}, c.toMat n = .ok a → c.rows = n ∧ c.cols = n := by
    intro c a hc
    unfold Arr.toMat at hc
    split at hc
    · assumption
    · exact (nomatch hc)
  have toVec_shape : ∀ {c : Arr} {a : Vec n}, c.toVec n = .ok a → c.rows = n ∧ c.cols = 1 := by
    intro c a hc
    unfold Arr.toVec at hc
    split at hc
    · assumption
    · exact (nomatch hc)
  refine ⟨x, -((a + b)⁻¹ *ᵥ (p + q)), t, u, m, v, cm, cv, lastE_ok.1 h1, tabE_ok.1 h2, lastE_ok.1 h3, h4, lastE_ok.1 h5,
    lastE_ok.1 h6, ⟨toMat_shape h7, toMat_shape h8, toVec_shape h9, toVec_shape h10⟩, ?_, (Except.ok.inj h).symm⟩
  have ha : a = fun (i j : Fin n) => m.val i j := by
    unfold Arr.toMat at h7; split at h7
    · exact (Except.ok.inj h7).symm
    · exact (nomatch h7)
  have hb : b = fun (i j : Fin n) => cm.val i j := by
    unfold Arr.toMat at h8; split at h8
    · exact (Except.ok.inj h8).symm
    · exact (nomatch h8)
  have hp : p = fun (i : Fin n) => v.val i 0 := by
    unfold Arr.toVec at h9; split at h9
    · exact (Except.ok.inj h9).symm
    · exact (nomatch h9)
  have hq : q = fun (i : Fin n) => cv.val i 0 := by
    unfold Arr.toVec at h10; split at h10
    · exact (Except.ok.inj h10).symm
    · exact (nomatch h10)
  intro z
  have hz : (∀ r : Fin n, (∑ j : Fin n, (m.val r j + cm.val r j) * z j) + (v.val r 0 + cv.val r 0) = 0) ↔
      (a + b) *ᵥ z = -(p + q) := by
    rw [funext_iff, ha, hb, hp, hq]
    apply forall_congr'
    intro r
    show (∑ j : Fin n, (m.val r j + cm.val r j) * z j) + (v.val r 0 + cv.val r 0) = 0 ↔
      ∑ j : Fin n, (m.val r j + cm.val r j) * z j = -(v.val r 0 + cv.val r 0)
    exact add_eq_zero_iff_eq_neg
  rw [hz]
  constructor
  · intro e
    have := congrArg ((a + b)⁻¹ *ᵥ ·) e
    simp only [mulVec_mulVec, Matrix.nonsing_inv_mul _ hu, one_mulVec] at this
    rw [this, mulVec_neg]
  · rintro rfl
    rw [mulVec_neg, mulVec_mulVec, Matrix.mul_nonsing_inv _ hu, one_mulVec]

theorem loopE_range {σ : Type} {f : ℕ → σ → Except GErr σ} : ∀ (N s : ℕ) {a b : σ}, loopE f (List.range' s N) a = .ok b →
    ∃ F : ℕ → σ, F 0 = a ∧ F N = b ∧ ∀ k < N, f (s + k) (F k) = .ok (F (k + 1)) := by
  intro N
  induction N with
  | zero => intro s a b h; cases h; exact ⟨fun _ => a, rfl, rfl, fun k hk => absurd hk (by omega)⟩
  | succ N ih =>
    intro s a b h
    rw [List.range'_succ] at h
    obtain ⟨c, h1, h⟩ := bind_ok.1 (show (f s a >>= fun s' => loopE f _ s') = .ok b from h)
    obtain ⟨F, e1, e2, e3⟩ := ih (s + 1) h
    refine ⟨fun k => if k = 0 then a else F (k - 1), rfl, e2, ?_⟩
    intro k hk
    cases k with
    | zero => show f s a = .ok (F 0); rw [e1]; exact h1
    | succ k =>
      have := e3 k (by omega)
      rwa [show s + 1 + k = s + (k + 1) by omega] at this

theorem loopE_rev {σ : Type} {f : ℕ → σ → Except GErr σ} : ∀ (N : ℕ) {a b : σ}, loopE f (List.range N).reverse a = .ok b →
    ∃ B : ℕ → σ, B N = a ∧ B 0 = b ∧ ∀ k < N, f k (B (k + 1)) = .ok (B k) := by
  intro N
  induction N with
  | zero => intro a b h; cases h; exact ⟨fun _ => a, rfl, rfl, fun k hk => absurd hk (by omega)⟩
  | succ N ih =>
    intro a b h
    rw [List.range_succ, List.reverse_append] at h
    obtain ⟨c, h1, h⟩ := bind_ok.1 (show (f N a >>= fun s' => loopE f (List.range N).reverse s') = .ok b from h)
    obtain ⟨B, e1, e2, e3⟩ := ih h
    refine ⟨fun k => if k = N + 1 then a else B k, if_pos rfl, ?_, ?_⟩
    · beta_reduce
      rw [if_neg (by omega)]; exact e2
    · intro k hk
      beta_reduce
      rw [if_neg (show k ≠ N + 1 by omega)]
      by_cases hN : k = N
      · subst hN
        rw [if_pos rfl, e1]
        exact h1
      · rw [if_neg (by omega)]
        exact e3 k (by omega)

/-- **C81.** For all plans, start states and inherited methods: a successful round is a forward sweep over the time steps
`0, 1, …, horizon - 2`, a turning point, and a backward sweep over the time steps in the reverse order; in every step each
plan is told its own gains, costs, start state and dynamics, and the states of all plans before any of them is changed, and
exactly the documented entries of its tables are replaced. -/
theorem C81_sweeps {n : ℕ} (cf : Conf n) (gs gs' : List (Plan n)) (xs ys : List (Vec n)) (c : ℝ)
    (h : round cf gs xs = .ok (gs', ys, c)) : ∃ F B : ℕ → List (Plan n),
      F 0 = gs ∧ (∀ k < cf.horizon - 1, ForwardStep cf.ext xs k (F k) (F (k + 1))) ∧
      (B (cf.horizon - 1)).length = (F (cf.horizon - 1)).length ∧
      (∀ (ii : ℕ) (g g' : Plan n), (F (cf.horizon - 1))[ii]? = some g → (B (cf.horizon - 1))[ii]? = some g' →
        Turn cf.ext cf.dens.targets g g') ∧
      (∀ k < cf.horizon - 1, BackwardStep cf.ext xs k (B (k + 1)) (B k)) ∧ B 0 = gs' := by
  obtain ⟨g1, g2, _, _, _, h1, h2, h3, _⟩ := round_ok h
  rw [List.range_eq_range'] at h1
  obtain ⟨F, a1, a2, a3⟩ := loopE_range _ 0 h1
  obtain ⟨B, b1, b2, b3⟩ := loopE_rev _ h3
  refine ⟨F, B, a1, ?_, ?_, ?_, fun k hk => bwdStep_spec (b3 k hk), b2⟩
  · intro k hk
    have := a3 k hk
    rw [Nat.zero_add] at this
    exact fwdStep_spec this
  · rw [a2, b1]; exact (mapIdxE_ok h2).1
  · intro ii g g' hg hg'
    rw [a2] at hg
    rw [b1] at hg'
    obtain ⟨q, hq, e⟩ := get_of_mapIdx h2 hg
    rw [hg'] at hq
    cases hq
    exact finalOne_spec e

/-- **C82.** At the turning point the last state of a plan is the unique minimum of the quadratic estimate of the total cost
(cost-to-come plus final cost), whenever the matrices are symmetric and their sum is positive semidefinite. -/
theorem C82_turn_minimises {n : ℕ} (ext : Ext n) (ts : List (Comp n)) (g g' : Plan n) (h : finalOne ext ts g = .ok g') :
    ∃ (m v cm cv : Arr) (y : Vec n), g'.ctgMat.getLast? = some m ∧ g'.ctgVec.getLast? = some v ∧
      g.ctcMat.getLast? = some cm ∧ g.ctcVec.getLast? = some cv ∧ g'.means.getLast? = some y ∧
      ((Matrix.of fun i j : Fin n => m.val i j + cm.val i j).PosSemidef → ∀ z : Vec n, z ≠ y →
        quadVal (Matrix.of fun i j => m.val i j + cm.val i j) (fun i => v.val i 0 + cv.val i 0) y <
        quadVal (Matrix.of fun i j => m.val i j + cm.val i j) (fun i => v.val i 0 + cv.val i 0) z) := by
  have hlast : ∀ {α : Type} (l : List α) (a b : α), l.getLast? = some b → (l.set (l.length - 1) a).getLast? = some a := by
    intro α l a b hb
    have : l ≠ [] := by rintro rfl; simp at hb
    have hp := List.length_pos_iff.2 this
    rw [List.getLast?_eq_getElem?, List.length_set, List.getElem?_set_self (by omega)]
  have hne : ∃ a b, g.ctgMat.getLast? = some a ∧ g.ctgVec.getLast? = some b := by
    unfold finalOne at h
    obtain ⟨_, _, h⟩ := bind_ok.1 h
    obtain ⟨_, _, h⟩ := bind_ok.1 h
    obtain ⟨_, _, h⟩ := bind_ok.1 h
    obtain ⟨⟨_, _⟩, _, h⟩ := bind_ok.1 h
    obtain ⟨a, h5, h⟩ := bind_ok.1 h
    obtain ⟨b, h6, h⟩ := bind_ok.1 h
    exact ⟨a, b, lastE_ok.1 h5, lastE_ok.1 h6⟩
  obtain ⟨a0, b0, e1, e2⟩ := hne
  obtain ⟨x, y, t, u, m, v, cm, cv, h1, h2, h3, h4, h5, h6, -, h7, rfl⟩ := finalOne_spec h
  refine ⟨m, v, cm, cv, y, hlast _ _ _ e1, hlast _ _ _ e2, h5, h6, hlast _ _ _ h1, ?_⟩
  set A : Mat n := Matrix.of fun i j => m.val i j + cm.val i j with hA
  set b : Vec n := fun i => v.val i 0 + cv.val i 0 with hb
  intro hps z hz
  have hst : ∀ w : Vec n, A *ᵥ w + b = 0 ↔ w = y := by
    intro w
    rw [← h7 w, funext_iff]
    rfl
  have hy := (hst y).2 rfl
  have hAy : A *ᵥ y = -b := eq_neg_of_add_eq_zero_left hy
  set w := z - y with hw
  have hwz : z = y + w := by rw [hw]; abel
  have hsymm : ∀ p q : Vec n, p ⬝ᵥ A *ᵥ q = q ⬝ᵥ A *ᵥ p := by
    intro p q
    have hAt : Aᵀ = A := by
      have := hps.isHermitian
      rwa [Matrix.IsHermitian, conjTranspose_eq_transpose_of_trivial] at this
    rw [dotProduct_mulVec, dotProduct_comm, ← mulVec_transpose, hAt]
  have hexp : quadVal A b z = quadVal A b y + (w ⬝ᵥ A *ᵥ w) / 2 := by
    unfold quadVal
    rw [hwz]
    simp only [mulVec_add, add_dotProduct, dotProduct_add]
    simp only [hsymm y w, hAy, dotProduct_neg, dotProduct_comm w b]
    ring
  have hpos : 0 ≤ w ⬝ᵥ A *ᵥ w := by
    have := hps.dotProduct_mulVec_nonneg w
    simpa using this
  have hne : w ⬝ᵥ A *ᵥ w ≠ 0 := by
    intro h0
    have hAw : A *ᵥ w = 0 := by
      have := (hps.dotProduct_mulVec_zero_iff w).1 (by simpa using h0)
      exact this
    have := (hst z).1 (by rw [hwz, mulVec_add, hAw, add_zero]; exact hy)
    exact hz this
  rw [hexp]
  have : 0 < w ⬝ᵥ A *ᵥ w := lt_of_le_of_ne hpos (Ne.symm hne)
  linarith

/-- The hypotheses of `C81_sweeps` and `C82_turn_minimises` are met by the example with one plan and one target. -/
example (s x0 x1 : Vec 1) (u : List ℝ) (M : Arr) : (∃ r, round (exConf 2) [exQ x0 x1 u M] [s] = .ok r) ∧
    ∃ y, finalOne exExt [⟨0, 1, 1⟩] (exQ x0 x1 u M) = .ok y ∧
      (Matrix.of fun i j : Fin 1 => (⟨1, 1, fun _ _ => 1⟩ : Arr).val i j + (Arr.zeros 1 1).val i j).PosSemidef := by
  constructor
  · obtain ⟨x1', u', c, h⟩ := exRound 2 x0 x1 s u M
    exact ⟨_, h⟩
  · have : ∃ y, finalOne exExt [⟨0, 1, 1⟩] (exQ x0 x1 u M) = .ok y := by
      show ∃ y, (invE ((fun _ _ => (1 : ℝ) : Mat 1) + fun _ _ => (0 : ℝ)) >>= _) = _
      rw [invE_ok.2 ⟨by rw [det_unique]; show IsUnit ((1 : ℝ) + 0); simp, rfl⟩]
      exact ⟨_, rfl⟩
    obtain ⟨y, hy⟩ := this
    refine ⟨y, hy, ?_⟩
    have : (Matrix.of fun i j : Fin 1 => (⟨1, 1, fun _ _ => 1⟩ : Arr).val i j + (Arr.zeros 1 1).val i j) = (1 : Mat 1) := by
      ext i j
      rw [Subsingleton.elim i 0, Subsingleton.elim j 0]
      show (1 : ℝ) + 0 = 1
      norm_num
    rw [this]
    exact PosSemidef.one

end Gasur.Props
