import Verif.Props.Bfm

/-!
# Property C174: shortest distances obey the triangle inequality and are stable
-/

set_option linter.unusedSectionVars false

namespace Gasur.Props

open Gasur.Bfm Gasur.Spec

variable {K : Type*} [CommRing K] [LinearOrder K] [IsStrictOrderedRing K] {n : ℕ}

theorem walk_join {G : Fin n → Fin n → WithTop K} {eps : K} {u v : Fin n} {l : List (Fin n)} {a : K}
    (h : Walk G eps u v l a) {x : Fin n} {l' : List (Fin n)} {b : K} (h' : Walk G eps v x l' b) :
    ∃ l'', Walk G eps u x l'' (a + b) := by
  induction h' with
  | nil => exact ⟨l, by rw [add_zero]; exact h⟩
  | snoc _ ha ih =>
    obtain ⟨l'', hl⟩ := ih
    exact ⟨_, by rw [← add_assoc]; exact hl.snoc ha⟩

/-- The same pairs of vertices are joined by an arc, with weights that differ at most by `δ`. -/
def CloseGraphs (eps δ : K) (G G' : Fin n → Fin n → WithTop K) : Prop :=
  ∀ u v, (∀ w, Arc G eps u v w → ∃ w', Arc G' eps u v w' ∧ |w' - w| ≤ δ) ∧
    ∀ w', Arc G' eps u v w' → ∃ w, Arc G eps u v w ∧ |w' - w| ≤ δ

theorem CloseGraphs.symm {eps δ : K} {G G' : Fin n → Fin n → WithTop K} (h : CloseGraphs eps δ G G') :
    CloseGraphs eps δ G' G := fun u v => ⟨fun w hw => by
    obtain ⟨w', h1, h2⟩ := (h u v).2 w hw
    exact ⟨w', h1, by rwa [abs_sub_comm]⟩, fun w hw => by
    obtain ⟨w', h1, h2⟩ := (h u v).1 w hw
    exact ⟨w', h1, by rwa [abs_sub_comm]⟩⟩

theorem walk_moved {eps δ : K} {G G' : Fin n → Fin n → WithTop K} (h : CloseGraphs eps δ G G') {u v : Fin n}
    {l : List (Fin n)} {a : K} (hw : Walk G eps u v l a) :
    ∃ a', Walk G' eps u v l a' ∧ 1 ≤ l.length ∧ a' ≤ a + ((l.length - 1 : ℕ) : K) * δ := by
  induction hw with
  | nil => exact ⟨0, .nil, le_rfl, by simp⟩
  | @snoc v x l a w _ ha ih =>
    obtain ⟨a', h1, h2, h3⟩ := ih
    obtain ⟨w', h4, h5⟩ := (h _ _).1 w ha
    refine ⟨a' + w', h1.snoc h4, by simp, ?_⟩
    rw [List.length_append, List.length_singleton, Nat.add_sub_cancel]
    have : ((l.length : ℕ) : K) = ((l.length - 1 : ℕ) : K) + 1 := by
      rw [Nat.cast_sub h2]
      push_cast
      ring
    rw [this]
    linarith [(abs_le.1 h5).2]

/-- **C174.** The distances of `bfm_shortest_path` obey the triangle inequality, and the distance from a vertex to itself is
zero: for graphs without negative cycles, whatever the signs of the weights. -/
theorem C174_triangle (G : Fin n → Fin n → WithTop K) (eps : K) (heps : 0 < eps) (hn2 : 2 ≤ n) (hnt : NoTiny G eps)
    (hn : ∀ u, NoNegCycle G eps u) (fuel : ℕ) (hf : n ≤ fuel) (u v x : Fin n) :
    ∃ duv dvx dux puv pvx pux quv qvx qux, bfm G eps u v fuel = .ok (duv, puv, quv) ∧ bfm G eps v x fuel = .ok (dvx, pvx, qvx) ∧
      bfm G eps u x fuel = .ok (dux, pux, qux) ∧ dux ≤ duv + dvx ∧ (u = v → duv = 0) := by
  obtain ⟨d1, p1, q1, e1, a1, -, b1⟩ := C06_bfm_shortest G eps heps hn2 hnt u v (hn u) fuel hf
  obtain ⟨d2, p2, q2, e2, a2, -, b2⟩ := C06_bfm_shortest G eps heps hn2 hnt v x (hn v) fuel hf
  obtain ⟨d3, p3, q3, e3, a3, -, b3⟩ := C06_bfm_shortest G eps heps hn2 hnt u x (hn u) fuel hf
  refine ⟨d1, d2, d3, p1, p2, p3, q1, q2, q3, e1, e2, e3, ?_, ?_⟩
  · induction d1 using WithTop.recTopCoe with
    | top => simp
    | coe x1 =>
      induction d2 using WithTop.recTopCoe with
      | top => simp
      | coe x2 =>
        obtain ⟨l, hl⟩ := walk_join (b1 x1 rfl).1 (b2 x2 rfl).1
        induction d3 using WithTop.recTopCoe with
        | top => exact absurd hl (a3.1 rfl _ _)
        | coe x3 =>
          rw [← WithTop.coe_add, WithTop.coe_le_coe]
          exact (b3 x3 rfl).2 _ _ hl
  · rintro rfl
    induction d1 using WithTop.recTopCoe with
    | top => exact absurd (Walk.nil) (a1.1 rfl _ _)
    | coe x1 =>
      obtain ⟨h1, h2⟩ := b1 x1 rfl
      have h3 := h2 _ _ .nil
      have h4 := hn u u [u] 0 .nil _ _ h1
      rw [le_antisymm h3 h4]
      rfl

/-- **C174**, stable: if two graphs with `n` vertices and without negative cycles have the same arcs, with weights that differ
at most by `δ`, then the same vertices are reachable and the distances differ at most by `(n - 1) δ`. -/
theorem C174_stable (G G' : Fin n → Fin n → WithTop K) (eps : K) (heps : 0 < eps) (hn2 : 2 ≤ n) (hnt : NoTiny G eps)
    (hnt' : NoTiny G' eps) {δ : K} (hδ : 0 ≤ δ) (hG : CloseGraphs eps δ G G') (src dst : Fin n) (hn : NoNegCycle G eps src)
    (hn' : NoNegCycle G' eps src) (fuel : ℕ) (hf : n ≤ fuel) :
    ∃ d d' p p' q q', bfm G eps src dst fuel = .ok (d, p, q) ∧ bfm G' eps src dst fuel = .ok (d', p', q') ∧
      (d = ⊤ ↔ d' = ⊤) ∧ ∀ x x' : K, d = x → d' = x' → |x' - x| ≤ ((n - 1 : ℕ) : K) * δ := by
  have half : ∀ (G G' : Fin n → Fin n → WithTop K), NoTiny G eps → NoTiny G' eps → NoNegCycle G eps src →
      NoNegCycle G' eps src → CloseGraphs eps δ G G' → ∀ d p q d' p' q', bfm G eps src dst fuel = .ok (d, p, q) →
      bfm G' eps src dst fuel = .ok (d', p', q') → (d' = ⊤ → d = ⊤) ∧
      ∀ x x' : K, d = x → d' = x' → x' ≤ x + ((n - 1 : ℕ) : K) * δ := by
    intro G G' t t' c c' hG d p q d' p' q' e e'
    obtain ⟨d1, p1, q1, e1, a1, -, b1⟩ := C06_bfm_shortest G eps heps hn2 t src dst c fuel hf
    obtain ⟨d2, p2, q2, e2, a2, -, b2⟩ := C06_bfm_shortest G' eps heps hn2 t' src dst c' fuel hf
    obtain ⟨D, P, Q, g1, -, g2, -⟩ := C07_bfm_path_simple G eps heps hn2 t src dst c
    have g := g1 fuel hf
    rw [e] at e1 g
    obtain ⟨rfl, rfl, rfl⟩ : d = d1 ∧ p = p1 ∧ q = q1 := by simpa using e1
    obtain ⟨rfl, rfl, rfl⟩ : d = D ∧ p = P ∧ q = Q := by simpa using g
    rw [e'] at e2
    obtain ⟨rfl, rfl, rfl⟩ : d' = d2 ∧ p' = p2 ∧ q' = q2 := by simpa using e2
    refine ⟨fun hd => ?_, ?_⟩
    · rw [a1]
      intro l a hw
      obtain ⟨a', hw', -⟩ := walk_moved hG hw
      exact a2.1 hd _ _ hw'
    · rintro x x' rfl rfl
      obtain ⟨a', hw', hl, ha⟩ := walk_moved hG (b1 x rfl).1
      have k1 := (b2 x' rfl).2 _ _ hw'
      have k2 : ((p.length - 1 : ℕ) : K) * δ ≤ ((n - 1 : ℕ) : K) * δ :=
        mul_le_mul_of_nonneg_right (Nat.cast_le.2 (by omega)) hδ
      linarith
  obtain ⟨d, p, q, e, -⟩ := C06_bfm_shortest G eps heps hn2 hnt src dst hn fuel hf
  obtain ⟨d', p', q', e', -⟩ := C06_bfm_shortest G' eps heps hn2 hnt' src dst hn' fuel hf
  obtain ⟨u1, u2⟩ := half G G' hnt hnt' hn hn' hG _ _ _ _ _ _ e e'
  obtain ⟨v1, v2⟩ := half G' G hnt' hnt hn' hn hG.symm _ _ _ _ _ _ e' e
  refine ⟨d, d', p, p', q, q', e, e', ⟨v1, u1⟩, fun x x' h h' => ?_⟩
  have := u2 x x' h h'
  have := v2 x' x h' h
  rw [abs_le]
  constructor <;> linarith

/-- Each arc of the second graph is an arc of the first with no higher weight. -/
def ArcsAbove (eps : K) (G G' : Fin n → Fin n → WithTop K) : Prop :=
  ∀ (u v : Fin n) (w' : K), Arc G' eps u v w' → ∃ w : K, Arc G eps u v w ∧ w ≤ w'

theorem walk_below {eps : K} {G G' : Fin n → Fin n → WithTop K} (h : ArcsAbove eps G G') {u v : Fin n}
    {l : List (Fin n)} {a' : K} (hw : Walk G' eps u v l a') : ∃ a, Walk G eps u v l a ∧ a ≤ a' := by
  induction hw with
  | nil => exact ⟨0, .nil, le_rfl⟩
  | @snoc v x l a' w' _ ha ih =>
    obtain ⟨a, h1, h2⟩ := ih
    obtain ⟨w, h3, h4⟩ := h _ _ w' ha
    exact ⟨a + w, h1.snoc h3, add_le_add h2 h4⟩

/-- **C174**, monotone: if arcs are removed from a graph without negative cycles and the weights of the others go up, then
`bfm_shortest_path` still returns, and no distance goes down; in particular no new vertex becomes reachable. -/
theorem C174_monotone (G G' : Fin n → Fin n → WithTop K) (eps : K) (heps : 0 < eps) (hn2 : 2 ≤ n) (hnt : NoTiny G eps)
    (hnt' : NoTiny G' eps) (hG : ArcsAbove eps G G') (src dst : Fin n) (hn : NoNegCycle G eps src) (fuel : ℕ) (hf : n ≤ fuel) :
    ∃ d d' p p' q q', bfm G eps src dst fuel = .ok (d, p, q) ∧ bfm G' eps src dst fuel = .ok (d', p', q') ∧ d ≤ d' := by
  have hn' : NoNegCycle G' eps src := by
    intro v l a hw c b hc
    obtain ⟨a1, hw1, -⟩ := walk_below hG hw
    obtain ⟨b1, hc1, hb⟩ := walk_below hG hc
    exact (hn v l a1 hw1 c b1 hc1).trans hb
  obtain ⟨d, p, q, e, u1, -, u2⟩ := C06_bfm_shortest G eps heps hn2 hnt src dst hn fuel hf
  obtain ⟨d', p', q', e', v1, -, v2⟩ := C06_bfm_shortest G' eps heps hn2 hnt' src dst hn' fuel hf
  refine ⟨d, d', p, p', q, q', e, e', ?_⟩
  cases d' with
  | top => exact le_top
  | coe x' =>
    obtain ⟨a, hw, ha⟩ := walk_below hG (v2 x' rfl).1
    cases d with
    | top => exact absurd hw (u1.1 rfl _ _)
    | coe x => exact WithTop.coe_le_coe.2 (((u2 x rfl).2 _ _ hw).trans ha)

/-- example graph: `exG` with each weight changed by `1` -/
def exG1 : Fin 4 → Fin 4 → WithTop ℤ :=
  ![![0, 5, 2, 0], ![0, 0, 0, 3], ![0, -1, 0, 4], ![0, 0, 0, 0]]

theorem ranked_noNeg {G : Fin 4 → Fin 4 → WithTop ℤ} (h : ∀ u v, G u v ≠ ((0 : ℤ) : WithTop ℤ) → exRank u < exRank v)
    (u : Fin 4) : NoNegCycle G 1 u := by
  have key : ∀ (u v : Fin 4) l (a : ℤ), Walk G 1 u v l a → (v = u ∧ a = 0) ∨ exRank u < exRank v := by
    intro u v l a hw
    induction hw with
    | nil => exact .inl ⟨rfl, rfl⟩
    | @snoc v x l a w _ harc ih =>
      right
      have : exRank v < exRank x := by
        refine h _ _ fun h0 => ?_
        obtain ⟨h1, h2⟩ := harc
        rw [h0] at h1
        rw [← WithTop.coe_inj.1 h1] at h2
        norm_num at h2
      rcases ih with ⟨h1, _⟩ | h1
      · rw [← h1]; exact this
      · omega
  intro v l a _ c b hb
  rcases key v v c b hb with ⟨_, h⟩ | h
  · exact h.ge
  · omega

theorem int_noTiny (G : Fin 4 → Fin 4 → WithTop ℤ) : NoTiny G 1 := by
  intro u v w h
  by_cases hw : w = 0
  · exact .inl hw
  · exact .inr (Int.one_le_abs hw)

/-- A concrete case with a negative arc: the triangle inequality. -/
example : ∃ duv dvx dux puv pvx pux quv qvx qux, bfm exG 1 0 2 4 = .ok (duv, puv, quv) ∧ bfm exG 1 2 1 4 = .ok (dvx, pvx, qvx) ∧
    bfm exG 1 0 1 4 = .ok (dux, pux, qux) ∧ dux ≤ duv + dvx ∧ ((0 : Fin 4) = 2 → duv = 0) :=
  C174_triangle exG 1 one_pos (by norm_num) (int_noTiny exG) (ranked_noNeg (by decide +kernel)) 4 le_rfl 0 2 1

/-- The two graphs have the same arcs, with weights that differ by at most `1`. -/
theorem exG_close : CloseGraphs 1 1 exG exG1 := by
  have key : ∀ (G G' : Fin 4 → Fin 4 → WithTop ℤ),
      (∀ u v, (G u v).untopD 0 ≠ 0 → (G' u v).untopD 0 ≠ 0 ∧ G' u v ≠ ⊤ ∧ |(G' u v).untopD 0 - (G u v).untopD 0| ≤ 1) →
      ∀ u v w, Arc G 1 u v w → ∃ w', Arc G' 1 u v w' ∧ |w' - w| ≤ 1 := by
    intro G G' h u v w ⟨h1, h2⟩
    have hw : (G u v).untopD 0 = w := by rw [h1]; rfl
    have hw0 : w ≠ 0 := by
      rintro rfl
      norm_num at h2
    obtain ⟨k1, k2, k3⟩ := h u v (by rw [hw]; exact hw0)
    refine ⟨(G' u v).untopD 0, ⟨?_, Int.one_le_abs k1⟩, by rwa [hw] at k3⟩
    cases hg : G' u v with
    | top => exact absurd hg k2
    | coe x => rfl
  refine fun u v => ⟨fun w hw => key exG exG1 (by decide +kernel) u v w hw, fun w hw => ?_⟩
  obtain ⟨w', h1, h2⟩ := key exG1 exG (by decide +kernel) u v w hw
  exact ⟨w', h1, by rwa [abs_sub_comm]⟩

example : ∃ d d' p p' q q', bfm exG 1 0 3 4 = .ok (d, p, q) ∧ bfm exG1 1 0 3 4 = .ok (d', p', q') ∧
    (d = ⊤ ↔ d' = ⊤) ∧ ∀ x x' : ℤ, d = x → d' = x' → |x' - x| ≤ ((4 - 1 : ℕ) : ℤ) * 1 :=
  C174_stable exG exG1 1 one_pos (by norm_num) (int_noTiny _) (int_noTiny _) zero_le_one exG_close 0 3
    (ranked_noNeg (by decide +kernel) 0) (ranked_noNeg (by decide +kernel) 0) 4 le_rfl

/-- example graph: `exG` without the arc from `2` to `1` and with higher weights -/
def exG2 : Fin 4 → Fin 4 → WithTop ℤ :=
  ![![0, 4, 3, 0], ![0, 0, 0, 5], ![0, 0, 0, 5], ![0, 0, 0, 0]]

theorem exG_above : ArcsAbove 1 exG exG2 := by
  have key : ∀ u v, (exG2 u v).untopD 0 ≠ 0 →
      (exG u v).untopD 0 ≠ 0 ∧ exG u v ≠ ⊤ ∧ (exG u v).untopD 0 ≤ (exG2 u v).untopD 0 := by decide +kernel
  intro u v w' ⟨h1, h2⟩
  have hw : (exG2 u v).untopD 0 = w' := by rw [h1]; rfl
  have hw0 : w' ≠ 0 := by
    rintro rfl
    norm_num at h2
  obtain ⟨k1, k2, k3⟩ := key u v (by rw [hw]; exact hw0)
  refine ⟨(exG u v).untopD 0, ⟨?_, Int.one_le_abs k1⟩, by rwa [hw] at k3⟩
  cases hg : exG u v with
  | top => exact absurd hg k2
  | coe x => rfl

/-- A concrete case of the monotone statement: an arc is removed and weights go up. -/
example : ∃ d d' p p' q q', bfm exG 1 0 3 4 = .ok (d, p, q) ∧ bfm exG2 1 0 3 4 = .ok (d', p', q') ∧ d ≤ d' :=
  C174_monotone exG exG2 1 one_pos (by norm_num) (int_noTiny _) (int_noTiny _) exG_above 0 3
    (ranked_noNeg (by decide +kernel) 0) 4 le_rfl

end Gasur.Props
