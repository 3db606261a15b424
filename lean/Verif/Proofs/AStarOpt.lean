import Verif.Proofs.AStar

/-! # Grid search: shortest paths -/

namespace Gasur.AStar

open Gasur.Spec

theorem heur_consistent {cost : ℝ} (hc : Real.sqrt 2 ≤ cost) (e : Cell) {p q : Cell} (h : Nbr p q) :
    heur e p ≤ cost + heur e q := by
  obtain ⟨_, h1, h2⟩ := h
  have hc0 : 0 ≤ cost := (Real.sqrt_nonneg 2).trans hc
  have hc2 : 2 ≤ cost ^ 2 := by
    have := Real.sq_sqrt (show (0 : ℝ) ≤ 2 by norm_num)
    nlinarith [Real.sqrt_nonneg 2]
  have h1' : |((q.1 - p.1 : ℤ) : ℝ)| ≤ 1 := by exact_mod_cast h1
  have h2' : |((q.2 - p.2 : ℤ) : ℝ)| ≤ 1 := by exact_mod_cast h2
  unfold heur
  set x : ℝ := ((q.1 - e.1 : ℤ) : ℝ) with hx
  set y : ℝ := ((q.2 - e.2 : ℤ) : ℝ) with hy
  have ex : ((p.1 - e.1 : ℤ) : ℝ) = x - ((q.1 - p.1 : ℤ) : ℝ) := by rw [hx]; push_cast; ring
  have ey : ((p.2 - e.2 : ℤ) : ℝ) = y - ((q.2 - p.2 : ℤ) : ℝ) := by rw [hy]; push_cast; ring
  rw [ex, ey]
  generalize ((q.1 - p.1 : ℤ) : ℝ) = u at *
  generalize ((q.2 - p.2 : ℤ) : ℝ) = v at *
  rw [abs_le] at h1' h2'
  set A := Real.sqrt (x ^ 2 + y ^ 2) with hA
  have hA0 : 0 ≤ A := Real.sqrt_nonneg _
  have hA2 : A ^ 2 = x ^ 2 + y ^ 2 := Real.sq_sqrt (by positivity)
  have hsum : |x| + |y| ≤ cost * A := by
    apply abs_le_of_sq_le_sq' _ (mul_nonneg hc0 hA0) |>.2
    have e1 := sq_abs x
    have e2 := sq_abs y
    nlinarith [sq_nonneg (|x| - |y|), sq_nonneg A]
  apply Real.sqrt_le_iff.2
  refine ⟨by positivity, ?_⟩
  have k1 : -(x * u) ≤ |x| := by
    have := abs_mul x u
    have hu : |u| ≤ 1 := abs_le.2 h1'
    have := neg_abs_le (x * u)
    nlinarith [abs_nonneg x]
  have k2 : -(y * v) ≤ |y| := by
    have := abs_mul y v
    have hv : |v| ≤ 1 := abs_le.2 h2'
    have := neg_abs_le (y * v)
    nlinarith [abs_nonneg y]
  nlinarith [sq_nonneg u, sq_nonneg v]

/-- Along a route the heuristic decreases by at most the cost of the steps. -/
theorem heur_route {cost : ℝ} (hc : Real.sqrt 2 ≤ cost) (e : Cell) {t : Cell} : ∀ {w : List Cell} {b : Cell},
    (b :: w).IsChain Nbr → (b :: w).getLast? = some t → heur e b ≤ cost * w.length + heur e t
  | [], b, _, hl => by
    simp only [List.getLast?_singleton, Option.some.injEq] at hl
    rw [hl]; simp
  | a :: w, b, hch, hl => by
    rw [List.isChain_cons_cons] at hch
    rw [List.getLast?_cons_cons] at hl
    have h1 := heur_route hc e hch.2 hl
    have h2 := heur_consistent hc e hch.1
    rw [List.length_cons]
    push_cast
    linarith

/-- A route from a visited to an unvisited cell leaves the visited cells somewhere. -/
theorem route_frontier {m : Maze} (V : List Cell) : ∀ (w : List Cell) (s t : Cell), IsRoute m s t w → s ∈ V → t ∉ V →
    ∃ (u : List Cell) (a b : Cell) (r : List Cell), w = u ++ b :: r ∧ IsRoute m s a u ∧ a ∈ V ∧ b ∉ V ∧
      b ∈ children m a ∧ (b :: r).IsChain Nbr ∧ (b :: r).getLast? = some t := by
  intro w
  induction w using List.reverseRecOn with
  | nil => intro s t h; have := h.first; simp at this
  | append_singleton w x ih =>
    intro s t h hs ht
    have hx : x = t := by
      have := h.last
      simpa using this
    subst hx
    have hw : w ≠ [] := by
      rintro rfl
      have := h.first
      simp only [List.nil_append, List.head?_cons, Option.some.injEq] at this
      rw [this] at ht
      exact ht hs
    have hch := h.steps
    rw [List.isChain_append] at hch
    obtain ⟨y, hy⟩ : ∃ y, w.getLast? = some y := ⟨w.getLast hw, List.getLast?_eq_getLast_of_ne_nil hw⟩
    have hroute : IsRoute m s y w := by
      refine ⟨?_, hy, hch.1, fun p hp => h.free p ?_⟩
      · have := h.first
        rwa [List.head?_append_of_ne_nil _ hw] at this
      · rw [List.tail_append_of_ne_nil hw]
        exact List.mem_append_left _ hp
    have hnb : Nbr y x := hch.2.2 y hy x (by simp)
    by_cases hyV : y ∈ V
    · have hxf := h.free x (by rw [List.tail_append_of_ne_nil hw]; simp)
      exact ⟨w, y, x, [], rfl, hroute, hyV, ht, (mem_children m y x).2 ⟨hnb, hxf⟩, List.isChain_singleton _, rfl⟩
    · obtain ⟨u, a, b, r, rfl, h1, h2, h3, h4, h5, h6⟩ := ih s y hroute hs hyV
      refine ⟨u, a, b, r ++ [x], by simp, h1, h2, h3, h4, ?_, ?_⟩
      · rw [← List.cons_append, List.isChain_append]
        refine ⟨h5, List.isChain_singleton _, ?_⟩
        intro z hz x' hx'
        rw [h6] at hz
        simp only [Option.mem_def, Option.some.injEq, List.head?_cons] at hz hx'
        rw [← hz, ← hx']; exact hnb
      · rw [← List.cons_append, List.getLast?_append]; rfl

/-- The invariant for short paths: visited cells were expanded with a cost of at most `κ` per step of any route. -/
structure Opt (m : Maze) (s e : Cell) (cost κ : ℝ) (Q : List Node) (V : List Cell) : Prop where
  inv : Inv m s e cost Q V
  first : (V = [] ∧ Q = [⟨s, 0, 0, 0, []⟩]) ∨ (s ∈ V ∧ ∀ y ∈ Q, y.anc ≠ [])
  opt : ∀ v ∈ V, ∃ gv : ℝ, (∀ w, IsRoute m s v w → gv ≤ κ * ((w.length - 1 : ℕ) : ℝ)) ∧
    ∀ q ∈ children m v, q ∈ V ∨ ∃ y ∈ Q, y.pos = q ∧ y.g ≤ gv + cost

theorem opt_start (m : Maze) (s e : Cell) (cost κ : ℝ) : Opt m s e cost κ [⟨s, 0, 0, 0, []⟩] [] :=
  ⟨inv_start m s e cost, .inl ⟨rfl, rfl⟩, by simp⟩

/-- The node with the smallest `f` stands for a short route if its cell was not visited. -/
theorem opt_cur {m : Maze} {s e : Cell} {cost κ : ℝ} (hc : Real.sqrt 2 ≤ κ) (hcc : cost ≤ κ) {Q : List Node} {V : List Cell}
    (h : Opt m s e cost κ Q V) {cur : Node} (hcur : cur ∈ Q) (hmin : ∀ y ∈ Q, cur.f ≤ y.f) (hV : cur.pos ∉ V)
    (w : List Cell) (hw : IsRoute m s cur.pos w) : cur.g ≤ κ * ((w.length - 1 : ℕ) : ℝ) := by
  have hc0 : 0 ≤ κ := (Real.sqrt_nonneg 2).trans hc
  rcases h.first with ⟨_, hQ⟩ | ⟨hs, hanc⟩
  · rw [hQ, List.mem_singleton] at hcur
    rw [hcur]
    show (0 : ℝ) ≤ _
    positivity
  · obtain ⟨u, a, b, r, rfl, h1, h2, h3, h4, h5, h6⟩ := route_frontier V w s cur.pos hw hs hV
    obtain ⟨gv, g1, g2⟩ := h.opt a h2
    rcases g2 b h4 with hb | ⟨y, hy, hyp, hyg⟩
    · exact absurd hb h3
    · have k1 := g1 u h1
      have k2 := hmin y hy
      have n1 := h.inv.nodes cur hcur
      have n2 := h.inv.nodes y hy
      rw [n1.f, n2.f, n1.h (hanc cur hcur), n2.h (hanc y hy), hyp] at k2
      have k3 := heur_route hc e h5 h6
      have hune : u ≠ [] := by
        rintro rfl
        have := h1.first
        simp at this
      have hlen : (((u ++ b :: r).length - 1 : ℕ) : ℝ) = ((u.length - 1 : ℕ) : ℝ) + 1 + r.length := by
        have : 0 < u.length := List.length_pos_iff.2 hune
        have e : (u ++ b :: r).length - 1 = (u.length - 1) + 1 + r.length := by
          simp only [List.length_append, List.length_cons]
          omega
        rw [e]; push_cast; ring
      rw [hlen]
      nlinarith

theorem opt_step {m : Maze} {s e : Cell} {cost κ : ℝ} (hc : Real.sqrt 2 ≤ κ) (hcc : cost ≤ κ) (Q : List Node) (V : List Cell)
    (cur : Node) (k : ℕ) (h : Opt m s e cost κ Q V) (hk : Q[k]? = some cur) (hmin : ∀ y ∈ Q, cur.f ≤ y.f)
    (he : cur.pos ≠ e) :
    Opt m s e cost κ ((children m cur.pos).foldl (addChild cost e cur (V ++ [cur.pos])) (Q.eraseIdx k))
      (V ++ [cur.pos]) := by
  have hcur := List.mem_of_getElem? hk
  obtain ⟨a1, a2, a3⟩ := addAll_spec cost e cur (V ++ [cur.pos]) (children m cur.pos) (Q.eraseIdx k)
  have keep : ∀ (q : Cell) (x : ℝ), (q ∈ V ∨ ∃ y ∈ Q, y.pos = q ∧ y.g ≤ x) → q ∈ V ++ [cur.pos] ∨
      ∃ y ∈ (children m cur.pos).foldl (addChild cost e cur (V ++ [cur.pos])) (Q.eraseIdx k), y.pos = q ∧ y.g ≤ x := by
    rintro q x (hq | ⟨y, hy, rfl, hx⟩)
    · exact .inl (List.mem_append_left _ hq)
    · rcases mem_erase_or hk hy with rfl | hy
      · left; simp
      · exact .inr ⟨y, a1 y hy, rfl, hx⟩
  refine ⟨inv_step Q V cur k h.inv hk he, .inr ⟨?_, ?_⟩, ?_⟩
  · rcases h.first with ⟨_, hQ⟩ | ⟨hs, _⟩
    · rw [hQ, List.mem_singleton] at hcur
      rw [hcur]; simp
    · exact List.mem_append_left _ hs
  · intro y hy
    rcases a2 y hy with hy | ⟨p, _, _, rfl⟩
    · rcases h.first with ⟨_, hQ⟩ | ⟨_, hanc⟩
      · rw [hQ] at hk hy
        have hk0 : k = 0 := by
          have := (List.getElem?_eq_some_iff.1 hk).1
          simpa using this
        rw [hk0] at hy
        simp at hy
      · exact hanc y (List.mem_of_mem_eraseIdx hy)
    · simp [mkChild]
  · intro v hv
    by_cases hvV : v ∈ V
    · obtain ⟨gv, g1, g2⟩ := h.opt v hvV
      exact ⟨gv, g1, fun q hq => keep q _ (g2 q hq)⟩
    · rcases List.mem_append.1 hv with hv | hv
      · exact absurd hv hvV
      · rw [List.mem_singleton] at hv
        subst hv
        refine ⟨cur.g, fun w hw => opt_cur hc hcc h hcur hmin hvV w hw, fun q hq => ?_⟩
        exact a3 q hq

end Gasur.AStar
