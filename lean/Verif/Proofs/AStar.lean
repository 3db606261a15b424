import Verif.Spec.AStar
import Mathlib.Tactic.Linarith
import Mathlib.Tactic.NormNum
import Mathlib.Tactic.Ring
import Mathlib.Tactic.Positivity

/-! # Grid search: invariants -/

namespace Gasur.AStar

open Gasur.Spec

/-! ### Children -/

theorem mem_moves (d : Cell) : d ∈ moves ↔ d ≠ (0, 0) ∧ |d.1| ≤ 1 ∧ |d.2| ≤ 1 := by
  obtain ⟨a, b⟩ := d
  simp only [moves, List.mem_cons, List.not_mem_nil, or_false, Prod.mk.injEq, abs_le, ne_eq]
  constructor
  · rintro (⟨rfl, rfl⟩ | ⟨rfl, rfl⟩ | ⟨rfl, rfl⟩ | ⟨rfl, rfl⟩ | ⟨rfl, rfl⟩ | ⟨rfl, rfl⟩ | ⟨rfl, rfl⟩ | ⟨rfl, rfl⟩) <;> decide
  · rintro ⟨h, ⟨h1, h2⟩, h3, h4⟩
    have ha : a = -1 ∨ a = 0 ∨ a = 1 := by omega
    have hb : b = -1 ∨ b = 0 ∨ b = 1 := by omega
    rcases ha with rfl | rfl | rfl <;> rcases hb with rfl | rfl | rfl <;> simp at h ⊢

theorem outside_iff (m : Maze) (p : Cell) : outside m p = false ↔ Inside m p := by
  unfold outside Inside
  simp only [Bool.or_eq_false_iff, Bool.and_eq_false_iff, decide_eq_false_iff_not, not_lt, gt_iff_lt]
  constructor
  · rintro ⟨⟨⟨⟨⟨⟨⟨h1, h2⟩, h3⟩, h4⟩, _⟩, _⟩, _⟩, _⟩
    omega
  · rintro ⟨h1, h2, h3, h4⟩
    refine ⟨⟨⟨⟨⟨⟨⟨?_, ?_⟩, ?_⟩, ?_⟩, ?_⟩, ?_⟩, ?_⟩, ?_⟩ <;> omega

theorem mem_children (m : Maze) (p q : Cell) : q ∈ children m p ↔ Nbr p q ∧ Inside m q ∧ m.entry q = 0 := by
  unfold children
  rw [List.mem_filter, List.mem_map]
  simp only [Bool.and_eq_true, Bool.not_eq_true', decide_eq_true_eq, outside_iff]
  refine and_congr ?_ Iff.rfl
  unfold Nbr
  constructor
  · rintro ⟨d, hd, rfl⟩
    obtain ⟨h1, h2, h3⟩ := (mem_moves d).1 hd
    refine ⟨fun h => h1 ?_, by simpa using h2, by simpa using h3⟩
    have e1 := congrArg Prod.fst h
    have e2 := congrArg Prod.snd h
    simp only at e1 e2
    ext <;> simp <;> omega
  · rintro ⟨h1, h2, h3⟩
    refine ⟨(q.1 - p.1, q.2 - p.2), (mem_moves _).2 ⟨fun h => h1 ?_, h2, h3⟩, by ext <;> simp⟩
    have e1 := congrArg Prod.fst h
    have e2 := congrArg Prod.snd h
    simp only at e1 e2
    ext <;> omega

/-! ### The choice of the next node -/

theorem scan_spec : ∀ (xs : List Node) (full : List Node) (cur : Node) (k i : ℕ), full[k]? = some cur → k < i →
    full.drop i = xs → (∀ x ∈ full.take i, cur.f ≤ x.f) →
    full[(scan cur k i xs).2]? = some (scan cur k i xs).1 ∧ ∀ x ∈ full, (scan cur k i xs).1.f ≤ x.f
  | [], full, cur, k, i, h1, _, h3, h4 => by
    have : full.take i = full := by
      rw [List.take_eq_self_iff]
      exact List.drop_eq_nil_iff.1 h3
    rw [this] at h4
    exact ⟨h1, h4⟩
  | x :: xs, full, cur, k, i, h1, h2, h3, h4 => by
    have hx : full[i]? = some x := by
      have := congrArg List.head? h3
      rwa [List.head?_drop, List.head?_cons] at this
    have hd : full.drop (i + 1) = xs := by
      rw [← List.tail_drop, h3, List.tail_cons]
    have ht : full.take (i + 1) = full.take i ++ [x] := by
      rw [List.take_add_one, hx]; rfl
    unfold scan
    split
    · rename_i hlt
      refine scan_spec xs full x i (i + 1) hx (by omega) hd ?_
      rw [ht]
      intro y hy
      rcases List.mem_append.1 hy with hy | hy
      · exact hlt.le.trans (h4 y hy)
      · simp only [List.mem_singleton] at hy; rw [hy]
    · rename_i hlt
      refine scan_spec xs full cur k (i + 1) h1 (by omega) hd ?_
      rw [ht]
      intro y hy
      rcases List.mem_append.1 hy with hy | hy
      · exact h4 y hy
      · simp only [List.mem_singleton] at hy; rw [hy]; exact not_lt.1 hlt

/-- The first round of the scan compares the first node with itself. -/
theorem scan_cons (x : Node) (xs : List Node) : scan x 0 0 (x :: xs) = scan x 0 1 xs := by
  rw [show scan x 0 0 (x :: xs) = if x.f < x.f then scan x 0 (0 + 1) xs else scan x 0 (0 + 1) xs from rfl,
    if_neg (lt_irrefl _)]

theorem scan_ok (x : Node) (xs : List Node) :
    (x :: xs)[(scan x 0 0 (x :: xs)).2]? = some (scan x 0 0 (x :: xs)).1 ∧
      ∀ y ∈ x :: xs, (scan x 0 0 (x :: xs)).1.f ≤ y.f := by
  rw [scan_cons]
  exact scan_spec xs (x :: xs) x 0 1 rfl (by omega) rfl (by simp)

/-! ### The queue after the children -/

/-- What the loop over the children does to the queue: nothing is removed; new are children of `cur` that were not
visited; each child that was not visited is in the queue with a `g` that is at most the one over `cur`. -/
theorem addAll_spec (cost : ℝ) (e : Cell) (cur : Node) (V : List Cell) : ∀ (cs : List Cell) (q : List Node),
    (∀ y, y ∈ q → y ∈ cs.foldl (addChild cost e cur V) q) ∧
    (∀ y, y ∈ cs.foldl (addChild cost e cur V) q → y ∈ q ∨ ∃ p ∈ cs, p ∉ V ∧ y = mkChild cost e cur p) ∧
    ∀ p ∈ cs, p ∈ V ∨ ∃ y ∈ cs.foldl (addChild cost e cur V) q, y.pos = p ∧ y.g ≤ cur.g + cost
  | [], q => by simp
  | p :: cs, q => by
    rw [List.foldl_cons]
    obtain ⟨h1, h2, h3⟩ := addAll_spec cost e cur V cs (addChild cost e cur V q p)
    have hsub : ∀ y, y ∈ q → y ∈ addChild cost e cur V q p := by
      intro y hy
      unfold addChild
      split
      · exact hy
      · split
        · exact hy
        · exact List.mem_append_left _ hy
    have hnew : ∀ y, y ∈ addChild cost e cur V q p → y ∈ q ∨ (p ∉ V ∧ y = mkChild cost e cur p) := by
      intro y hy
      unfold addChild at hy
      split at hy
      · exact .inl hy
      · rename_i hV
        split at hy
        · exact .inl hy
        · rcases List.mem_append.1 hy with hy | hy
          · exact .inl hy
          · exact .inr ⟨hV, by simpa using hy⟩
    have hin : p ∈ V ∨ ∃ y ∈ addChild cost e cur V q p, y.pos = p ∧ y.g ≤ cur.g + cost := by
      unfold addChild
      split
      · rename_i hV; exact .inl hV
      · right
        split
        · rename_i hex
          obtain ⟨i, hi, hp, hg⟩ := hex
          exact ⟨i, hi, hp, le_of_lt hg⟩
        · exact ⟨mkChild cost e cur p, by simp, rfl, le_refl _⟩
    refine ⟨fun y hy => h1 y (hsub y hy), fun y hy => ?_, fun p' hp' => ?_⟩
    · rcases h2 y hy with hy | ⟨p', hp', hV, rfl⟩
      · rcases hnew y hy with hy | ⟨hV, rfl⟩
        · exact .inl hy
        · exact .inr ⟨p, List.mem_cons_self, hV, rfl⟩
      · exact .inr ⟨p', List.mem_cons_of_mem _ hp', hV, rfl⟩
    · rcases List.mem_cons.1 hp' with rfl | hp'
      · rcases hin with hV | ⟨y, hy, hp, hg⟩
        · exact .inl hV
        · exact .inr ⟨y, h1 y hy, hp, hg⟩
      · exact h3 p' hp'

/-! ### Good nodes -/

/-- The cells of a node from the node back to the start. -/
def Node.trail (n : Node) : List Cell := n.pos :: n.anc.map fun a => a.1

/-- A node stands for a simple route from the start: `V` are the visited cells. -/
structure GoodNode (m : Maze) (s e : Cell) (cost : ℝ) (V : List Cell) (n : Node) : Prop where
  route : IsRoute m s n.pos n.trail.reverse
  simple : n.trail.Nodup
  anc : ∀ a ∈ n.anc, a.1 ∈ V
  g : n.g = cost * n.anc.length
  h : n.anc ≠ [] → n.h = heur e n.pos
  h0 : n.anc = [] → n.h = 0
  hs : ∀ a ∈ n.anc.dropLast, a.2 = heur e a.1
  hl : ∀ a, n.anc.getLast? = some a → a.2 = 0
  f : n.f = n.g + n.h

theorem GoodNode.mono {m : Maze} {s e : Cell} {cost : ℝ} {V V' : List Cell} {n : Node}
    (h : GoodNode m s e cost V n) (hV : ∀ x ∈ V, x ∈ V') : GoodNode m s e cost V' n :=
  ⟨h.route, h.simple, fun a ha => hV _ (h.anc a ha), h.g, h.h, h.h0, h.hs, h.hl, h.f⟩

theorem goodStart (m : Maze) (s e : Cell) (cost : ℝ) : GoodNode m s e cost [] ⟨s, 0, 0, 0, []⟩ := by
  refine ⟨⟨rfl, rfl, by simp [Node.trail], by simp [Node.trail]⟩, by simp [Node.trail], by simp, by simp, by simp, by simp, by simp, by simp, by simp⟩

theorem route_snoc {m : Maze} {s a b : Cell} {w : List Cell} (h : IsRoute m s a w) (hn : Nbr a b) (hi : Inside m b)
    (hf : m.entry b = 0) : IsRoute m s b (w ++ [b]) := by
  have hne : w ≠ [] := by
    intro h0
    have := h.first
    rw [h0] at this
    simp at this
  refine ⟨?_, by simp, ?_, ?_⟩
  · rw [List.head?_append_of_ne_nil _ hne]; exact h.first
  · rw [List.isChain_append]
    refine ⟨h.steps, List.isChain_singleton _, ?_⟩
    intro x hx y hy
    rw [h.last] at hx
    simp only [Option.mem_def, Option.some.injEq, List.head?_cons] at hx hy
    rw [← hx, ← hy]; exact hn
  · rw [List.tail_append_of_ne_nil hne]
    intro p hp
    rcases List.mem_append.1 hp with hp | hp
    · exact h.free p hp
    · simp only [List.mem_singleton] at hp
      rw [hp]; exact ⟨hi, hf⟩

theorem goodChild {m : Maze} {s e : Cell} {cost : ℝ} {V : List Cell} {cur : Node} (hc : GoodNode m s e cost V cur)
    {p : Cell} (hp : p ∈ children m cur.pos) (hV : p ∉ V ++ [cur.pos]) :
    GoodNode m s e cost (V ++ [cur.pos]) (mkChild cost e cur p) := by
  obtain ⟨h1, h2, h3⟩ := (mem_children m cur.pos p).1 hp
  have htr : (mkChild cost e cur p).trail = p :: cur.trail := rfl
  refine ⟨?_, ?_, ?_, ?_, fun _ => rfl, fun h => ?_, ?_, ?_, rfl⟩
  · rw [htr, List.reverse_cons]
    exact route_snoc hc.route h1 h2 h3
  · rw [htr, List.nodup_cons]
    refine ⟨fun hmem => hV ?_, hc.simple⟩
    unfold Node.trail at hmem
    rcases List.mem_cons.1 hmem with rfl | hmem
    · simp
    · obtain ⟨a, ha, rfl⟩ := List.mem_map.1 hmem
      exact List.mem_append_left _ (hc.anc a ha)
  · intro a ha
    rcases List.mem_cons.1 ha with rfl | ha
    · simp
    · exact List.mem_append_left _ (hc.anc a ha)
  · show cur.g + cost = cost * ((cur.anc.length + 1 : ℕ) : ℝ)
    rw [hc.g]; push_cast; ring
  · simp [mkChild] at h
  · intro a ha
    have ha' : a ∈ ((cur.pos, cur.h) :: cur.anc).dropLast := ha
    by_cases h0 : cur.anc = []
    · rw [h0] at ha'; simp at ha'
    · rw [List.dropLast_cons_of_ne_nil h0] at ha'
      rcases List.mem_cons.1 ha' with rfl | ha'
      · exact hc.h h0
      · exact hc.hs a ha'
  · intro a ha
    have ha' : ((cur.pos, cur.h) :: cur.anc).getLast? = some a := ha
    by_cases h0 : cur.anc = []
    · rw [h0] at ha'
      simp only [List.getLast?_singleton, Option.some.injEq] at ha'
      rw [← ha']; exact hc.h0 h0
    · obtain ⟨b, l, hbl⟩ := List.exists_cons_of_ne_nil h0
      rw [hbl, List.getLast?_cons_cons, ← hbl] at ha'
      exact hc.hl a ha'

/-! ### The loop -/

theorem loop_cases {m : Maze} {cost : ℝ} {e : Cell} (I : List Node → List Cell → Prop)
    (hstep : ∀ Q V cur k, I Q V → Q[k]? = some cur → (∀ y ∈ Q, cur.f ≤ y.f) → cur.pos ≠ e →
      I ((children m cur.pos).foldl (addChild cost e cur (V ++ [cur.pos])) (Q.eraseIdx k)) (V ++ [cur.pos])) :
    ∀ (t : ℕ) (Q : List Node) (V : List Cell), I Q V →
      (∃ V', I [] V' ∧ loop m cost e t Q V = .ok none) ∨
      ∃ Q' V' cur flag, I Q' V' ∧ cur ∈ Q' ∧ (∀ y ∈ Q', cur.f ≤ y.f) ∧ (flag = false → cur.pos = e) ∧
        loop m cost e t Q V = (returnPath m cur flag).map some
  | t, [], V, h => .inl ⟨V, h, by cases t <;> rfl⟩
  | 0, x :: xs, V, h => by
    obtain ⟨h1, h2⟩ := scan_ok x xs
    exact .inr ⟨_, _, _, true, h, List.mem_of_getElem? h1, h2, by simp, rfl⟩
  | t + 1, x :: xs, V, h => by
    obtain ⟨h1, h2⟩ := scan_ok x xs
    unfold loop
    split
    · rename_i he
      exact .inr ⟨_, _, _, false, h, List.mem_of_getElem? h1, h2, fun _ => he, rfl⟩
    · rename_i he
      exact loop_cases I hstep t _ _ (hstep _ _ _ _ h h1 h2 he)

/-- The basic invariant. -/
structure Inv (m : Maze) (s e : Cell) (cost : ℝ) (Q : List Node) (V : List Cell) : Prop where
  nodes : ∀ n ∈ Q, GoodNode m s e cost V n
  closed : ∀ v ∈ V, ∀ q ∈ children m v, q ∈ V ∨ ∃ y ∈ Q, y.pos = q
  start : s ∈ V ∨ ∃ y ∈ Q, y.pos = s
  goal : e ∉ V

theorem inv_start (m : Maze) (s e : Cell) (cost : ℝ) : Inv m s e cost [⟨s, 0, 0, 0, []⟩] [] := by
  refine ⟨?_, by simp, .inr ⟨_, List.mem_singleton.2 rfl, rfl⟩, by simp⟩
  intro n hn
  rw [List.mem_singleton.1 hn]
  exact goodStart m s e cost

theorem mem_erase_or {Q : List Node} {k : ℕ} {cur y : Node} (h : Q[k]? = some cur) (hy : y ∈ Q) :
    y = cur ∨ y ∈ Q.eraseIdx k := by
  by_cases hc : y = cur
  · exact .inl hc
  · right
    obtain ⟨i, hi⟩ := List.getElem?_of_mem hy
    rw [List.mem_eraseIdx_iff_getElem?]
    refine ⟨i, fun hik => hc ?_, hi⟩
    rw [hik, h] at hi
    exact (Option.some.inj hi).symm

theorem inv_step {m : Maze} {s e : Cell} {cost : ℝ} (Q : List Node) (V : List Cell) (cur : Node) (k : ℕ)
    (h : Inv m s e cost Q V) (hk : Q[k]? = some cur) (he : cur.pos ≠ e) :
    Inv m s e cost ((children m cur.pos).foldl (addChild cost e cur (V ++ [cur.pos])) (Q.eraseIdx k))
      (V ++ [cur.pos]) := by
  obtain ⟨a1, a2, a3⟩ := addAll_spec cost e cur (V ++ [cur.pos]) (children m cur.pos) (Q.eraseIdx k)
  have hcur := h.nodes cur (List.mem_of_getElem? hk)
  have keep : ∀ q, (q ∈ V ∨ ∃ y ∈ Q, y.pos = q) → q ∈ V ++ [cur.pos] ∨
      ∃ y ∈ (children m cur.pos).foldl (addChild cost e cur (V ++ [cur.pos])) (Q.eraseIdx k), y.pos = q := by
    rintro q (hq | ⟨y, hy, rfl⟩)
    · exact .inl (List.mem_append_left _ hq)
    · rcases mem_erase_or hk hy with rfl | hy
      · left; simp
      · exact .inr ⟨y, a1 y hy, rfl⟩
  refine ⟨?_, ?_, keep s h.start, ?_⟩
  · intro n hn
    rcases a2 n hn with hn | ⟨p, hp, hV, rfl⟩
    · exact (h.nodes n (List.mem_of_mem_eraseIdx hn)).mono fun x hx => List.mem_append_left _ hx
    · exact goodChild hcur hp hV
  · intro v hv q hq
    rcases List.mem_append.1 hv with hv | hv
    · exact keep q (h.closed v hv q hq)
    · rw [List.mem_singleton.1 hv] at hq
      rcases a3 q hq with h' | ⟨y, hy, hp, _⟩
      · exact .inl h'
      · exact .inr ⟨y, hy, hp⟩
  · intro hmem
    rcases List.mem_append.1 hmem with h' | h'
    · exact h.goal h'
    · exact he (List.mem_singleton.1 h').symm

/-- A set of cells that contains the start and is closed under free neighbours contains all cells of all routes. -/
theorem route_closed {m : Maze} (V : List Cell) (hcl : ∀ v ∈ V, ∀ q ∈ children m v, q ∈ V) :
    ∀ (w : List Cell) (s e : Cell), IsRoute m s e w → s ∈ V → e ∈ V
  | [], s, e, h, _ => by have := h.first; simp at this
  | [a], s, e, h, hs => by
    have h1 := h.first
    have h2 := h.last
    simp only [List.head?_cons, List.getLast?_singleton, Option.some.injEq] at h1 h2
    rw [← h2, h1]; exact hs
  | a :: b :: w, s, e, h, hs => by
    have h1 := h.first
    simp only [List.head?_cons, Option.some.injEq] at h1
    subst h1
    have hst := h.steps
    rw [List.isChain_cons_cons] at hst
    have hb := h.free b (by simp)
    refine route_closed V hcl (b :: w) b e ⟨rfl, ?_, hst.2, fun p hp => h.free p (by
      simp only [List.tail_cons] at hp ⊢
      exact List.mem_cons_of_mem _ hp)⟩ (hcl a hs b ((mem_children m a b).2 ⟨hst.1, hb⟩))
    have := h.last
    rwa [List.getLast?_cons_cons] at this

/-! ### The returned path -/

theorem pyIdx_ok {n : ℕ} {i : ℤ} (h0 : 0 ≤ i) (h1 : i < n) : pyIdx n i = some i.toNat := by
  unfold pyIdx
  rw [if_pos ⟨h0, h1⟩]

theorem writeAll_ok (m : Maze) : ∀ (ps : List Cell) (k : ℕ) (r : ℕ × ℕ → Option ℕ), (∀ p ∈ ps, Inside m p) → ps.Nodup →
    ∃ r', writeAll m ps k r = .ok r' ∧ ∀ x : ℕ × ℕ, ∀ v, r' x = some v ↔
      (∃ i, ps[i]? = some ((x.1 : ℤ), (x.2 : ℤ)) ∧ v = k + i) ∨ (((x.1 : ℤ), (x.2 : ℤ)) ∉ ps ∧ r x = some v)
  | [], k, r, _, _ => ⟨r, rfl, fun x v => by simp⟩
  | p :: ps, k, r, hin, hnd => by
    obtain ⟨i1, i2, i3, i4⟩ := hin p (by simp)
    rw [List.nodup_cons] at hnd
    obtain ⟨r', h1, h2⟩ := writeAll_ok m ps (k + 1) (fun x => if x = (p.1.toNat, p.2.toNat) then some k else r x)
      (fun q hq => hin q (by simp [hq])) hnd.2
    refine ⟨r', ?_, ?_⟩
    · unfold writeAll
      rw [pyIdx_ok i1 i2, pyIdx_ok i3 i4]
      exact h1
    · intro x v
      rw [h2]
      have hx : x = (p.1.toNat, p.2.toNat) ↔ ((x.1 : ℤ), (x.2 : ℤ)) = p := by
        constructor
        · rintro rfl
          ext <;> simp [i1, i3]
        · intro h
          have e1 := congrArg Prod.fst h
          have e2 := congrArg Prod.snd h
          simp only at e1 e2
          ext <;> simp only <;> omega
      constructor
      · rintro (⟨i, hi, rfl⟩ | ⟨hni, hr⟩)
        · exact .inl ⟨i + 1, by simpa using hi, by omega⟩
        · by_cases hxp : x = (p.1.toNat, p.2.toNat)
          · simp only [if_pos hxp, Option.some.injEq] at hr
            exact .inl ⟨0, by simp [hx.1 hxp], by omega⟩
          · simp only [if_neg hxp] at hr
            refine .inr ⟨?_, hr⟩
            rw [List.mem_cons]
            rintro (h | h)
            · exact hxp (hx.2 h)
            · exact hni h
      · rintro (⟨i, hi, rfl⟩ | ⟨hni, hr⟩)
        · cases i with
          | zero =>
            simp only [List.getElem?_cons_zero, Option.some.injEq] at hi
            right
            refine ⟨by rw [← hi]; exact hnd.1, ?_⟩
            simp only [if_pos (hx.2 hi.symm)]
            rfl
          | succ i =>
            exact .inl ⟨i, by simpa using hi, by omega⟩
        · rw [List.mem_cons, not_or] at hni
          refine .inr ⟨hni.2, ?_⟩
          rw [if_neg fun h => hni.1 (hx.1 h)]
          exact hr

theorem mem_collect (m : Maze) (r : ℕ × ℕ → Option ℕ) (v : ℕ) (c : Cell) : (v, c) ∈ collect m r ↔
    ∃ i j : ℕ, i < m.rows ∧ j < m.cols ∧ r (i, j) = some v ∧ c = ((i : ℤ), (j : ℤ)) := by
  unfold collect
  simp only [List.mem_flatMap, List.mem_range, List.mem_filterMap, Option.map_eq_some_iff, Prod.mk.injEq]
  constructor
  · rintro ⟨i, hi, j, hj, v', h1, rfl, rfl⟩
    exact ⟨i, j, hi, hj, h1, rfl⟩
  · rintro ⟨i, j, hi, hj, h1, rfl⟩
    exact ⟨i, hi, j, hj, v, h1, rfl, rfl⟩

theorem nodup_collect (m : Maze) (r : ℕ × ℕ → Option ℕ) : (collect m r).Nodup := by
  unfold collect
  rw [List.nodup_flatMap]
  refine ⟨fun i _ => ?_, ?_⟩
  · refine List.Nodup.filterMap ?_ List.nodup_range
    intro j j' b hb hb'
    simp only [Option.mem_def, Option.map_eq_some_iff] at hb hb'
    obtain ⟨v, _, rfl⟩ := hb
    obtain ⟨v', _, h⟩ := hb'
    have := congrArg (fun z : ℕ × Cell => z.2.2) h
    simp only at this
    omega
  · refine (List.nodup_range (n := m.rows)).imp ?_
    intro i i' hne b hb hb'
    simp only [List.mem_filterMap, Option.map_eq_some_iff] at hb hb'
    obtain ⟨j, _, v, _, rfl⟩ := hb
    obtain ⟨j', _, v', _, h⟩ := hb'
    have := congrArg (fun z : ℕ × Cell => z.2.1) h
    simp only at this
    exact hne (by omega)

theorem mem_swap (l : List Cell) (v : ℕ) (c : Cell) : (v, c) ∈ (l.zipIdx.map fun x => (x.2, x.1)) ↔ l[v]? = some c := by
  rw [List.mem_map]
  constructor
  · rintro ⟨⟨a, i⟩, h, he⟩
    have e1 := congrArg Prod.fst he
    have e2 := congrArg Prod.snd he
    simp only at e1 e2
    rw [← e1, ← e2]
    exact List.mem_zipIdx_iff_getElem?.1 h
  · intro h
    exact ⟨(c, v), List.mem_zipIdx_iff_getElem?.2 h, rfl⟩

theorem returnPath_ok (m : Maze) (n : Node) (b : Bool) (hin : ∀ p ∈ n.trail, Inside m p) (hnd : n.trail.Nodup) :
    returnPath m n b = .ok ⟨n.trail.reverse, (n.anc.map fun a => a.2).foldl max n.h, b⟩ := by
  obtain ⟨r, h1, h2⟩ := writeAll_ok m n.trail.reverse 0 (fun _ => none)
    (fun p hp => hin p (List.mem_reverse.1 hp)) (List.nodup_reverse.2 hnd)
  unfold returnPath
  have : (n.pos :: n.anc.map fun a => a.1).reverse = n.trail.reverse := rfl
  rw [this, h1]
  dsimp only
  congr 2
  -- the collected cells are the path with its step numbers
  have hperm : ((collect m r).insertionSort fun a b => a.1 ≤ b.1).Perm (n.trail.reverse.zipIdx.map fun x => (x.2, x.1)) := by
    refine (List.perm_insertionSort _ _).trans ?_
    rw [List.perm_ext_iff_of_nodup (nodup_collect m r)]
    · rintro ⟨v, c⟩
      rw [mem_collect, mem_swap]
      simp only [h2]
      constructor
      · rintro ⟨i, j, hi, hj, h | h, rfl⟩
        · obtain ⟨k, hk, rfl⟩ := h
          simpa using hk
        · simp at h
      · intro hk
        have hmem : c ∈ n.trail := List.mem_reverse.1 (List.mem_of_getElem? hk)
        obtain ⟨i1, i2, i3, i4⟩ := hin c hmem
        have e1 : ((c.1.toNat : ℕ) : ℤ) = c.1 := by omega
        have e2 : ((c.2.toNat : ℕ) : ℤ) = c.2 := by omega
        refine ⟨c.1.toNat, c.2.toNat, by omega, by omega, .inl ⟨v, ?_, by omega⟩, ?_⟩
        · simp only [e1, e2]; exact hk
        · simp only [e1, e2]
    · rw [List.nodup_map_iff_inj_on]
      · rintro ⟨a, i⟩ _ ⟨b, j⟩ _ h
        simp only [Prod.mk.injEq] at h
        rw [h.1, h.2]
      · refine List.Nodup.of_map Prod.fst ?_
        rw [List.zipIdx_map_fst]
        exact List.nodup_reverse.2 hnd
  have hs1 : ((collect m r).insertionSort fun a b => a.1 ≤ b.1).Pairwise (fun a b => a.1 ≤ b.1) := by
    haveI : Std.Total (fun a b : ℕ × Cell => a.1 ≤ b.1) := ⟨fun a b => le_total _ _⟩
    haveI : IsTrans (ℕ × Cell) (fun a b : ℕ × Cell => a.1 ≤ b.1) := ⟨fun a b c => le_trans⟩
    exact List.pairwise_insertionSort _ _
  have hs2 : (n.trail.reverse.zipIdx.map fun x => (x.2, x.1)).Pairwise (fun a b : ℕ × Cell => a.1 ≤ b.1) := by
    rw [List.pairwise_map]
    rw [List.pairwise_iff_getElem]
    intro i j hi hj hij
    simp only [List.getElem_zipIdx]
    omega
  have heq := List.Perm.eq_of_pairwise (le := fun a b : ℕ × Cell => a.1 ≤ b.1) ?_ hs1 hs2 hperm
  · rw [heq, List.map_map]
    have : ((fun a : ℕ × Cell => a.2) ∘ fun x : Cell × ℕ => (x.2, x.1)) = Prod.fst := rfl
    rw [this, List.zipIdx_map_fst]
  · rintro ⟨v, c⟩ ⟨v', c'⟩ ha hb h1 h2
    have hv : v = v' := le_antisymm h1 h2
    subst hv
    have ha' := hperm.subset ha
    rw [mem_swap] at ha' hb
    rw [ha'] at hb
    rw [Option.some.inj hb]

theorem route_inside {m : Maze} {s e : Cell} {w : List Cell} (h : IsRoute m s e w) (hs : Inside m s) :
    ∀ p ∈ w, Inside m p := by
  intro p hp
  cases w with
  | nil => simp at hp
  | cons a w =>
    have h1 := h.first
    simp only [List.head?_cons, Option.some.injEq] at h1
    rcases List.mem_cons.1 hp with rfl | hp
    · rw [h1]; exact hs
    · exact (h.free p hp).1

end Gasur.AStar
