import Verif.Proofs.AStarOpt

/-!
# Properties C09-C11: the grid search
-/

namespace Gasur.Props

open Gasur.Spec Gasur.AStar

/-! ### Running the search -/

theorem loop_next {m : Maze} {cost : ℝ} {e : Cell} {t k : ℕ} {x cur : Node} {xs Q : List Node} {V cs : List Cell}
    (hpick : scan x 0 0 (x :: xs) = (cur, k)) (hne : cur.pos ≠ e) (hcs : children m cur.pos = cs)
    (hQ : cs.foldl (addChild cost e cur (V ++ [cur.pos])) ((x :: xs).eraseIdx k) = Q) :
    loop m cost e (t + 1) (x :: xs) V = loop m cost e t Q (V ++ [cur.pos]) := by
  rw [show loop m cost e (t + 1) (x :: xs) V = if (scan x 0 0 (x :: xs)).1.pos = e then
      (returnPath m (scan x 0 0 (x :: xs)).1 false).map some
    else
      loop m cost e t
        ((children m (scan x 0 0 (x :: xs)).1.pos).foldl
          (addChild cost e (scan x 0 0 (x :: xs)).1 (V ++ [(scan x 0 0 (x :: xs)).1.pos]))
          ((x :: xs).eraseIdx (scan x 0 0 (x :: xs)).2))
        (V ++ [(scan x 0 0 (x :: xs)).1.pos]) from rfl]
  rw [hpick, if_neg hne]
  dsimp only
  rw [hcs, hQ]

theorem loop_found {m : Maze} {cost : ℝ} {e : Cell} {t k : ℕ} {x cur : Node} {xs : List Node} {V : List Cell}
    (hpick : scan x 0 0 (x :: xs) = (cur, k)) (he : cur.pos = e) :
    loop m cost e (t + 1) (x :: xs) V = (returnPath m cur false).map some := by
  rw [show loop m cost e (t + 1) (x :: xs) V = if (scan x 0 0 (x :: xs)).1.pos = e then
      (returnPath m (scan x 0 0 (x :: xs)).1 false).map some
    else
      loop m cost e t
        ((children m (scan x 0 0 (x :: xs)).1.pos).foldl
          (addChild cost e (scan x 0 0 (x :: xs)).1 (V ++ [(scan x 0 0 (x :: xs)).1.pos]))
          ((x :: xs).eraseIdx (scan x 0 0 (x :: xs)).2))
        (V ++ [(scan x 0 0 (x :: xs)).1.pos]) from rfl]
  rw [hpick, if_pos he]

/-! ### C09 -/

/-- All that is known about a result of the search. -/
theorem search_cases (m : Maze) (s e : Cell) (cost : ℝ) (hs : Inside m s) :
    (search m s e cost = .ok none ∧ ¬ ∃ w, IsRoute m s e w) ∨
    ∃ (n : Node) (V : List Cell) (b : Bool), GoodNode m s e cost V n ∧ (b = false → n.pos = e) ∧
      search m s e cost = .ok (some ⟨n.trail.reverse, (n.anc.map fun a => a.2).foldl max n.h, b⟩) := by
  rcases loop_cases (m := m) (cost := cost) (e := e) (Inv m s e cost)
    (fun Q V cur k h hk _ he => inv_step Q V cur k h hk he) 100000 _ _ (inv_start m s e cost) with
    ⟨V, hI, h⟩ | ⟨Q, V, cur, b, hI, hcur, _, hb, h⟩
  · left
    refine ⟨h, fun ⟨w, hw⟩ => hI.goal ?_⟩
    refine route_closed V (fun v hv q hq => ?_) w s e hw ?_
    · rcases hI.closed v hv q hq with h | ⟨y, hy, _⟩
      · exact h
      · simp at hy
    · rcases hI.start with h | ⟨y, hy, _⟩
      · exact h
      · simp at hy
  · right
    have hg := hI.nodes cur hcur
    refine ⟨cur, V, b, hg, hb, ?_⟩
    have hin : ∀ p ∈ cur.trail, Inside m p := fun p hp =>
      route_inside hg.route hs p (List.mem_reverse.2 hp)
    rw [returnPath_ok m cur b hin hg.simple] at h
    exact h

/-- **C09.** For every maze, every start inside it, every end and every cost: if the search returns a path, the path
starts at the start, goes from neighbour to neighbour over walkable cells inside the maze, visits no cell twice, and
ends at the end unless the search printed that it gives up. -/
theorem C09_valid_path (m : Maze) (s e : Cell) (cost : ℝ) (hs : Inside m s) (r : Found)
    (h : search m s e cost = .ok (some r)) :
    ∃ t, IsRoute m s t r.path ∧ (∀ p ∈ r.path, Inside m p) ∧ r.path.Nodup ∧ (r.gaveUp = false → t = e) := by
  rcases search_cases m s e cost hs with ⟨h1, _⟩ | ⟨n, V, b, hg, hb, h1⟩
  · rw [h1] at h; simp at h
  · rw [h1] at h
    simp only [Except.ok.injEq, Option.some.injEq] at h
    rw [← h]
    exact ⟨n.pos, hg.route, route_inside hg.route hs, List.nodup_reverse.2 hg.simple, hb⟩

/-- **C09, no failure and completeness.** The search never raises an exception, and it returns `None` only if there is
no route; so if there is a route it returns a path (or prints that it gives up). -/
theorem C09_complete (m : Maze) (s e : Cell) (cost : ℝ) (hs : Inside m s) :
    (∃ o, search m s e cost = .ok o) ∧
    (search m s e cost = .ok none → ¬ ∃ w, IsRoute m s e w) ∧
    ((∃ w, IsRoute m s e w) → ∃ r, search m s e cost = .ok (some r)) := by
  rcases search_cases m s e cost hs with ⟨h1, h2⟩ | ⟨n, V, b, hg, hb, h1⟩
  · exact ⟨⟨_, h1⟩, fun _ => h2, fun h => absurd h h2⟩
  · refine ⟨⟨_, h1⟩, fun h => ?_, fun _ => ⟨_, h1⟩⟩
    rw [h1] at h; simp at h

/-- **C09, start outside the maze.** The start is not checked: a start just above the maze is accepted, and the returned
path starts in the last row and jumps (negative indices wrap around); so the hypothesis that the start is inside is
needed. -/
theorem C09_start_outside : ¬ Inside ⟨3, 1, fun _ => 0⟩ (-1, 0) ∧
    search ⟨3, 1, fun _ => 0⟩ (-1, 0) (0, 0) 1 = .ok (some ⟨[(2, 0), (0, 0)], 0, false⟩) := by
  refine ⟨by simp [Inside], ?_⟩
  show loop ⟨3, 1, fun _ => 0⟩ 1 (0, 0) (99998 + 1 + 1) [⟨(-1, 0), 0, 0, 0, []⟩] [] = _
  rw [loop_next (cs := [(0, 0)]) (cur := ⟨(-1, 0), 0, 0, 0, []⟩) (k := 0)
    (Q := [mkChild 1 (0, 0) ⟨(-1, 0), 0, 0, 0, []⟩ (0, 0)]) (by simp [scan]) (by decide) (by decide)
    (by simp [addChild, mkChild])]
  rw [loop_found (e := (0, 0)) (cur := mkChild 1 (0, 0) ⟨(-1, 0), 0, 0, 0, []⟩ (0, 0)) (k := 0) (by simp [scan]) rfl]
  have : returnPath ⟨3, 1, fun _ => 0⟩ (mkChild 1 (0, 0) ⟨(-1, 0), 0, 0, 0, []⟩ (0, 0)) false =
      .ok ⟨[(2, 0), (0, 0)], ([0] : List ℝ).foldl max (heur (0, 0) (0, 0)), false⟩ := rfl
  rw [this]
  simp [Except.map, heur]

/-- A maze without walls. -/
def openMaze (r c : ℕ) : Maze := ⟨r, c, fun _ => 0⟩

/-- C09 and C10 are about something: in the open 1 × 2 maze there is a start and a route. -/
example : Inside (openMaze 1 2) (0, 0) ∧ IsRoute (openMaze 1 2) (0, 0) (0, 1) [(0, 0), (0, 1)] := by
  refine ⟨⟨by norm_num, by norm_num [openMaze], by norm_num, by norm_num [openMaze]⟩, rfl, rfl, ?_, ?_⟩
  · simp [Nbr]
  · intro p hp
    simp only [List.tail_cons, List.mem_singleton] at hp
    subst hp
    exact ⟨⟨by norm_num, by norm_num [openMaze], by norm_num, by norm_num [openMaze]⟩, rfl⟩

/-! ### C10 -/

/-- **C10, bound for every cost.** If the search reaches the end, the number of steps of its path times the cost is at
most the number of steps of any route times the larger one of the cost and `√2`. For the default cost 1: at most `√2`
times as many steps as necessary. -/
theorem C10_bound (m : Maze) (s e : Cell) (cost : ℝ) (hs : Inside m s) (r : Found)
    (h : search m s e cost = .ok (some r)) (hg : r.gaveUp = false) (w : List Cell) (hw : IsRoute m s e w) :
    cost * ((r.path.length - 1 : ℕ) : ℝ) ≤ max cost (Real.sqrt 2) * ((w.length - 1 : ℕ) : ℝ) := by
  rcases loop_cases (m := m) (cost := cost) (e := e) (Opt m s e cost (max cost (Real.sqrt 2)))
    (fun Q V cur k h hk hmin he => opt_step (le_max_right _ _) (le_max_left _ _) Q V cur k h hk hmin he) 100000 _ _
    (opt_start m s e cost _) with
    ⟨V, hI, h1⟩ | ⟨Q, V, cur, b, hI, hcur, hmin, hb, h1⟩
  · have h1' : search m s e cost = .ok none := h1
    rw [h1'] at h; simp at h
  · have hgn := hI.inv.nodes cur hcur
    have hin : ∀ p ∈ cur.trail, Inside m p := fun p hp =>
      route_inside hgn.route hs p (List.mem_reverse.2 hp)
    rw [returnPath_ok m cur b hin hgn.simple] at h1
    have h1' : search m s e cost = .ok (some ⟨cur.trail.reverse, (cur.anc.map fun a => a.2).foldl max cur.h, b⟩) := h1
    rw [h1'] at h
    simp only [Except.ok.injEq, Option.some.injEq] at h
    rw [← h] at hg ⊢
    have hpos := hb hg
    have hlen : cur.trail.reverse.length - 1 = cur.anc.length := by simp [Node.trail]
    show cost * ((cur.trail.reverse.length - 1 : ℕ) : ℝ) ≤ _
    rw [hlen, ← hgn.g]
    exact opt_cur (le_max_right _ _) (le_max_left _ _) hI hcur hmin (by rw [hpos]; exact hI.inv.goal) w
      (by rw [hpos]; exact hw)

/-- **C10, partial.** If the cost of a step is at least `√2` and the search reaches the end, its path has the fewest
steps of all routes.
*Missing:* smaller costs, among them the default 1 (`C10_refuted`; `C10_bound` is what holds). -/
theorem C10_shortest_partial (m : Maze) (s e : Cell) (cost : ℝ) (hc : Real.sqrt 2 ≤ cost) (hs : Inside m s) (r : Found)
    (h : search m s e cost = .ok (some r)) (hg : r.gaveUp = false) (w : List Cell) (hw : IsRoute m s e w) :
    r.path.length ≤ w.length := by
  have hb := C10_bound m s e cost hs r h hg w hw
  rw [max_eq_left hc] at hb
  have hc0 : 0 < cost := lt_of_lt_of_le (Real.sqrt_pos.2 (by norm_num)) hc
  have hb' : ((r.path.length - 1 : ℕ) : ℝ) ≤ ((w.length - 1 : ℕ) : ℝ) := le_of_mul_le_mul_left hb hc0
  have hb'' : r.path.length - 1 ≤ w.length - 1 := by exact_mod_cast hb'
  have hw0 : 0 < w.length := by
    rw [List.length_pos_iff]
    rintro rfl
    have := hw.first
    simp at this
  omega

/-- **C10, default cost.** With the default cost the path has at most `√2` times as many steps as any route. -/
theorem C10_default_bound (m : Maze) (s e : Cell) (hs : Inside m s) (r : Found)
    (h : search m s e 1 = .ok (some r)) (hg : r.gaveUp = false) (w : List Cell) (hw : IsRoute m s e w) :
    ((r.path.length - 1 : ℕ) : ℝ) ≤ Real.sqrt 2 * ((w.length - 1 : ℕ) : ℝ) := by
  have hb := C10_bound m s e 1 hs r h hg w hw
  have h1 : (1 : ℝ) ≤ Real.sqrt 2 := by
    rw [Real.one_le_sqrt]; norm_num
  rwa [max_eq_right h1, one_mul] at hb

/-- A maze with nine walkable cells:
```
###.
##..
#..#
.##.
#..#
``` -/
def exMaze : Maze := ⟨5, 4, fun p =>
  if p ∈ [((0, 3) : Cell), (1, 2), (1, 3), (2, 1), (2, 2), (3, 0), (3, 3), (4, 1), (4, 2)] then 0 else 1⟩

noncomputable def nS : Node := ⟨(4, 1), 0, 0, 0, []⟩
noncomputable def nA : Node := mkChild 1 (0, 3) nS (4, 2)
noncomputable def nB : Node := mkChild 1 (0, 3) nS (3, 0)
noncomputable def nC : Node := mkChild 1 (0, 3) nA (3, 3)
noncomputable def nD : Node := mkChild 1 (0, 3) nC (2, 2)
noncomputable def nE : Node := mkChild 1 (0, 3) nD (1, 2)
noncomputable def nF : Node := mkChild 1 (0, 3) nD (2, 1)
noncomputable def nG : Node := mkChild 1 (0, 3) nD (1, 3)
noncomputable def nH : Node := mkChild 1 (0, 3) nG (0, 3)

theorem fA : nA.f = 1 + Real.sqrt 17 := by norm_num [nA, nS, mkChild, heur]
theorem fB : nB.f = 1 + Real.sqrt 18 := by norm_num [nB, nS, mkChild, heur]
theorem fC : nC.f = 5 := by
  have : Real.sqrt 9 = 3 := by rw [show (9 : ℝ) = 3 ^ 2 by norm_num]; exact Real.sqrt_sq (by norm_num)
  norm_num [nC, nA, nS, mkChild, heur, this]
theorem fD : nD.f = 3 + Real.sqrt 5 := by norm_num [nD, nC, nA, nS, mkChild, heur]
theorem fE : nE.f = 4 + Real.sqrt 2 := by norm_num [nE, nD, nC, nA, nS, mkChild, heur]
theorem fF : nF.f = 4 + Real.sqrt 8 := by norm_num [nF, nD, nC, nA, nS, mkChild, heur]
theorem fG : nG.f = 5 := by norm_num [nG, nD, nC, nA, nS, mkChild, heur]
theorem fH : nH.f = 5 := by norm_num [nH, nG, nD, nC, nA, nS, mkChild, heur]

/-- The run of the search in `exMaze`. -/
theorem exMaze_run : search exMaze (4, 1) (0, 3) 1 =
    (returnPath exMaze nH false).map some := by
  have s17 : Real.sqrt 17 < Real.sqrt 18 := Real.sqrt_lt_sqrt (by norm_num) (by norm_num)
  have s17' : (4 : ℝ) < Real.sqrt 17 := by rw [Real.lt_sqrt (by norm_num)]; norm_num
  have s18 : Real.sqrt 18 < 17 / 4 := by rw [Real.sqrt_lt' (by norm_num)]; norm_num
  have s18' : (4242 : ℝ) / 1000 < Real.sqrt 18 := by rw [Real.lt_sqrt (by norm_num)]; norm_num
  have s5 : Real.sqrt 5 < 2237 / 1000 := by rw [Real.sqrt_lt' (by norm_num)]; norm_num
  have s5' : (2 : ℝ) < Real.sqrt 5 := by rw [Real.lt_sqrt (by norm_num)]; norm_num
  have s2 : (14 : ℝ) / 10 < Real.sqrt 2 := by rw [Real.lt_sqrt (by norm_num)]; norm_num
  have s8 : (28 : ℝ) / 10 < Real.sqrt 8 := by rw [Real.lt_sqrt (by norm_num)]; norm_num
  show loop exMaze 1 (0, 3) (99994 + 6) [nS] [] = _
  have e1 : loop exMaze 1 (0, 3) (99994 + 5 + 1) [nS] [] = loop exMaze 1 (0, 3) (99994 + 5) [nA, nB] ([] ++ [nS.pos]) := by
    refine loop_next (cs := [(4, 2), (3, 0)]) (cur := nS) (k := 0) ?_ (by decide) (by decide) ?_
    · simp [scan]
    · simp [addChild, nS, nA, nB, mkChild]
  have e2 : loop exMaze 1 (0, 3) (99994 + 4 + 1) [nA, nB] ([] ++ [nS.pos]) =
      loop exMaze 1 (0, 3) (99994 + 4) [nB, nC] ([] ++ [nS.pos] ++ [nA.pos]) := by
    refine loop_next (cs := [(4, 1), (3, 3)]) (cur := nA) (k := 0) ?_ (by decide) (by decide) ?_
    · simp only [scan, lt_irrefl, if_false]
      rw [fA, fB, if_neg (by linarith)]
    · simp [addChild, nS, nA, nB, nC, mkChild]
  have e3 : loop exMaze 1 (0, 3) (99994 + 3 + 1) [nB, nC] ([] ++ [nS.pos] ++ [nA.pos]) =
      loop exMaze 1 (0, 3) (99994 + 3) [nB, nD] ([] ++ [nS.pos] ++ [nA.pos] ++ [nC.pos]) := by
    refine loop_next (cs := [(4, 2), (2, 2)]) (cur := nC) (k := 1) ?_ (by decide) (by decide) ?_
    · simp only [scan, lt_irrefl, if_false]
      rw [fB, fC, if_pos (by linarith)]
    · simp [addChild, nS, nA, nB, nC, nD, mkChild]
  have e4 : loop exMaze 1 (0, 3) (99994 + 2 + 1) [nB, nD] ([] ++ [nS.pos] ++ [nA.pos] ++ [nC.pos]) =
      loop exMaze 1 (0, 3) (99994 + 2) [nB, nE, nF, nG] ([] ++ [nS.pos] ++ [nA.pos] ++ [nC.pos] ++ [nD.pos]) := by
    refine loop_next (cs := [(1, 2), (2, 1), (3, 3), (1, 3)]) (cur := nD) (k := 1) ?_ (by decide) (by decide) ?_
    · simp only [scan, lt_irrefl, if_false]
      rw [fB, fD, if_pos (by linarith)]
    · simp [addChild, nS, nA, nB, nC, nD, nE, nF, nG, mkChild]
  have e5 : loop exMaze 1 (0, 3) (99994 + 1 + 1) [nB, nE, nF, nG] ([] ++ [nS.pos] ++ [nA.pos] ++ [nC.pos] ++ [nD.pos]) =
      loop exMaze 1 (0, 3) (99994 + 1) [nB, nE, nF, nH]
        ([] ++ [nS.pos] ++ [nA.pos] ++ [nC.pos] ++ [nD.pos] ++ [nG.pos]) := by
    refine loop_next (cs := [(0, 3), (1, 2), (2, 2)]) (cur := nG) (k := 3) ?_ (by decide) (by decide) ?_
    · simp only [scan, lt_irrefl, if_false]
      rw [fB, fE, if_neg (by linarith), fF, if_neg (by linarith), fG, if_pos (by linarith)]
    · simp [addChild, nS, nA, nB, nC, nD, nE, nF, nG, nH, mkChild]
  have e6 : loop exMaze 1 (0, 3) (99994 + 1) [nB, nE, nF, nH]
        ([] ++ [nS.pos] ++ [nA.pos] ++ [nC.pos] ++ [nD.pos] ++ [nG.pos]) = (returnPath exMaze nH false).map some := by
    refine loop_found (k := 3) ?_ rfl
    simp only [scan, lt_irrefl, if_false]
    rw [fB, fE, if_neg (by linarith), fF, if_neg (by linarith), fH, if_pos (by linarith)]
  rw [show (99994 + 6 : ℕ) = 99994 + 5 + 1 from rfl, e1, e2, e3, e4, e5, e6]

theorem exMaze_inside : Inside exMaze (4, 1) := by
  refine ⟨by norm_num, by norm_num [exMaze], by norm_num, by norm_num [exMaze]⟩

theorem exMaze_result : search exMaze (4, 1) (0, 3) 1 =
    .ok (some ⟨[(4, 1), (4, 2), (3, 3), (2, 2), (1, 3), (0, 3)], Real.sqrt 17, false⟩) := by
  rw [exMaze_run, returnPath_ok]
  · have h17 : (3 : ℝ) ≤ Real.sqrt 17 := Real.le_sqrt' (by norm_num) |>.2 (by norm_num)
    have h5 : Real.sqrt 5 ≤ Real.sqrt 17 := Real.sqrt_le_sqrt (by norm_num)
    have h51 : (1 : ℝ) ≤ Real.sqrt 5 := Real.le_sqrt' (by norm_num) |>.2 (by norm_num)
    have h53 : Real.sqrt 5 ≤ 3 := Real.sqrt_le_iff.2 ⟨by norm_num, by norm_num⟩
    have h9 : Real.sqrt 9 = 3 := by rw [show (9 : ℝ) = 3 ^ 2 by norm_num]; exact Real.sqrt_sq (by norm_num)
    norm_num [nH, nG, nD, nC, nA, nS, mkChild, heur, Node.trail, Except.map, h9, h51, h17, h53]
  · intro p hp
    simp only [nH, nG, nD, nC, nA, nS, mkChild, Node.trail, List.map_cons, List.map_nil, List.mem_cons,
      List.not_mem_nil, or_false] at hp
    rcases hp with rfl | rfl | rfl | rfl | rfl | rfl <;>
      exact ⟨by norm_num, by norm_num [exMaze], by norm_num, by norm_num [exMaze]⟩
  · decide

/-- **C10 is false of this code**: with the default cost the search returns a path of five steps in `exMaze`, where four
steps are enough. -/
theorem C10_refuted : ∃ r, search exMaze (4, 1) (0, 3) 1 = .ok (some r) ∧ r.gaveUp = false ∧ Inside exMaze (4, 1) ∧
    r.path.length = 6 ∧ IsRoute exMaze (4, 1) (0, 3) [(4, 1), (3, 0), (2, 1), (1, 2), (0, 3)] := by
  refine ⟨_, exMaze_result, rfl, exMaze_inside, rfl, rfl, rfl, ?_, ?_⟩
  · simp [Nbr]
  · intro p hp
    simp only [List.tail_cons, List.mem_cons, List.not_mem_nil, or_false] at hp
    rcases hp with rfl | rfl | rfl | rfl <;>
      exact ⟨⟨by norm_num, by norm_num [exMaze], by norm_num, by norm_num [exMaze]⟩, by decide⟩

/-! ### C11 -/

theorem foldl_max (l : List ℝ) (x : ℝ) : (∀ y ∈ x :: l, y ≤ l.foldl max x) ∧ l.foldl max x ∈ x :: l := by
  induction l generalizing x with
  | nil => simp
  | cons a l ih =>
    obtain ⟨h1, h2⟩ := ih (max x a)
    rw [List.foldl_cons]
    have h0 := h1 (max x a) (by simp)
    refine ⟨?_, ?_⟩
    · intro y hy
      rcases List.mem_cons.1 hy with rfl | hy
      · exact (le_max_left _ _).trans h0
      · rcases List.mem_cons.1 hy with rfl | hy
        · exact (le_max_right _ _).trans h0
        · exact h1 y (List.mem_cons_of_mem _ hy)
    · rcases List.mem_cons.1 h2 with h | h
      · rw [h]
        rcases max_choice x a with h' | h' <;> rw [h'] <;> simp
      · exact List.mem_cons_of_mem _ (List.mem_cons_of_mem _ h)

/-- **C11, what the second result is**: the largest Euclidean distance to the end among the cells of the path after the
start (zero if there are none). -/
theorem C11_value (m : Maze) (s e : Cell) (cost : ℝ) (hs : Inside m s) (r : Found)
    (h : search m s e cost = .ok (some r)) :
    (∀ p ∈ r.path.tail, euclid p e ≤ r.cost) ∧ (r.cost = 0 ∨ ∃ p ∈ r.path.tail, r.cost = euclid p e) := by
  rcases search_cases m s e cost hs with ⟨h1, _⟩ | ⟨n, V, b, hg, hb, h1⟩
  · rw [h1] at h; simp at h
  · rw [h1] at h
    simp only [Except.ok.injEq, Option.some.injEq] at h
    rw [← h]
    dsimp only
    obtain ⟨k1, k2⟩ := foldl_max (n.anc.map fun a => a.2) n.h
    have hmem : ∀ p, p ∈ n.trail.reverse.tail ↔ n.anc ≠ [] ∧ (p = n.pos ∨ ∃ a ∈ n.anc.dropLast, p = a.1) := by
      intro p
      rw [List.tail_reverse, List.mem_reverse]
      unfold Node.trail
      by_cases h0 : n.anc = []
      · simp [h0]
      · rw [List.dropLast_cons_of_ne_nil (by simpa using h0), ← List.map_dropLast, List.mem_cons, List.mem_map]
        simp only [ne_eq, h0, not_false_eq_true, true_and, eq_comm]
    refine ⟨?_, ?_⟩
    · intro p hp
      obtain ⟨h0, hp⟩ := (hmem p).1 hp
      rcases hp with rfl | ⟨a, ha, rfl⟩
      · exact (hg.h h0).symm.le.trans (k1 n.h (by simp))
      · have := k1 a.2 (List.mem_cons_of_mem _ (List.mem_map.2 ⟨a, List.dropLast_subset _ ha, rfl⟩))
        rwa [hg.hs a ha] at this
    · rcases List.mem_cons.1 k2 with h' | h'
      · by_cases h0 : n.anc = []
        · left; rw [h', hg.h0 h0]
        · right
          refine ⟨n.pos, (hmem _).2 ⟨h0, .inl rfl⟩, ?_⟩
          rw [h', hg.h h0]; rfl
      · obtain ⟨a, ha, hav⟩ := List.mem_map.1 h'
        have hne : n.anc ≠ [] := List.ne_nil_of_mem ha
        rw [← List.dropLast_append_getLast hne] at ha
        rcases List.mem_append.1 ha with ha | ha
        · right
          refine ⟨a.1, (hmem _).2 ⟨hne, .inr ⟨a, ha, rfl⟩⟩, ?_⟩
          rw [← hav, hg.hs a ha]; rfl
        · left
          rw [List.mem_singleton] at ha
          rw [← hav]
          exact hg.hl a (by rw [ha]; exact List.getLast?_eq_getLast_of_ne_nil hne)

/-- **C11 is false of this code**: the second result for the path of five steps in `exMaze` is `√17`, not five. -/
theorem C11_refuted : ∃ r, search exMaze (4, 1) (0, 3) 1 = .ok (some r) ∧ r.gaveUp = false ∧
    r.cost ≠ 1 * ((r.path.length - 1 : ℕ) : ℝ) := by
  refine ⟨_, exMaze_result, rfl, ?_⟩
  have : Real.sqrt 17 < 5 := by rw [Real.sqrt_lt' (by norm_num)]; norm_num
  have h5 : (1 : ℝ) * (([((4 : ℤ), (1 : ℤ)), (4, 2), (3, 3), (2, 2), (1, 3), (0, 3)].length - 1 : ℕ) : ℝ) = 5 := by
    norm_num
  rw [h5]
  exact this.ne

/-- **C11, partial.** If the start is the end, the second result is zero, the cost of the path.
*Missing:* all other cases: the second result is the largest distance of a cell of the path to the end
(`C11_value`), not the cost of the path (`C11_refuted`). -/
theorem C11_trivial_partial (m : Maze) (s : Cell) (cost : ℝ) (hs : Inside m s) :
    search m s s cost = .ok (some ⟨[s], cost * 0, false⟩) := by
  show loop m cost s (99999 + 1) [⟨s, 0, 0, 0, []⟩] [] = _
  rw [loop_found (cur := ⟨s, 0, 0, 0, []⟩) (k := 0) (by simp [scan]) rfl, returnPath_ok]
  · simp [Node.trail, Except.map]
  · intro p hp
    simp only [Node.trail, List.map_nil, List.mem_singleton] at hp
    rw [hp]; exact hs
  · simp [Node.trail]

end Gasur.Props
