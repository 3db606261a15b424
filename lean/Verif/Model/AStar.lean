import Mathlib.Analysis.SpecialFunctions.Sqrt
import Mathlib.Data.List.Sort
import Mathlib.Data.Int.Order.Basic

/-!
# Model of the grid search

Source: `/repo/src/gasur/utilities/graphs.py`, `a_star_search`, lines 432-581, and
`/repo/src/gasur/utilities/graphs_subroutines.py`, `AStarNode` and `astar_return_path`, lines 258-311.

* Exact real arithmetic for the costs; `np.sqrt` is `Real.sqrt`.
* A node carries its chain of ancestors as a list instead of a reference to its parent (nodes are not changed after
  they are stored).
* The maze is a rectangle of integers, zero is walkable.
* `start` and `end` are pairs of integers.
-/

namespace Gasur.AStar

/-- A position. -/
abbrev Cell := ℤ × ℤ

/-- The maze: `np.shape(maze)` and the entries. -/
structure Maze where
  rows : ℕ
  cols : ℕ
  entry : Cell → ℤ

/-- Failures: index out of range. -/
inductive AErr
  | index
  deriving DecidableEq

/-- `AStarNode` (graphs_subroutines.py:258-280): position, costs, and position and `h` of all ancestors, nearest
first. -/
structure Node where
  pos : Cell
  g : ℝ
  h : ℝ
  f : ℝ
  anc : List (Cell × ℝ)

/-- The result: path and second value, and whether "giving up on pathfinding too many iterations" was printed. -/
structure Found where
  path : List Cell
  cost : ℝ
  gaveUp : Bool

/-- `move` (graphs.py:467-474). -/
def moves : List Cell := [(-1, 0), (0, -1), (1, 0), (0, 1), (1, 1), (1, -1), (-1, 1), (-1, -1)]

/-- The range check (graphs.py:534-541), with all its clauses. -/
def outside (m : Maze) (p : Cell) : Bool :=
  p.1 > (m.rows : ℤ) - 1 || p.1 < 0 || p.2 > (m.cols : ℤ) - 1 || p.2 < 0 || (p.1 < 0 && p.2 < 0) ||
    (p.1 > (m.rows : ℤ) - 1 && p.2 < 0) || (p.1 < 0 && p.2 < (m.cols : ℤ) - 1) ||
    (p.1 > (m.rows : ℤ) - 1 && p.2 > (m.cols : ℤ) - 1)

/-- The positions of the children (graphs.py:525-551). -/
def children (m : Maze) (p : Cell) : List Cell :=
  (moves.map fun d => (p.1 + d.1, p.2 + d.2)).filter fun q => !outside m q && decide (m.entry q = 0)

/-- Choosing the node with the smallest `f`, the first one among equals (graphs.py:502-507): `cur` and `k` are the best
so far, `i` is the index of the next item. -/
noncomputable def scan (cur : Node) (k : ℕ) : ℕ → List Node → Node × ℕ
  | _, [] => (cur, k)
  | i, x :: xs => if x.f < cur.f then scan x i (i + 1) xs else scan cur k (i + 1) xs

/-- Euclidean distance (graphs.py:564-565). -/
noncomputable def heur (e p : Cell) : ℝ := Real.sqrt (((p.1 - e.1 : ℤ) : ℝ) ^ 2 + ((p.2 - e.2 : ℤ) : ℝ) ^ 2)

/-- The node of a child with its costs (graphs.py:546, 561-571). -/
noncomputable def mkChild (cost : ℝ) (e : Cell) (cur : Node) (p : Cell) : Node :=
  ⟨p, cur.g + cost, heur e p, cur.g + cost + heur e p, (cur.pos, cur.h) :: cur.anc⟩

/-- One round of the loop over the children (graphs.py:554-579). -/
noncomputable def addChild (cost : ℝ) (e : Cell) (cur : Node) (visited : List Cell) (q : List Node) (p : Cell) :
    List Node :=
  open Classical in
  if p ∈ visited then q
  else if ∃ i ∈ q, i.pos = p ∧ (mkChild cost e cur p).g > i.g then q
  else q ++ [mkChild cost e cur p]

/-- Python index into a list of length `n`. -/
def pyIdx (n : ℕ) (i : ℤ) : Option ℕ :=
  if 0 ≤ i ∧ i < n then some i.toNat
  else if i < 0 ∧ -n ≤ i then some (n + i).toNat
  else none

/-- Writing the step numbers into `result` (graphs_subroutines.py:301-303). -/
def writeAll (m : Maze) : List Cell → ℕ → (ℕ × ℕ → Option ℕ) → Except AErr (ℕ × ℕ → Option ℕ)
  | [], _, r => .ok r
  | p :: ps, k, r =>
    match pyIdx m.rows p.1, pyIdx m.cols p.2 with
    | some i, some j => writeAll m ps (k + 1) (fun x => if x = (i, j) then some k else r x)
    | _, _ => .error .index

/-- `np.argwhere(result >= 0)` with the values (graphs_subroutines.py:305-306). -/
def collect (m : Maze) (r : ℕ × ℕ → Option ℕ) : List (ℕ × Cell) :=
  (List.range m.rows).flatMap fun i => (List.range m.cols).filterMap fun j =>
    (r (i, j)).map fun v => (v, ((i : ℤ), (j : ℤ)))

/-- `astar_return_path` (graphs_subroutines.py:283-311): the cells by step number and the largest `h`. -/
noncomputable def returnPath (m : Maze) (n : Node) (gaveUp : Bool) : Except AErr Found :=
  match writeAll m ((n.pos :: n.anc.map fun a => a.1).reverse) 0 (fun _ => none) with
  | .error e => .error e
  | .ok r => .ok ⟨((collect m r).insertionSort fun a b => a.1 ≤ b.1).map fun a => a.2,
      (n.anc.map fun a => a.2).foldl max n.h, gaveUp⟩

/-- The search loop (graphs.py:494-581): the first argument is the number of iterations that are left before giving up;
`none` is the return value `None`. -/
noncomputable def loop (m : Maze) (cost : ℝ) (e : Cell) : ℕ → List Node → List Cell → Except AErr (Option Found)
  | _, [], _ => .ok none
  | 0, x :: xs, _ => (returnPath m (scan x 0 0 (x :: xs)).1 true).map some
  | t + 1, x :: xs, visited =>
    if (scan x 0 0 (x :: xs)).1.pos = e then (returnPath m (scan x 0 0 (x :: xs)).1 false).map some
    else
      loop m cost e t
        ((children m (scan x 0 0 (x :: xs)).1.pos).foldl
          (addChild cost e (scan x 0 0 (x :: xs)).1 (visited ++ [(scan x 0 0 (x :: xs)).1.pos]))
          ((x :: xs).eraseIdx (scan x 0 0 (x :: xs)).2))
        (visited ++ [(scan x 0 0 (x :: xs)).1.pos])

/-- `a_star_search` with `max_iterations = M` (graphs.py:432-581). -/
noncomputable def searchM (M : ℕ) (m : Maze) (start e : Cell) (cost : ℝ) : Except AErr (Option Found) :=
  loop m cost e M [⟨start, 0, 0, 0, []⟩] []

/-- `a_star_search` (graphs.py:432-581, `max_iterations` 463). -/
noncomputable def search (m : Maze) (start e : Cell) (cost : ℝ) : Except AErr (Option Found) :=
  searchM 100000 m start e cost

end Gasur.AStar
