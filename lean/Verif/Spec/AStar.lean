import Verif.Model.AStar

/-!
# Specification vocabulary for the grid search
-/

namespace Gasur.Spec

open Gasur.AStar (Cell Maze)

/-- The cell is inside the maze. -/
def Inside (m : Maze) (p : Cell) : Prop := 0 ≤ p.1 ∧ p.1 < m.rows ∧ 0 ≤ p.2 ∧ p.2 < m.cols

/-- One of the eight neighbours. -/
def Nbr (p q : Cell) : Prop := p ≠ q ∧ |q.1 - p.1| ≤ 1 ∧ |q.2 - p.2| ≤ 1

/-- `w` is a route through the maze from `s` to `e`: it goes from neighbour to neighbour, and all cells after the start
are walkable cells inside the maze. Its number of steps is `w.length - 1`. -/
structure IsRoute (m : Maze) (s e : Cell) (w : List Cell) : Prop where
  first : w.head? = some s
  last : w.getLast? = some e
  steps : w.IsChain Nbr
  free : ∀ p ∈ w.tail, Inside m p ∧ m.entry p = 0

/-- Euclidean distance of two cells. -/
noncomputable def euclid (p q : Cell) : ℝ := Real.sqrt (((p.1 - q.1 : ℤ) : ℝ) ^ 2 + ((p.2 - q.2 : ℤ) : ℝ) ^ 2)

end Gasur.Spec
