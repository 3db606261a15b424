import Mathlib.Algebra.Order.Field.Basic
import Mathlib.Algebra.BigOperators.Fin
import Mathlib.Data.List.Sort
import Mathlib.Data.List.FinRange

/-!
# Model of `gibbs`

Source: `/repo/src/gasur/utilities/sampling.py`, lines 5-83.

* Numbers are elements of a linearly ordered field `K`; `expNeg x` is `np.exp(-x)`. Costs are finite.
* The random generator is the parameter `u`: `u sol var` is the number drawn for row `var` in iteration
  `sol` (sampling.py:72-73). `np.random` returns numbers in `[0, 1)`.
* An assignment is a function from rows to columns. The result of `np.unique(axis=0, return_index=True)` is
  the list of first occurrences sorted lexicographically.
-/

namespace Gasur.Gibbs

/-- Failures: `index` (`num_iters = 0`, sampling.py:50, or reading past the end of `old_ind`, line 75);
`shape`: the start solution does not fit the matrix (line 51). -/
inductive GibErr
  | index
  | shape
deriving DecidableEq

variable {K : Type*} [Field K] [LinearOrder K] {N M : ℕ}

/-- `temp_samp` (sampling.py:59-62): the weights of the columns, 0 for columns used by other rows. -/
def weights (expNeg : K → K) (costs : Fin N → Fin M → K) (cur : Fin N → Fin M) (v : Fin N) :
    Fin M → K :=
  fun j => if ∃ i, i ≠ v ∧ cur i = j then 0 else expNeg (costs v j)

/-- `old_ind` (sampling.py:63-67). -/
def candidates (w : Fin M → K) : List (Fin M) := (List.finRange M).filter fun j => decide (0 < w j)

/-- `np.cumsum`. -/
def cumsum : K → List K → List K
  | _, [] => []
  | acc, x :: l => (acc + x) :: cumsum (acc + x) l

/-- `hist_in_array` (sampling.py:69-71). -/
def hist (ws : List K) : List K := 0 :: (cumsum 0 ws).map fun x => x / ws.sum

/-- `np.digitize(u, bins)` for increasing bins: the number of bins that are at most `u`. -/
def digitize (u : K) (bins : List K) : ℕ := (bins.filter fun b => decide (b ≤ u)).length

/-- The new column of row `v` (sampling.py:59-75). Without candidates it is column 0. -/
def newCol (w : Fin M → K) (u : K) : Except GibErr (Fin M) :=
  if candidates w = [] then (if h : 0 < M then .ok ⟨0, h⟩ else .error .index)
  else
    match (candidates w)[digitize u (hist ((candidates w).map w)) - 1]? with
    | some j => .ok j
    | none => .error .index

/-- One pass of the inner loop (sampling.py:58-75) over the rows in the list. -/
def sweep (expNeg : K → K) (costs : Fin N → Fin M → K) (u : Fin N → K) :
    List (Fin N) → (Fin N → Fin M) → Except GibErr (Fin N → Fin M)
  | [], cur => .ok cur
  | v :: vs, cur =>
    match newCol (weights expNeg costs cur v) (u v) with
    | .error e => .error e
    | .ok j => sweep expNeg costs u vs (Function.update cur v j)

/-- The outer loop (sampling.py:57-80): the solutions of iterations `sol, sol + 1, …`. -/
def iter (expNeg : K → K) (costs : Fin N → Fin M → K) (u : ℕ → Fin N → K) :
    ℕ → ℕ → (Fin N → Fin M) → Except GibErr (List (Fin N → Fin M))
  | 0, _, _ => .ok []
  | n + 1, sol, cur =>
    match sweep expNeg costs (u sol) (List.finRange N) cur with
    | .error e => .error e
    | .ok cur' =>
      match iter expNeg costs u n (sol + 1) cur' with
      | .error e => .error e
      | .ok l => .ok (cur' :: l)

/-- Cost of an assignment (sampling.py:51-54, 78-80). -/
def rowCost (costs : Fin N → Fin M → K) (a : Fin N → Fin M) : K := ∑ i, costs i (a i)

/-- The columns of an assignment as a list, for the lexicographic order of `np.unique`. -/
def colsOf (a : Fin N → Fin M) : List ℕ := (List.finRange N).map fun i => (a i).val

/-- First occurrences, keeping their position's cost. -/
def firsts : List ((Fin N → Fin M) × K) → List ((Fin N → Fin M) × K)
  | [] => []
  | p :: l => p :: (firsts l).filter fun q => decide (q.1 ≠ p.1)

/-- `np.unique(assignments, return_index=True, axis=0)` with `costs[I]` (sampling.py:82-83). -/
def uniqueRows (l : List ((Fin N → Fin M) × K)) : List ((Fin N → Fin M) × K) :=
  (firsts l).insertionSort fun p q => colsOf p.1 ≤ colsOf q.1

/-- `gibbs` (sampling.py:5-85). -/
def gibbs (expNeg : K → K) (costs : Fin N → Fin M → K) (numIters : ℕ) (u : ℕ → Fin N → K) :
    Except GibErr (List ((Fin N → Fin M) × K)) :=
  if numIters = 0 then .error .index
  else if h : 2 * N ≤ M then
    match iter expNeg costs u (numIters - 1) 1 (fun i => ⟨N + i.val, by omega⟩) with
    | .error e => .error e
    | .ok l => .ok (uniqueRows (((fun i => ⟨N + i.val, by omega⟩) :: l).map fun a => (a, rowCost costs a)))
  else .error .shape

end Gasur.Gibbs
