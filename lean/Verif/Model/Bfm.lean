import Mathlib.Algebra.Order.Ring.Defs
import Mathlib.Algebra.Order.Group.Unbundled.Abs
import Mathlib.Algebra.Order.Monoid.Unbundled.WithTop
import Mathlib.Data.Fintype.Basic
import Mathlib.Data.List.FinRange

/-!
# Model of `bfm_shortest_path`

Source: `/repo/src/gasur/utilities/graphs.py`, lines 168-306.

The cost matrix is `G : Fin n → Fin n → WithTop K` (`inf` is `⊤`; `-inf` and NaN entries are not
modelled). `eps : K` stands for `np.finfo(float).eps`. Numbers are exact.
-/

namespace Gasur.Bfm

/-- Failures. `indexError`: the arc loop runs to `count_nonzero(G)` (graphs.py:278), which exceeds the
number of arcs if an entry is non-zero but below `eps`; `unbound`: `n_iters` is unbound when the outer
loop does not run (graphs.py:306); `loop`: the reconstruction loop (graphs.py:235) used up its fuel. -/
inductive BErr
  | indexError
  | unbound
  | loop
  deriving DecidableEq, Repr

variable {K : Type*} [CommRing K] [LinearOrder K] {n : ℕ}

/-- `np.abs(g) >= eps`: the entry is an arc (graphs.py:270). `inf` entries are arcs too. -/
def isArc (eps : K) (g : WithTop K) : Bool :=
  match g with
  | ⊤ => true
  | (x : K) => decide (eps ≤ |x|)

/-- The list of arcs `(tail, head)` sorted by head, then tail (graphs.py:270-277). -/
def arcs (G : Fin n → Fin n → WithTop K) (eps : K) : List (Fin n × Fin n) :=
  (List.finRange n).flatMap fun v =>
    ((List.finRange n).filter fun u => isArc eps (G u v)).map fun u => (u, v)

/-- `np.count_nonzero(G)` (graphs.py:279). -/
def countNonzero (G : Fin n → Fin n → WithTop K) : ℕ :=
  ((List.finRange n).flatMap fun v =>
    ((List.finRange n).filter fun u => decide (G u v ≠ 0)).map fun u => (u, v)).length

/-- Distances, predecessors and the flag `optimal`. -/
structure St (K : Type*) (n : ℕ) where
  D : Fin n → WithTop K
  p : Fin n → Fin n
  optimal : Bool

/-- Body of the arc loop (graphs.py:289-295). -/
def relax (G : Fin n → Fin n → WithTop K) (s : St K n) (a : Fin n × Fin n) : St K n :=
  if s.D a.1 + G a.1 a.2 < s.D a.2 then
    { D := Function.update s.D a.2 (s.D a.1 + G a.1 a.2)
      p := Function.update s.p a.2 a.1
      optimal := false }
  else s

/-- One sweep over all arcs, starting with `optimal = True` (graphs.py:286-295). -/
def sweep (G : Fin n → Fin n → WithTop K) (eps : K) (s : St K n) : St K n :=
  (arcs G eps).foldl (relax G) { s with optimal := true }

/-- The outer loop with `k` sweeps left, stopping after a sweep without change (graphs.py:285-299). -/
def sweeps (G : Fin n → Fin n → WithTop K) (eps : K) : ℕ → St K n → St K n
  | 0, s => s
  | k + 1, s =>
    if (sweep G eps s).optimal then sweep G eps s else sweeps G eps k (sweep G eps s)

/-- Initial distances and predecessors (graphs.py:280-284); `p` is all zeros. -/
def initSt (r : Fin n) : St K n :=
  { D := fun v => if v = r then 0 else ⊤
    p := fun _ => ⟨0, Nat.lt_of_le_of_lt (Nat.zero_le _) r.isLt⟩
    optimal := true }

/-- `__bfm_helper` (graphs.py:241-306). -/
def bfmHelper (G : Fin n → Fin n → WithTop K) (eps : K) (r : Fin n) : Except BErr (St K n) :=
  if n ≤ 1 then .error .unbound
  else if (arcs G eps).length < countNonzero G then .error .indexError
  else .ok (sweeps G eps (n - 1) (initSt r))

/-- The reconstruction loop `while not(path[0] == src)` (graphs.py:235-236), `v = path[0]`. -/
def walkBack (p : Fin n → Fin n) (src : Fin n) : ℕ → Fin n → List (Fin n) → Option (List (Fin n))
  | 0, _, _ => none
  | k + 1, v, path => if v = src then some path else walkBack p src k (p v) (p v :: path)

/-- `bfm_shortest_path` (graphs.py:168-238): distance, path and predecessors. `fuel` bounds the
reconstruction loop. -/
def bfm (G : Fin n → Fin n → WithTop K) (eps : K) (src dst : Fin n) (fuel : ℕ) :
    Except BErr (WithTop K × List (Fin n) × (Fin n → Fin n)) :=
  match bfmHelper G eps src with
  | .error e => .error e
  | .ok s =>
    match s.D dst with
    | ⊤ => .ok (⊤, [], s.p)
    | (d : K) =>
      match walkBack s.p src fuel dst [dst] with
      | none => .error .loop
      | some path => .ok ((d : WithTop K), path, s.p)

end Gasur.Bfm
