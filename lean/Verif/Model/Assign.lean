import Mathlib.Algebra.Order.Ring.Defs
import Mathlib.Algebra.Order.Monoid.Unbundled.WithTop
import Mathlib.Data.List.FinRange

/-!
# Model of `assign_opt` (Munkres assignment)

Source: `/repo/src/gasur/utilities/graphs_subroutines.py`, lines 9-255.

* a numpy matrix of shape `(r, c)` is a function `Fin r → Fin c → _`;
* `numpy.inf` is `⊤ : WithTop K`; all other entries are exact numbers of an arbitrary linearly
  ordered commutative ring `K` (floating point rounding is not modelled, `-inf` and NaN entries are
  not modelled);
* the return value `-1` in an assignment is `none`;
* exceptions are values of `Err`.
-/

namespace Gasur.Assign

/-- Ways `assign_opt` can fail.
`negative`: the `RuntimeError` of graphs_subroutines.py:36-37.
`index`: an out-of-range index in step 4 (`prime_col == n_cols`, line 189).
`infinite`: step 5 would add `h = inf` to the matrix (line 214 with nothing uncovered).
`fuel`: not an exception of the code: the model ran out of fuel (a non-terminating run).
The theorems show that only `negative` is ever produced. -/
inductive Err
  | negative
  | index
  | infinite
  | fuel
  deriving DecidableEq, Repr

variable {K : Type*} {r c : ℕ}

/-- `m[i, j] = v` on a numpy matrix (in place assignment becomes a new function). -/
def upd2 {α : Type*} (m : Fin r → Fin c → α) (i : Fin r) (j : Fin c) (v : α) :
    Fin r → Fin c → α :=
  fun a b => if a = i ∧ b = j then v else m a b

/-- The mutable arrays threaded through the `__aop_step*` helpers
(graphs_subroutines.py:56-59: `dist_mat`, `star_mat`, `prime_mat`, `covered_cols`,
`covered_rows`). -/
structure St (K : Type*) (r c : ℕ) where
  dist : Fin r → Fin c → K
  star : Fin r → Fin c → Bool
  prime : Fin r → Fin c → Bool
  covC : Fin c → Bool
  covR : Fin r → Bool

/-- Outcome of one pass of the `for col` loop of step 3 (graphs_subroutines.py:132-156):
either step 4 is called at a primed zero in a row without a star, or the pass ends with the flag
`z_found`. -/
inductive Sweep (K : Type*) (r c : ℕ)
  | augment (s : St K r c) (i : Fin r) (j : Fin c)
  | swept (s : St K r c) (zFound : Bool)

/-- `min_dim` (graphs_subroutines.py:62, 77). -/
def minDim (r c : ℕ) : ℕ := if r ≤ c then r else c

/-- First row with a star in column `j`; `none` is the Python value `star_row == n_rows`
(graphs_subroutines.py:170-175, 196-201). -/
def starRow (star : Fin r → Fin c → Bool) (j : Fin c) : Option (Fin r) :=
  (List.finRange r).find? (fun i => star i j)

/-- First star in row `i`; `none` is the Python value `star_col == n_cols`
(graphs_subroutines.py:140-146). -/
def starCol (star : Fin r → Fin c → Bool) (i : Fin r) : Option (Fin c) :=
  (List.finRange c).find? (fun j => star i j)

/-- First prime in row `i`; `none` is `prime_col == n_cols` (graphs_subroutines.py:182-188). -/
def primeCol (prime : Fin r → Fin c → Bool) (i : Fin r) : Option (Fin c) :=
  (List.finRange c).find? (fun j => prime i j)

section Algo

variable [CommRing K] [LinearOrder K]

/-- The `for col` loop of step 3 over the remaining columns (graphs_subroutines.py:132-156).
`find?` is the inner `for row` loop, which stops (return or break) at the first uncovered zero. -/
def sweep : List (Fin c) → St K r c → Bool → Sweep K r c
  | [], s, z => .swept s z
  | j :: js, s, z =>
    if s.covC j then sweep js s z
    else
      match (List.finRange r).find? (fun i => !s.covR i && decide (s.dist i j = 0)) with
      | none => sweep js s z
      | some i =>
        let prime' := upd2 s.prime i j true
        match starCol s.star i with
        | none => .augment { s with prime := prime' } i j
        | some k =>
          sweep js { s with
            prime := prime'
            covR := Function.update s.covR i true
            covC := Function.update s.covC k false } true

end Algo

/-- The `while star_row < n_rows` loop of step 4 (graphs_subroutines.py:178-201).
`sc` is `star_col`; the search for `star_row` is done at the loop head. -/
def step4Loop (star prime : Fin r → Fin c → Bool) :
    ℕ → (Fin r → Fin c → Bool) → Fin c → Except Err (Fin r → Fin c → Bool)
  | 0, _, _ => .error .fuel
  | n + 1, new, sc =>
    match starRow star sc with
    | none => .ok new
    | some i =>
      match primeCol prime i with
      | none => .error .index
      | some pc => step4Loop star prime n (upd2 (upd2 new i sc false) i pc true) pc

/-- Step 4 up to the call of step 2a (graphs_subroutines.py:163-206): augment along the
alternating path, erase primes, uncover rows. -/
def step4 (s : St K r c) (i : Fin r) (j : Fin c) : Except Err (St K r c) :=
  match step4Loop s.star s.prime (r + 1) (upd2 s.star i j true) j with
  | .error e => .error e
  | .ok new => .ok { s with star := new, prime := fun _ _ => false, covR := fun _ => false }

/-- Step 2a up to the call of step 2b (graphs_subroutines.py:99-105): cover starred columns. -/
def step2a (s : St K r c) : St K r c :=
  { s with covC := fun j => s.covC j || (List.finRange r).any (fun i => s.star i j) }

/-- The test of step 2b (graphs_subroutines.py:113-118): all lines covered? -/
def step2bDone (s : St K r c) : Bool :=
  (List.finRange c).countP (fun j => s.covC j) == minDim r c

section Algo

variable [CommRing K] [LinearOrder K]

/-- Smallest uncovered value (graphs_subroutines.py:214-221); `⊤` is the initial `np.inf`. -/
def step5H (s : St K r c) : WithTop K :=
  (List.finRange r).foldl (fun h i =>
    if s.covR i then h
    else (List.finRange c).foldl (fun h j =>
      if s.covC j then h
      else if (s.dist i j : WithTop K) < h then (s.dist i j : WithTop K) else h) h) ⊤

/-- Step 5 up to the call of step 3 (graphs_subroutines.py:212-231). -/
def step5 (s : St K r c) : Except Err (St K r c) :=
  match step5H s with
  | ⊤ => .error .infinite
  | (h : K) => .ok { s with
      dist := fun i j =>
        s.dist i j + (if s.covR i then h else 0) - (if s.covC j then 0 else h) }

/-- The recursion step 3 → (step 4 → 2a → 2b | step 5) → step 3 (graphs_subroutines.py:127-234).
One unit of fuel is one pass of the `for col` loop. -/
def solve : ℕ → St K r c → Except Err (St K r c)
  | 0, _ => .error .fuel
  | n + 1, s =>
    match sweep (List.finRange c) s false with
    | .augment s' i j =>
      match step4 s' i j with
      | .error e => .error e
      | .ok s'' =>
        let s3 := step2a s''
        if step2bDone s3 then .ok s3 else solve n s3
    | .swept s' true => solve n s'
    | .swept s' false =>
      match step5 s' with
      | .error e => .error e
      | .ok s'' => solve n s''

/-- Fuel given to `solve`: a bound on the number of passes (see theorem C02). -/
def sweepBound (r c : ℕ) : ℕ := (minDim r c + 1) * (2 * r + 2)

/-- Step 2b as first called from `assign_opt` (graphs_subroutines.py:93-94, 111-124). -/
def start (s : St K r c) : Except Err (St K r c) :=
  if step2bDone s then .ok s else solve (sweepBound r c) s

/-- Minimum of a non-empty numpy vector (`.min()`); only called on non-empty ones. -/
def listMin : List K → K
  | [] => 0
  | x :: xs => xs.foldl min x

/-- Maximum of a non-empty numpy vector (`.max()`); only called on non-empty ones. -/
def listMax : List K → K
  | [] => 0
  | x :: xs => xs.foldl max x

/-- The state right after allocation (graphs_subroutines.py:56-59). -/
def blank (dist : Fin r → Fin c → K) : St K r c :=
  { dist := dist, star := fun _ _ => false, prime := fun _ _ => false,
    covC := fun _ => false, covR := fun _ => false }

/-- Body of the `for row` loop of steps 1 and 2a (graphs_subroutines.py:69-74). -/
def greedyRow (s : St K r c) (i : Fin r) : St K r c :=
  match (List.finRange c).find? (fun j => decide (s.dist i j = 0) && !s.covC j) with
  | none => s
  | some j => { s with star := upd2 s.star i j true, covC := Function.update s.covC j true }

/-- Initial state for `n_rows <= n_cols` (graphs_subroutines.py:61-74): subtract row minima and
star greedily. -/
def initRows (d : Fin r → Fin c → K) : St K r c :=
  (List.finRange r).foldl greedyRow
    (blank fun i j => d i j - listMin ((List.finRange c).map (d i)))

/-- Body of the `for col` loop of steps 1 and 2a (graphs_subroutines.py:82-88). -/
def greedyCol (s : St K r c) (j : Fin c) : St K r c :=
  match (List.finRange r).find? (fun i => decide (s.dist i j = 0) && !s.covR i) with
  | none => s
  | some i => { s with
      star := upd2 s.star i j true
      covC := Function.update s.covC j true
      covR := Function.update s.covR i true }

/-- Initial state for `n_rows > n_cols` (graphs_subroutines.py:75-91): subtract column minima, star
greedily, then uncover the rows. -/
def initCols (d : Fin r → Fin c → K) : St K r c :=
  { (List.finRange c).foldl greedyCol
      (blank fun i j => d i j - listMin ((List.finRange r).map fun a => d a j)) with
    covR := fun _ => false }

/-- The finite entries of the matrix, row by row (graphs_subroutines.py:44). -/
def finiteEntries (D : Fin r → Fin c → WithTop K) : List K :=
  (List.finRange r).flatMap fun i => (List.finRange c).filterMap fun j =>
    match D i j with
    | ⊤ => none
    | (x : K) => some x

/-- The number replacing infinities (graphs_subroutines.py:48-52). -/
def infVal (D : Fin r → Fin c → WithTop K) : K :=
  let m := listMax (finiteEntries D)
  if 0 < m then 10 * m * (r : K) * (c : K) else 10

/-- The matrix with infinities replaced (graphs_subroutines.py:43-53). -/
def fillInf (D : Fin r → Fin c → WithTop K) : Fin r → Fin c → K :=
  fun i j => match D i j with
    | ⊤ => infVal D
    | (x : K) => x

/-- `__aop_build_assign` (graphs_subroutines.py:237-242). -/
def buildAssign (star : Fin r → Fin c → Bool) : Fin r → Option (Fin c) :=
  fun i => starCol star i

/-- Loop body of `__aop_comp_assign` (graphs_subroutines.py:248-254). -/
def compStep (D : Fin r → Fin c → WithTop K) (acc : (Fin r → Option (Fin c)) × K) (i : Fin r) :
    (Fin r → Option (Fin c)) × K :=
  match acc.1 i with
  | none => acc
  | some j =>
    match D i j with
    | ⊤ => (Function.update acc.1 i none, acc.2)
    | (v : K) => (acc.1, acc.2 + v)

/-- `__aop_comp_assign` (graphs_subroutines.py:245-255): total cost, and rows whose entry is not
finite become unassigned. -/
def compAssign (a : Fin r → Option (Fin c)) (D : Fin r → Fin c → WithTop K) :
    (Fin r → Option (Fin c)) × K :=
  (List.finRange r).foldl (compStep D) (a, 0)

/-- `assign_opt` on a two dimensional matrix (graphs_subroutines.py:9-96). A one dimensional input
is reshaped to one row by the code (line 27-28) and is this function at `r = 1`; inputs of more than
two dimensions raise and are not representable here. -/
def assignOpt (D : Fin r → Fin c → WithTop K) :
    Except Err ((Fin r → Option (Fin c)) × K) :=
  if (List.finRange r).any (fun i => (List.finRange c).any fun j =>
      decide (D i j ≠ ⊤) && decide (D i j < 0)) then .error .negative
  else if (List.finRange r).all (fun i => (List.finRange c).all fun j => decide (D i j = ⊤)) then
    .ok (fun _ => none, 0)
  else
    let d := fillInf D
    let s := if r ≤ c then initRows d else initCols d
    match start s with
    | .error e => .error e
    | .ok s' => .ok (compAssign (buildAssign s'.star) D)

end Algo

end Gasur.Assign
