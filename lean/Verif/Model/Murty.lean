import Verif.Model.Assign
import Mathlib.Data.Fin.Tuple.Basic

/-!
# Model of `murty_m_best`

Source: `/repo/src/gasur/utilities/graphs.py`, lines 309-429.

* `NaN` markers in `ans_lst_C` and in the preallocated `assigns` array are `none`;
* preallocation in blocks of `blk_sz` (lines 365-368, 405-415) is modelled by an unbounded list of
  slots: unused preallocated slots are NaN and are excluded by `ans_nxt_ind` or by `isnan(...).all()`;
* `P_now` is a numpy view of the popped slot (line 390), so pinning also writes to that slot; the slot
  is dead (its cost is NaN) from line 393 on, so the model keeps the pinned matrix in a local value;
* a NaN row reaching the caller would be cast to int (line 351); the model reports it as the error
  `nanRow` (shown not to happen).
-/

namespace Gasur.Murty

open Gasur.Assign

/-- Failures. `assign e`: from `assign_opt`; `empty`: `cm.min()` of an empty matrix raises
ValueError (graphs.py:338); `nanArg`: `np.nanargmin` of all-NaN (line 386); `nanRow`: see header. -/
inductive MErr
  | assign (e : Assign.Err)
  | empty
  | nanArg
  | nanRow
  deriving DecidableEq, Repr

variable {K : Type*} [CommRing K] [LinearOrder K] {r n : ℕ}

/-- One entry of `ans_lst_P`, `ans_lst_S`, `ans_lst_C` (graphs.py:366-368). -/
structure Slot (K : Type*) (r n : ℕ) where
  P : Fin r → Fin (n + r) → WithTop K
  S : Fin r → Option (Fin (n + r))
  C : Option K

/-- `cm = np.hstack((cost_mat, blk))` with `blk = -log(ones)` = 0 (graphs.py:335-337). -/
def hstack (C : Fin r → Fin n → WithTop K) : Fin r → Fin (n + r) → WithTop K :=
  fun i => Fin.append (C i) (fun _ => 0)

/-- All entries of a matrix, row by row. -/
def entries (M : Fin r → Fin (n + r) → WithTop K) : List (WithTop K) :=
  (List.finRange r).flatMap fun i => (List.finRange (n + r)).map (M i)

/-- `inf - x = inf`, otherwise subtraction (graphs.py:339). -/
def subTop (v : WithTop K) (x : K) : WithTop K :=
  match v with
  | ⊤ => ⊤
  | (y : K) => ((y - x : K) : WithTop K)

/-- `np.nanargmin`: index and value of the first smallest non-NaN entry (graphs.py:386). -/
def nanArgmin : List (Option K) → Option (ℕ × K)
  | [] => none
  | none :: l => (nanArgmin l).map fun p => (p.1 + 1, p.2)
  | some x :: l =>
    match nanArgmin l with
    | none => some (0, x)
    | some (i, y) => if y < x then some (i + 1, y) else some (0, x)

/-- `P_tmp` (graphs.py:397-401): forbid the entry, or, for a dummy column, all dummy columns of the
row. `n_cols - n_rows - 1` is `n - 1` here. -/
def ban (P : Fin r → Fin (n + r) → WithTop K) (aw : Fin r) (aj : Fin (n + r)) :
    Fin r → Fin (n + r) → WithTop K :=
  if aj.val < n then upd2 P aw aj ⊤
  else fun i j => if i = aw ∧ n ≤ j.val then ⊤ else P i j

/-- Force `aw ↦ aj` (graphs.py:424-427). -/
def pin (P : Fin r → Fin (n + r) → WithTop K) (aw : Fin r) (aj : Fin (n + r)) :
    Fin r → Fin (n + r) → WithTop K :=
  fun i j => if i = aw ∧ j = aj then P i j else if i = aw ∨ j = aj then ⊤ else P i j

/-- The loop `for (aw, aj) in enumerate(S_now)` (graphs.py:395-427) over the remaining rows. -/
def expand (S : Fin r → Option (Fin (n + r))) :
    List (Fin r) → (Fin r → Fin (n + r) → WithTop K) → List (Slot K r n) →
      Except MErr (List (Slot K r n))
  | [], _, slots => .ok slots
  | aw :: rows, P, slots =>
    match S aw with
    | none => expand S rows P slots
    | some aj =>
      match assignOpt (ban P aw aj) with
      | .error e => .error (.assign e)
      | .ok (a, cost) =>
        if (List.finRange r).all (fun i => (a i).isSome) then
          expand S rows (pin P aw aj) (slots ++ [⟨ban P aw aj, a, some cost⟩])
        else expand S rows P slots

/-- The loop `for ii in range(0, m)` (graphs.py:377-427), with `k` iterations left; `out` are the
columns of `assigns`/`costs` written so far. A `none` in the result is a NaN column. -/
def popLoop : ℕ → List (Slot K r n) → List ((Fin r → Option (Fin (n + r))) × K) →
    Except MErr (List (Option ((Fin r → Option (Fin (n + r))) × K)))
  | 0, _, out => .ok (out.map some)
  | k + 1, slots, out =>
    if slots.all (fun s => s.C.isNone) then
      .ok ((out.map some ++ List.replicate (k + 1) none).take slots.length)
    else
      match nanArgmin (slots.map fun s => s.C) with
      | none => .error .nanArg
      | some (idx, cost) =>
        match slots[idx]? with
        | none => .error .nanArg
        | some sl =>
          match expand sl.S (List.finRange r) sl.P (slots.set idx { sl with C := none }) with
          | .error e => .error e
          | .ok slots' => popLoop k slots' (out ++ [(sl.S, cost)])

/-- `__murty_helper` (graphs.py:355-429). -/
def helper (P0 : Fin r → Fin (n + r) → WithTop K) (m : ℕ) :
    Except MErr (List (Option ((Fin r → Option (Fin (n + r))) × K))) :=
  match assignOpt P0 with
  | .error e => .error (.assign e)
  | .ok (s0, c0) =>
    if m = 1 then .ok [some (s0, c0)]
    else popLoop m [⟨P0, s0, some c0⟩] []

/-- `assigns += 1` and dummy columns to 0 (graphs.py:345-350). `-1` (unassigned) becomes 0. -/
def decodeRow (a : Fin r → Option (Fin (n + r))) : Fin r → ℕ :=
  fun i => match a i with
    | none => 0
    | some j => if n < j.val + 1 then 0 else j.val + 1

/-- Cost correction `costs[ii] += x * np.count_nonzero(a >= 0)` (graphs.py:343-344) and decoding. -/
def finishRow (x : K) (p : (Fin r → Option (Fin (n + r))) × K) : (Fin r → ℕ) × K :=
  (decodeRow p.1, p.2 + x * (((List.finRange r).countP fun i => (p.1 i).isSome : ℕ) : K))

/-- `murty_m_best` on a two dimensional matrix (graphs.py:309-352); other dimensions raise. -/
def murty (C : Fin r → Fin n → WithTop K) (m : ℕ) : Except MErr (List ((Fin r → ℕ) × K)) :=
  if m = 0 then .ok []
  else
    match entries (hstack C) with
    | [] => .error .empty
    | e :: es =>
      match es.foldl min e with
      | ⊤ => .error .nanRow
      | (x : K) =>
        match helper (fun i j => subTop (hstack C i j) x) m with
        | .error err => .error err
        | .ok rows =>
          if rows.all (fun o => o.isSome) then
            .ok (rows.filterMap fun o => o.map (finishRow x))
          else .error .nanRow

end Gasur.Murty
