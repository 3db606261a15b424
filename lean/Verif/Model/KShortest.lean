import Verif.Model.Bfm
import Mathlib.Logic.Equiv.Defs
import Mathlib.Data.Fin.Tuple.Basic

/-!
# Model of `k_shortest`

Source: `/repo/src/gasur/utilities/graphs.py`, lines 11-165.

* `np.argsort` (graphs.py:57) breaks ties in an unspecified way; the model takes the resulting
  permutation `sort_inds` as a parameter `σ`.
* The range check at lines 85-88 never fires for the call made by `k_shortest` and is omitted.
* Costs in the helper are `WithTop K` (sums of matrix entries).
-/

namespace Gasur.KShortest

open Gasur.Bfm

variable {K : Type*} [CommRing K] [LinearOrder K]

/-- Failures: `bfm e` from `bfm_shortest_path`; `index`: list index out of range (graphs.py:137, 105);
`unbound`: `w_ind_in_path` never assigned (graphs.py:118). -/
inductive KErr
  | bfm (e : BErr)
  | index
  | unbound
  deriving DecidableEq, Repr

/-- State of the helper: `P`, `S`, `X`, and the pairs of `shortest_paths`/`tot_costs`, and `cur_p`. -/
structure YSt (K : Type*) (N : ℕ) where
  P : List (List (Fin N) × WithTop K)
  S : List (Fin N)
  X : List (ℕ × WithTop K)
  out : List (List (Fin N) × WithTop K)
  cur : ℕ

variable {N : ℕ}

/-- Position of the last occurrence of `w` (graphs.py:114-117). -/
def lastIdx (w : Fin N) : List (Fin N) → Option ℕ
  | [] => none
  | a :: l =>
    match lastIdx w l with
    | some i => some (i + 1)
    | none => if w = a then some 0 else none

/-- `temp_cost_mat` (graphs.py:120-138): the vertices `P_[0 : ind_dev_vert - 1]` and the arcs from
`P_[ind_dev_vert]` to the vertices `nxts` are removed. -/
def tempMat (G : Fin N → Fin N → WithTop K) (removed : List (Fin N)) (v' : Fin N)
    (nxts : List (Fin N)) : Fin N → Fin N → WithTop K :=
  fun u v => if u ∈ removed ∨ v ∈ removed then ⊤ else if u = v' ∧ v ∈ nxts then ⊤ else G u v

/-- `sp_same_sub_p` (graphs.py:127-133). -/
def samePrefix (path : List (Fin N)) (out : List (List (Fin N))) (ind : ℕ) : List (List (Fin N)) :=
  path :: out.filter fun sp => decide (ind < sp.length ∧ path.take (ind + 1) = sp.take (ind + 1))

/-- `cost_sub_P` (graphs.py:141-143). -/
def pathCost (G : Fin N → Fin N → WithTop K) : List (Fin N) → WithTop K
  | a :: b :: l => G a b + pathCost G (b :: l)
  | _ => 0

/-- `sub_P[0:-2] + dev_p` (graphs.py:148). Python's `[0:-2]` drops the last two elements. -/
def joinDev (subP dev : List (Fin N)) : List (Fin N) :=
  subP.take (subP.length - 2) ++ dev

/-- One deviation vertex: the body of the loop at graphs.py:119-151. -/
def deviate (G : Fin N → Fin N → WithTop K) (eps : K) (dst : Fin N) (path : List (Fin N))
    (st : YSt K N) (ind : ℕ) : Except KErr (YSt K N) :=
  match path[ind]? with
  | none => .error .index
  | some v' =>
    match (samePrefix path (st.out.map Prod.fst) ind).mapM (fun sp => sp[ind + 1]?) with
    | none => .error .index
    | some nxts =>
      match bfm (tempMat G (path.take (ind - 1)) v' nxts) eps v' dst N with
      | .error e => .error (.bfm e)
      | .ok (c, dev, _) =>
        if dev = [] then .ok st
        else
          .ok { st with
            P := st.P ++ [(joinDev (path.take (ind + 1)) dev, pathCost G (path.take (ind + 1)) + c)]
            S := st.S ++ [v']
            X := st.X ++ [(st.P.length, pathCost G (path.take (ind + 1)) + c)] }

/-- The first entry of `X` of minimal cost (graphs.py:154-159). -/
def minX : List (ℕ × WithTop K) → Option (ℕ × WithTop K)
  | [] => none
  | x :: l => some (l.foldl (fun b y => if y.2 < b.2 then y else b) x)

/-- Body of the `while` loop (graphs.py:107-163). -/
def yenStep (G : Fin N → Fin N → WithTop K) (eps : K) (dst : Fin N) (st : YSt K N) :
    Except KErr (YSt K N) :=
  match st.P[st.cur]?, st.S[st.cur]? with
  | some (path, _), some w =>
    match lastIdx w path with
    | none => .error .unbound
    | some wi =>
      match ((List.range (path.length - 1)).drop wi).foldlM (deviate G eps dst path)
          { st with X := st.X.eraseP fun x => x.1 == st.cur } with
      | .error e => .error e
      | .ok st' =>
        match minX st'.X with
        | none => .ok st'
        | some (i, _) =>
          match st'.P[i]? with
          | none => .error .index
          | some pc => .ok { st' with cur := i, out := st'.out ++ [pc] }
  | _, _ => .error .index

/-- The `while` loop (graphs.py:106). Each round adds a path or empties `X`, so `fuel = k` rounds
suffice; running out of fuel is only possible with the loop condition false. -/
def yenLoop (G : Fin N → Fin N → WithTop K) (eps : K) (dst : Fin N) (k : ℕ) :
    ℕ → YSt K N → Except KErr (YSt K N)
  | 0, st => .ok st
  | fuel + 1, st =>
    if st.out.length < k ∧ st.X ≠ [] then
      match yenStep G eps dst st with
      | .error e => .error e
      | .ok st' => yenLoop G eps dst k fuel st'
    else .ok st

/-- `__k_short_helper` (graphs.py:84-165). -/
def kHelper (G : Fin N → Fin N → WithTop K) (eps : K) (src dst : Fin N) (k : ℕ) :
    Except KErr (List (List (Fin N) × WithTop K)) :=
  match bfm G eps src dst N with
  | .error e => .error (.bfm e)
  | .ok (cost, path, _) =>
    match path with
    | [] => .ok []
    | a :: l =>
      match yenLoop G eps dst k k
          { P := [(a :: l, cost)], S := [a], X := [(0, cost)], out := [(a :: l, cost)], cur := 0 } with
      | .error e => .error e
      | .ok st => .ok st.out

variable {n : ℕ}

/-- `cost_pad` (graphs.py:53-69): vertex `0` is the source, `n + 1` the sink, vertex `j + 1` the `j`-th
sorted element; there is an entry `lc j` from every smaller vertex to `j + 1`, and `eps` from every
non-sink vertex to the sink. -/
def costPad (lc : Fin n → K) (eps : K) : Fin (n + 2) → Fin (n + 2) → WithTop K :=
  fun u v =>
    if h : u.val < v.val then
      if hv : v.val ≤ n then ((lc ⟨v.val - 1, by omega⟩ : K) : WithTop K) else (eps : WithTop K)
    else 0

/-- Decoding a path (graphs.py:73-79): drop the first and the last vertex and look up the sorting
permutation. The special case `[0, num_states + 1] → []` is what the general rule gives. A vertex that is
not an element would index `sort_inds` out of range (or, for vertex 0, wrap around): `none`. -/
def decodePath (σ : Equiv.Perm (Fin n)) (p : List (Fin (n + 2))) : Option (List (Fin n)) :=
  (p.tail.dropLast).mapM fun v =>
    if h : 1 ≤ v.val ∧ v.val ≤ n then some (σ ⟨v.val - 1, by omega⟩) else none

/-- `k_shortest` (graphs.py:11-81). -/
def kShortest (lc : Fin n → K) (σ : Equiv.Perm (Fin n)) (eps : K) (k : ℕ) :
    Except KErr (List (List (Fin n) × WithTop K)) :=
  if k = 0 then .ok []
  else
    match kHelper (costPad (fun i => lc (σ i)) eps) eps ⟨0, by omega⟩ ⟨n + 1, by omega⟩ k with
    | .error e => .error e
    | .ok out =>
      match out.mapM (fun pc => (decodePath σ pc.1).map fun l => (l, pc.2)) with
      | none => .error .index
      | some r => .ok r

/-- `cost_pad` (graphs.py:53-69) for costs that may be infinite ("absence of a link", graphs.py:29-30). -/
def costPadInf (lc : Fin n → WithTop K) (eps : K) : Fin (n + 2) → Fin (n + 2) → WithTop K :=
  fun u v =>
    if h : u.val < v.val then
      if hv : v.val ≤ n then lc ⟨v.val - 1, by omega⟩ else (eps : WithTop K)
    else 0

/-- `k_shortest` (graphs.py:11-81) for costs that may be infinite. For finite costs it is `kShortest`
(`kShortestInf_coe`). -/
def kShortestInf (lc : Fin n → WithTop K) (σ : Equiv.Perm (Fin n)) (eps : K) (k : ℕ) :
    Except KErr (List (List (Fin n) × WithTop K)) :=
  if k = 0 then .ok []
  else
    match kHelper (costPadInf (fun i => lc (σ i)) eps) eps ⟨0, by omega⟩ ⟨n + 1, by omega⟩ k with
    | .error e => .error e
    | .ok out =>
      match out.mapM (fun pc => (decodePath σ pc.1).map fun l => (l, pc.2)) with
      | none => .error .index
      | some r => .ok r

end Gasur.KShortest
