import Verif.Props.AStar
import Mathlib.Tactic.IntervalCases

/-!
# Property C68: giving up
-/

namespace Gasur.Props

open Gasur.Spec Gasur.AStar

theorem returnPath_flag {m : Maze} {n : Node} {b : Bool} {r : Found}
    (h : (returnPath m n b).map some = .ok (some r)) : r.gaveUp = b := by
  unfold returnPath at h
  split at h
  · simp [Except.map] at h
  · simp only [Except.map, Except.ok.injEq, Option.some.injEq] at h
    rw [← h]

/-- The loop with a counter. -/
theorem loop_count {m : Maze} {cost : ℝ} {e : Cell} (I : ℕ → List Node → List Cell → Prop)
    (hstep : ∀ n Q V cur k, I n Q V → Q[k]? = some cur → cur.pos ≠ e →
      I (n + 1) ((children m cur.pos).foldl (addChild cost e cur (V ++ [cur.pos])) (Q.eraseIdx k)) (V ++ [cur.pos])) :
    ∀ (t n : ℕ) (Q : List Node) (V : List Cell), I n Q V → ∀ r, loop m cost e t Q V = .ok (some r) → r.gaveUp = true →
      ∃ Q' V', I (n + t) Q' V' ∧ Q' ≠ []
  | t, _, [], V, _, r, h, _ => by cases t <;> simp [loop] at h
  | 0, n, x :: xs, V, hI, r, _, _ => ⟨_, _, hI, by simp⟩
  | t + 1, n, x :: xs, V, hI, r, h, hr => by
    obtain ⟨h1, h2⟩ := scan_ok x xs
    unfold loop at h
    split at h
    · rw [returnPath_flag h] at hr
      simp at hr
    · rename_i he
      obtain ⟨Q', V', h3, h4⟩ := loop_count I hstep t (n + 1) _ _ (hstep _ _ _ _ _ hI h1 he) r h hr
      exact ⟨Q', V', by rwa [show n + (t + 1) = n + 1 + t by omega], h4⟩

/-- The queue after the children: the old one and new nodes for different children. -/
theorem addAll_append (cost : ℝ) (e : Cell) (cur : Node) (V : List Cell) : ∀ (cs : List Cell) (q : List Node),
    ∃ ps : List Cell, ps.Sublist cs ∧ cs.foldl (addChild cost e cur V) q = q ++ ps.map (mkChild cost e cur)
  | [], q => ⟨[], List.Sublist.refl _, by simp⟩
  | p :: cs, q => by
    obtain ⟨ps, h1, h2⟩ := addAll_append cost e cur V cs (addChild cost e cur V q p)
    rw [List.foldl_cons, h2]
    unfold addChild
    split
    · exact ⟨ps, h1.cons _, rfl⟩
    · split
      · exact ⟨ps, h1.cons _, rfl⟩
      · exact ⟨p :: ps, h1.cons_cons _, by simp⟩

theorem children_nodup (m : Maze) (p : Cell) : (children m p).Nodup := by
  unfold children
  refine List.Nodup.filter _ (List.Nodup.map ?_ (by decide))
  intro a b h
  simp only [Prod.mk.injEq] at h
  ext <;> omega

/-- The invariant: `P` are the trails of the nodes taken off the queue. -/
structure Cnt (m : Maze) (s e : Cell) (cost : ℝ) (n : ℕ) (Q : List Node) (V : List Cell) (P : List (List Cell)) :
    Prop where
  inv : Inv m s e cost Q V
  len : P.length = n
  nd : (P ++ Q.map Node.trail).Nodup
  ok : ∀ t ∈ P ++ Q.map Node.trail, t.Nodup ∧ ∃ x, IsRoute m s x t.reverse
  par : ∀ t ∈ P ++ Q.map Node.trail, ∀ x u, t = x :: u → u = [] ∨ u ∈ P

theorem cnt_step {m : Maze} {s e : Cell} {cost : ℝ} {n : ℕ} {Q : List Node} {V : List Cell} {P : List (List Cell)}
    {cur : Node} {k : ℕ} (h : Cnt m s e cost n Q V P) (hk : Q[k]? = some cur) (he : cur.pos ≠ e) :
    Cnt m s e cost (n + 1)
      ((children m cur.pos).foldl (addChild cost e cur (V ++ [cur.pos])) (Q.eraseIdx k)) (V ++ [cur.pos])
      (P ++ [cur.trail]) := by
  have hinv := inv_step Q V cur k h.inv hk he
  obtain ⟨ps, hps, hQ⟩ := addAll_append cost e cur (V ++ [cur.pos]) (children m cur.pos) (Q.eraseIdx k)
  rw [hQ] at hinv ⊢
  have hpnd : ps.Nodup := (children_nodup m cur.pos).sublist hps
  have hlt : k < Q.length := (List.getElem?_eq_some_iff.1 hk).1
  have hgk : Q[k] = cur := (List.getElem?_eq_some_iff.1 hk).2
  have hperm : (P ++ Q.map Node.trail).Perm (P ++ [cur.trail] ++ (Q.eraseIdx k).map Node.trail) := by
    rw [List.append_assoc]
    refine List.Perm.append_left _ ?_
    have h1 : Q.Perm (cur :: Q.eraseIdx k) := by
      rw [← hgk]
      exact (List.getElem_cons_eraseIdx_perm hlt).symm
    exact h1.map _
  have htr : ∀ p, (mkChild cost e cur p).trail = p :: cur.trail := fun p => rfl
  have hmap : (Q.eraseIdx k ++ ps.map (mkChild cost e cur)).map Node.trail =
      (Q.eraseIdx k).map Node.trail ++ ps.map (fun p => p :: cur.trail) := by
    rw [List.map_append, List.map_map]; rfl
  have hnd := hperm.nodup_iff.1 h.nd
  have hcurP : cur.trail ∉ P := by
    intro hc
    rw [List.append_assoc] at hnd
    exact (List.nodup_append.1 hnd).2.2 _ hc cur.trail (by simp) rfl
  refine ⟨hinv, by simp [h.len], ?_, ?_, ?_⟩
  · rw [hmap, ← List.append_assoc, List.nodup_append]
    refine ⟨hnd, hpnd.map (fun a b hab => (List.cons.inj hab).1), ?_⟩
    intro t ht u hu htu
    obtain ⟨p, _, rfl⟩ := List.mem_map.1 hu
    have ht' := hperm.mem_iff.2 ht
    rcases h.par t ht' p cur.trail htu with h0 | h0
    · simp [Node.trail] at h0
    · exact hcurP h0
  · intro t ht
    rw [hmap, ← List.append_assoc] at ht
    rcases List.mem_append.1 ht with ht | ht
    · exact h.ok t (hperm.mem_iff.2 ht)
    · obtain ⟨p, hp, rfl⟩ := List.mem_map.1 ht
      have := hinv.nodes (mkChild cost e cur p) (List.mem_append_right _ (List.mem_map.2 ⟨p, hp, rfl⟩))
      exact ⟨this.simple, _, this.route⟩
  · intro t ht x u htu
    rw [hmap, ← List.append_assoc] at ht
    rcases List.mem_append.1 ht with ht | ht
    · rcases h.par t (hperm.mem_iff.2 ht) x u htu with h0 | h0
      · exact .inl h0
      · exact .inr (List.mem_append_left _ h0)
    · obtain ⟨p, hp, rfl⟩ := List.mem_map.1 ht
      obtain ⟨_, rfl⟩ := List.cons.inj htu
      exact .inr (by simp)

/-- **C68, partial.** If the search gives up, there are more than 100000 different simple routes that begin at the
start. So in a maze with at most 100000 such routes it never gives up, and by `C09_complete` it finds a route whenever
there is one.
*Missing:* mazes with more simple routes: there the search can give up although there is a route
(`C68_refuted`). -/
theorem C68_gives_up_partial (m : Maze) (s e : Cell) (cost : ℝ) (r : Found)
    (h : search m s e cost = .ok (some r)) (hr : r.gaveUp = true) :
    ∃ L : List (List Cell), L.Nodup ∧ 100000 < L.length ∧ ∀ w ∈ L, w.Nodup ∧ ∃ x, IsRoute m s x w := by
  obtain ⟨Q, V, ⟨P, hC⟩, hQ⟩ := loop_count (m := m) (cost := cost) (e := e)
    (fun n Q V => ∃ P, Cnt m s e cost n Q V P)
    (fun n Q V cur k ⟨P, hP⟩ hk he => ⟨_, cnt_step hP hk he⟩) 100000 0 [⟨s, 0, 0, 0, []⟩] []
    ⟨[], inv_start m s e cost, rfl, by simp, by
      intro t ht
      simp only [List.map_cons, List.map_nil, List.nil_append, List.mem_singleton] at ht
      rw [ht]
      have := goodStart m s e cost
      exact ⟨this.simple, _, this.route⟩, by
      intro t ht x u htu
      simp only [List.map_cons, List.map_nil, List.nil_append, List.mem_singleton, Node.trail] at ht
      rw [ht] at htu
      exact .inl (List.cons.inj htu).2.symm⟩ r h hr
  refine ⟨(P ++ Q.map Node.trail).map List.reverse, hC.nd.map List.reverse_injective, ?_, ?_⟩
  · rw [List.length_map, List.length_append, hC.len, List.length_map]
    have : 0 < Q.length := List.length_pos_iff.2 hQ
    omega
  · intro w hw
    obtain ⟨t, ht, rfl⟩ := List.mem_map.1 hw
    obtain ⟨h1, h2⟩ := hC.ok t ht
    exact ⟨List.nodup_reverse.2 h1, h2⟩

/-! ### A maze in which the search gives up

A chain of sixteen diamonds leads away from the end; behind it a corridor goes back to the end. Every diamond doubles the
number of entries of the queue.
```
###.#.#.#.#.#.#.#.#.#.#.#.#.#.#.#.####
.#.#.#.#.#.#.#.#.#.#.#.#.#.#.#.#.#.###
.##.#.#.#.#.#.#.#.#.#.#.#.#.#.#.#.#.##
.###################################.#
#...................................##
``` -/

/-- The maze. -/
def diamonds : Maze := ⟨5, 38, fun p =>
  if (p.1 = 1 ∧ 2 ≤ p.2 ∧ p.2 ≤ 34 ∧ p.2 % 2 = 0) ∨
    ((p.1 = 0 ∨ p.1 = 2) ∧ 3 ≤ p.2 ∧ p.2 ≤ 33 ∧ p.2 % 2 = 1) ∨
    (p.2 = 0 ∧ 1 ≤ p.1 ∧ p.1 ≤ 3) ∨ (p.1 = 4 ∧ 1 ≤ p.2 ∧ p.2 ≤ 35) ∨ p = (2, 35) ∨ p = (3, 36) then 0 else 1⟩

/-- The joint before diamond `k`. -/
def tk (k : ℕ) : Cell := (1, 2 + 2 * (k : ℤ))
/-- The upper corner of diamond `k`. -/
def ak (k : ℕ) : Cell := (0, 3 + 2 * (k : ℤ))
/-- The lower corner of diamond `k`. -/
def bk (k : ℕ) : Cell := (2, 3 + 2 * (k : ℤ))

/-- The number of rounds caused by a joint. -/
def wA (k : ℕ) : ℕ := 3 * (2 ^ (16 - k) - 1)

theorem wA_step {k : ℕ} (hk : k < 16) : wA k = 1 + 2 * (wA (k + 1) + 1) := by
  interval_cases k <;> decide

/-- The number of rounds caused by a node in the queue. -/
def wC (p : Cell) : ℕ :=
  if p.1 = 1 then wA ((p.2 - 2) / 2).toNat else wA (((p.2 - 3) / 2).toNat + 1) + 1

theorem wC_t (k : ℕ) : wC (tk k) = wA k := by
  unfold wC tk
  rw [if_pos rfl]
  congr 1
  dsimp only
  omega

theorem wC_a (k : ℕ) : wC (ak k) = wA (k + 1) + 1 := by
  unfold wC ak
  rw [if_neg (by norm_num)]
  congr 3
  dsimp only
  omega

theorem wC_b (k : ℕ) : wC (bk k) = wA (k + 1) + 1 := by
  unfold wC bk
  rw [if_neg (by norm_num)]
  congr 3
  dsimp only
  omega

theorem ch_t0 : children diamonds (tk 0) = [bk 0, ak 0] := by decide
theorem ch_t {k : ℕ} (hk : k < 15) : children diamonds (tk (k + 1)) = [bk (k + 1), bk k, ak (k + 1), ak k] := by
  interval_cases k <;> decide
theorem ch_a {k : ℕ} (hk : k < 16) : children diamonds (ak k) = [tk (k + 1), tk k] := by
  interval_cases k <;> decide
theorem ch_b {k : ℕ} (hk : k < 16) : children diamonds (bk k) = [tk (k + 1), tk k] := by
  interval_cases k <;> decide

/-- A node at the joint before diamond `k`. -/
structure IsT (k : ℕ) (n : Node) : Prop where
  pos : n.pos = tk k
  g : n.g = 2 * k
  le : n.f ≤ 4 * k + 2
  ge : 1 ≤ k → 4 * k + 2 ≤ n.f

/-- A node at a corner of diamond `k`. -/
structure IsS (k : ℕ) (n : Node) : Prop where
  pos : n.pos = ak k ∨ n.pos = bk k
  g : n.g = 2 * k + 1
  lt : n.f < 4 * k + 6
  gt : 4 * k + 4 < n.f

theorem child_a {k : ℕ} {n : Node} (h : IsT k n) : IsS k (mkChild 1 (1, 0) n (ak k)) := by
  have hh : (mkChild 1 (1, 0) n (ak k)).f = n.g + 1 + Real.sqrt (1 + (3 + 2 * (k : ℝ)) ^ 2) := by
    simp [mkChild, heur, ak]
  have h1 : (3 + 2 * (k : ℝ)) < Real.sqrt (1 + (3 + 2 * (k : ℝ)) ^ 2) := by
    apply Real.lt_sqrt_of_sq_lt; linarith
  have h2 : Real.sqrt (1 + (3 + 2 * (k : ℝ)) ^ 2) < 5 + 2 * k := by
    rw [Real.sqrt_lt' (by positivity)]
    have : (0 : ℝ) ≤ k := Nat.cast_nonneg k
    nlinarith
  refine ⟨.inl rfl, ?_, ?_, ?_⟩
  · show n.g + 1 = _; rw [h.g]
  · rw [hh, h.g]; linarith
  · rw [hh, h.g]; linarith

theorem child_b {k : ℕ} {n : Node} (h : IsT k n) : IsS k (mkChild 1 (1, 0) n (bk k)) := by
  have hh : (mkChild 1 (1, 0) n (bk k)).f = n.g + 1 + Real.sqrt (1 + (3 + 2 * (k : ℝ)) ^ 2) := by
    simp [mkChild, heur, bk]
  have h1 : (3 + 2 * (k : ℝ)) < Real.sqrt (1 + (3 + 2 * (k : ℝ)) ^ 2) := by
    apply Real.lt_sqrt_of_sq_lt; linarith
  have h2 : Real.sqrt (1 + (3 + 2 * (k : ℝ)) ^ 2) < 5 + 2 * k := by
    rw [Real.sqrt_lt' (by positivity)]
    have : (0 : ℝ) ≤ k := Nat.cast_nonneg k
    nlinarith
  refine ⟨.inr rfl, ?_, ?_, ?_⟩
  · show n.g + 1 = _; rw [h.g]
  · rw [hh, h.g]; linarith
  · rw [hh, h.g]; linarith

theorem child_t {k : ℕ} {n : Node} (h : IsS k n) : IsT (k + 1) (mkChild 1 (1, 0) n (tk (k + 1))) := by
  have hh : (mkChild 1 (1, 0) n (tk (k + 1))).f = n.g + 1 + (2 + 2 * ((k : ℝ) + 1)) := by
    have : Real.sqrt ((2 + 2 * ((k : ℝ) + 1)) ^ 2) = 2 + 2 * ((k : ℝ) + 1) := Real.sqrt_sq (by positivity)
    simp [mkChild, heur, tk, this]
  refine ⟨rfl, ?_, ?_, fun _ => ?_⟩
  · show n.g + 1 = _; rw [h.g]; push_cast; ring
  · rw [hh, h.g]; push_cast; linarith
  · rw [hh, h.g]; push_cast; linarith

theorem tk_inj {j k : ℕ} (h : tk j = tk k) : j = k := by
  have := congrArg Prod.snd h
  simp only [tk] at this
  omega
theorem ak_inj {j k : ℕ} (h : ak j = ak k) : j = k := by
  have := congrArg Prod.snd h
  simp only [ak] at this
  omega
theorem bk_inj {j k : ℕ} (h : bk j = bk k) : j = k := by
  have := congrArg Prod.snd h
  simp only [bk] at this
  omega
theorem tk_ne_ak (j k : ℕ) : tk j ≠ ak k := by
  intro h
  have := congrArg Prod.fst h
  simp [tk, ak] at this
theorem tk_ne_bk (j k : ℕ) : tk j ≠ bk k := by
  intro h
  have := congrArg Prod.fst h
  simp [tk, bk] at this
theorem ak_ne_bk (j k : ℕ) : ak j ≠ bk k := by
  intro h
  have := congrArg Prod.fst h
  simp [ak, bk] at this

/-- The state of the search while it is at diamond `k`. -/
structure Dia (k : ℕ) (Q : List Node) (V : List Cell) : Prop where
  lt : k < 16
  nodes : ∀ n ∈ Q, IsT k n ∨ IsS k n ∨ IsT (k + 1) n
  first : (∃ n ∈ Q, n.pos = tk k) → (∀ n ∈ Q, n.pos ≠ tk (k + 1)) ∧ ak k ∉ V ∧ bk k ∉ V
  old : ∀ j < k, tk j ∈ V ∧ ak j ∈ V ∧ bk j ∈ V
  tin : tk k ∈ V ∨ ∃ n ∈ Q, n.pos = tk k
  sin : tk k ∈ V → (ak k ∈ V ∨ ∃ n ∈ Q, n.pos = ak k) ∧ (bk k ∈ V ∨ ∃ n ∈ Q, n.pos = bk k)
  vsub : ∀ v ∈ V, ∃ j ≤ k, v = tk j ∨ v = ak j ∨ v = bk j

theorem addChild_visited {cost : ℝ} {e : Cell} {cur : Node} {V : List Cell} {q : List Node} {p : Cell} (h : p ∈ V) :
    addChild cost e cur V q p = q := by
  unfold addChild
  rw [if_pos h]

theorem addChild_new {cost : ℝ} {e : Cell} {cur : Node} {V : List Cell} {q : List Node} {p : Cell} (h : p ∉ V)
    (hq : ∀ i ∈ q, i.pos = p → cur.g + cost ≤ i.g) :
    addChild cost e cur V q p = q ++ [mkChild cost e cur p] := by
  unfold addChild
  rw [if_neg h, if_neg]
  rintro ⟨i, hi, hp, hg⟩
  exact absurd (hq i hi hp) (not_le.2 hg)

/-- Rounds still to come. -/
def phi (Q : List Node) : ℕ := (Q.map fun n => wC n.pos).sum

theorem phi_erase {Q : List Node} {k : ℕ} {cur : Node} (h : Q[k]? = some cur) :
    phi Q = wC cur.pos + phi (Q.eraseIdx k) := by
  have hlt : k < Q.length := (List.getElem?_eq_some_iff.1 h).1
  have hgk : Q[k] = cur := (List.getElem?_eq_some_iff.1 h).2
  have h1 : Q.Perm (cur :: Q.eraseIdx k) := by
    rw [← hgk]
    exact (List.getElem_cons_eraseIdx_perm hlt).symm
  unfold phi
  rw [(h1.map _).sum_eq, List.map_cons, List.sum_cons]

theorem phi_append (Q R : List Node) : phi (Q ++ R) = phi Q + phi R := by
  unfold phi
  rw [List.map_append, List.sum_append]

theorem dia_node_pos {k : ℕ} {Q : List Node} {V : List Cell} (h : Dia k Q V) {n : Node} (hn : n ∈ Q) :
    (n.pos = tk k → IsT k n) ∧ (n.pos = ak k ∨ n.pos = bk k → IsS k n) ∧ (n.pos = tk (k + 1) → IsT (k + 1) n) := by
  have hk : tk k ≠ tk (k + 1) := fun h => by have := tk_inj h; omega
  rcases h.nodes n hn with h1 | h1 | h1
  · refine ⟨fun _ => h1, fun hp => ?_, fun hp => ?_⟩
    · rw [h1.pos] at hp
      rcases hp with hp | hp
      · exact absurd hp (tk_ne_ak _ _)
      · exact absurd hp (tk_ne_bk _ _)
    · rw [h1.pos] at hp; exact absurd hp hk
  · refine ⟨fun hp => ?_, fun _ => h1, fun hp => ?_⟩
    · rcases h1.pos with h2 | h2
      · rw [hp] at h2; exact absurd h2 (tk_ne_ak _ _)
      · rw [hp] at h2; exact absurd h2 (tk_ne_bk _ _)
    · rcases h1.pos with h2 | h2
      · rw [hp] at h2; exact absurd h2 (tk_ne_ak _ _)
      · rw [hp] at h2; exact absurd h2 (tk_ne_bk _ _)
  · refine ⟨fun hp => ?_, fun hp => ?_, fun _ => h1⟩
    · rw [h1.pos] at hp; exact absurd hp.symm hk
    · rw [h1.pos] at hp
      rcases hp with hp | hp
      · exact absurd hp (tk_ne_ak _ _)
      · exact absurd hp (tk_ne_bk _ _)

/-- A round at a joint. -/
theorem dia_t {k i : ℕ} {Q : List Node} {V : List Cell} {cur : Node} (h : Dia k Q V)
    (ht : ∃ n ∈ Q, n.pos = tk k) (hi : Q[i]? = some cur) (hmin : ∀ y ∈ Q, cur.f ≤ y.f) :
    cur.pos ≠ (1, 0) ∧
    Dia k ((children diamonds cur.pos).foldl (addChild 1 (1, 0) cur (V ++ [cur.pos])) (Q.eraseIdx i))
      (V ++ [cur.pos]) ∧
    phi ((children diamonds cur.pos).foldl (addChild 1 (1, 0) cur (V ++ [cur.pos])) (Q.eraseIdx i)) + 1 = phi Q := by
  obtain ⟨hno, ha, hb⟩ := h.first ht
  have hmem : cur ∈ Q := List.mem_of_getElem? hi
  have hT : IsT k cur := by
    obtain ⟨n, hn, hp⟩ := ht
    have hn' := (dia_node_pos h hn).1 hp
    have := hmin n hn
    rcases h.nodes cur hmem with h1 | h1 | h1
    · exact h1
    · have := h1.gt; have := hn'.le; linarith
    · exact absurd h1.pos (hno cur hmem)
  have hpos := hT.pos
  have haV : ak k ∉ V ++ [cur.pos] := by
    rw [List.mem_append, List.mem_singleton, hpos, not_or]
    exact ⟨ha, (tk_ne_ak _ _).symm⟩
  have hbV : bk k ∉ V ++ [cur.pos] := by
    rw [List.mem_append, List.mem_singleton, hpos, not_or]
    exact ⟨hb, (tk_ne_bk _ _).symm⟩
  have hE : ∀ n ∈ Q.eraseIdx i, n ∈ Q := fun n hn => List.mem_of_mem_eraseIdx hn
  have hQ : (children diamonds cur.pos).foldl (addChild 1 (1, 0) cur (V ++ [cur.pos])) (Q.eraseIdx i) =
      Q.eraseIdx i ++ [mkChild 1 (1, 0) cur (bk k)] ++ [mkChild 1 (1, 0) cur (ak k)] := by
    have eb : addChild 1 (1, 0) cur (V ++ [cur.pos]) (Q.eraseIdx i) (bk k) =
        Q.eraseIdx i ++ [mkChild 1 (1, 0) cur (bk k)] := by
      refine addChild_new hbV fun n hn hp => ?_
      rw [((dia_node_pos h (hE n hn)).2.1 (.inr hp)).g, hT.g]
    have ea : addChild 1 (1, 0) cur (V ++ [cur.pos]) (Q.eraseIdx i ++ [mkChild 1 (1, 0) cur (bk k)]) (ak k) =
        Q.eraseIdx i ++ [mkChild 1 (1, 0) cur (bk k)] ++ [mkChild 1 (1, 0) cur (ak k)] := by
      refine addChild_new haV fun n hn hp => ?_
      rcases List.mem_append.1 hn with hn | hn
      · rw [((dia_node_pos h (hE n hn)).2.1 (.inl hp)).g, hT.g]
      · rw [List.mem_singleton.1 hn] at hp
        exact absurd hp.symm (ak_ne_bk _ _)
    cases k with
    | zero =>
      rw [hpos, ch_t0, ← hpos, List.foldl_cons, List.foldl_cons, List.foldl_nil, eb, ea]
    | succ k =>
      have hl := h.lt
      obtain ⟨_, o2, o3⟩ := h.old k (by omega)
      rw [hpos, ch_t (by omega), ← hpos, List.foldl_cons, List.foldl_cons, List.foldl_cons, List.foldl_cons,
        List.foldl_nil, eb, addChild_visited (List.mem_append_left _ o3), ea,
        addChild_visited (List.mem_append_left _ o2)]
  rw [hQ]
  refine ⟨?_, ⟨h.lt, ?_, ?_, ?_, ?_, ?_, ?_⟩, ?_⟩
  · rw [hpos]
    intro h0
    have := congrArg Prod.snd h0
    simp only [tk] at this
    omega
  · intro n hn
    simp only [List.mem_append, List.mem_singleton] at hn
    rcases hn with (hn | rfl) | rfl
    · exact h.nodes n (hE n hn)
    · exact .inr (.inl (child_b hT))
    · exact .inr (.inl (child_a hT))
  · intro _
    refine ⟨?_, haV, hbV⟩
    intro n hn
    simp only [List.mem_append, List.mem_singleton] at hn
    rcases hn with (hn | rfl) | rfl
    · exact hno n (hE n hn)
    · exact (tk_ne_bk _ _).symm
    · exact (tk_ne_ak _ _).symm
  · intro j hj
    obtain ⟨o1, o2, o3⟩ := h.old j hj
    exact ⟨List.mem_append_left _ o1, List.mem_append_left _ o2, List.mem_append_left _ o3⟩
  · left; rw [hpos]; simp
  · intro _
    exact ⟨.inr ⟨mkChild 1 (1, 0) cur (ak k), by simp, rfl⟩, .inr ⟨mkChild 1 (1, 0) cur (bk k), by simp, rfl⟩⟩
  · intro v hv
    rcases List.mem_append.1 hv with hv | hv
    · exact h.vsub v hv
    · rw [List.mem_singleton.1 hv, hpos]
      exact ⟨k, le_refl _, .inl rfl⟩
  · have e1 : phi [mkChild 1 (1, 0) cur (bk k)] = wA (k + 1) + 1 := by
      show wC (bk k) + 0 = _; rw [wC_b, add_zero]
    have e2 : phi [mkChild 1 (1, 0) cur (ak k)] = wA (k + 1) + 1 := by
      show wC (ak k) + 0 = _; rw [wC_a, add_zero]
    rw [phi_append, phi_append, e1, e2, phi_erase hi, hpos, wC_t, wA_step h.lt]
    omega

/-- A round at a corner. -/
theorem dia_s {k i : ℕ} {Q : List Node} {V : List Cell} {cur : Node} (h : Dia k Q V)
    (ht : ¬ ∃ n ∈ Q, n.pos = tk k) (hs : ∃ n ∈ Q, n.pos = ak k ∨ n.pos = bk k) (hi : Q[i]? = some cur)
    (hmin : ∀ y ∈ Q, cur.f ≤ y.f) :
    cur.pos ≠ (1, 0) ∧
    Dia k ((children diamonds cur.pos).foldl (addChild 1 (1, 0) cur (V ++ [cur.pos])) (Q.eraseIdx i))
      (V ++ [cur.pos]) ∧
    phi ((children diamonds cur.pos).foldl (addChild 1 (1, 0) cur (V ++ [cur.pos])) (Q.eraseIdx i)) + 1 = phi Q := by
  have hmem : cur ∈ Q := List.mem_of_getElem? hi
  have hS : IsS k cur := by
    obtain ⟨n, hn, hp⟩ := hs
    have hn' := (dia_node_pos h hn).2.1 hp
    have := hmin n hn
    rcases h.nodes cur hmem with h1 | h1 | h1
    · exact absurd ⟨cur, hmem, h1.pos⟩ ht
    · exact h1
    · have h2 := h1.ge (by omega); have := hn'.lt; push_cast at h2; linarith
  have htV : tk k ∈ V := h.tin.resolve_right ht
  have hnV : tk (k + 1) ∉ V ++ [cur.pos] := by
    intro hmem
    rcases List.mem_append.1 hmem with hm | hm
    · obtain ⟨j, hj, h1 | h1 | h1⟩ := h.vsub _ hm
      · have := tk_inj h1; omega
      · exact tk_ne_ak _ _ h1
      · exact tk_ne_bk _ _ h1
    · have hm' := List.mem_singleton.1 hm
      rcases hS.pos with h1 | h1
      · rw [h1] at hm'; exact tk_ne_ak _ _ hm'
      · rw [h1] at hm'; exact tk_ne_bk _ _ hm'
  have hE : ∀ n ∈ Q.eraseIdx i, n ∈ Q := fun n hn => List.mem_of_mem_eraseIdx hn
  have hch : children diamonds cur.pos = [tk (k + 1), tk k] := by
    rcases hS.pos with h1 | h1
    · rw [h1]; exact ch_a h.lt
    · rw [h1]; exact ch_b h.lt
  have hQ : (children diamonds cur.pos).foldl (addChild 1 (1, 0) cur (V ++ [cur.pos])) (Q.eraseIdx i) =
      Q.eraseIdx i ++ [mkChild 1 (1, 0) cur (tk (k + 1))] := by
    rw [hch, List.foldl_cons, List.foldl_cons, List.foldl_nil,
      addChild_visited (List.mem_append_left _ htV)]
    refine addChild_new hnV fun n hn hp => ?_
    rw [((dia_node_pos h (hE n hn)).2.2 hp).g, hS.g]
    push_cast; linarith
  rw [hQ]
  have hkeep : ∀ q, (q ∈ V ∨ ∃ n ∈ Q, n.pos = q) → q ∈ V ++ [cur.pos] ∨
      ∃ n ∈ Q.eraseIdx i ++ [mkChild 1 (1, 0) cur (tk (k + 1))], n.pos = q := by
    rintro q (hq | ⟨n, hn, rfl⟩)
    · exact .inl (List.mem_append_left _ hq)
    · rcases mem_erase_or hi hn with rfl | hn
      · left; simp
      · exact .inr ⟨n, List.mem_append_left _ hn, rfl⟩
  refine ⟨?_, ⟨h.lt, ?_, ?_, ?_, ?_, ?_, ?_⟩, ?_⟩
  · rcases hS.pos with h1 | h1 <;> rw [h1] <;> intro h0 <;> have := congrArg Prod.fst h0 <;> simp [ak, bk] at this
  · intro n hn
    simp only [List.mem_append, List.mem_singleton] at hn
    rcases hn with hn | rfl
    · exact h.nodes n (hE n hn)
    · exact .inr (.inr (child_t hS))
  · rintro ⟨n, hn, hp⟩
    simp only [List.mem_append, List.mem_singleton] at hn
    rcases hn with hn | rfl
    · exact absurd ⟨n, hE n hn, hp⟩ ht
    · have : k + 1 = k := tk_inj hp
      omega
  · intro j hj
    obtain ⟨o1, o2, o3⟩ := h.old j hj
    exact ⟨List.mem_append_left _ o1, List.mem_append_left _ o2, List.mem_append_left _ o3⟩
  · exact .inl (List.mem_append_left _ htV)
  · intro _
    exact ⟨hkeep _ (h.sin htV).1, hkeep _ (h.sin htV).2⟩
  · intro v hv
    rcases List.mem_append.1 hv with hv | hv
    · exact h.vsub v hv
    · rw [List.mem_singleton.1 hv]
      rcases hS.pos with h1 | h1 <;> rw [h1]
      · exact ⟨k, le_refl _, .inr (.inl rfl)⟩
      · exact ⟨k, le_refl _, .inr (.inr rfl)⟩
  · have e1 : phi [mkChild 1 (1, 0) cur (tk (k + 1))] = wA (k + 1) := by
      show wC (tk (k + 1)) + 0 = _; rw [wC_t, add_zero]
    have e2 : wC cur.pos = wA (k + 1) + 1 := by
      rcases hS.pos with h1 | h1 <;> rw [h1]
      · exact wC_a k
      · exact wC_b k
    rw [phi_append, e1, phi_erase hi, e2]
    omega

/-- The next diamond. -/
theorem dia_next {k : ℕ} {Q : List Node} {V : List Cell} (h : Dia k Q V)
    (ht : ¬ ∃ n ∈ Q, n.pos = tk k) (hs : ¬ ∃ n ∈ Q, n.pos = ak k ∨ n.pos = bk k) (hphi : 0 < phi Q) :
    Dia (k + 1) Q V ∧ ∃ n ∈ Q, n.pos = tk (k + 1) := by
  have hall : ∀ n ∈ Q, IsT (k + 1) n := by
    intro n hn
    rcases h.nodes n hn with h1 | h1 | h1
    · exact absurd ⟨n, hn, h1.pos⟩ ht
    · exact absurd ⟨n, hn, h1.pos⟩ hs
    · exact h1
  have hex : ∃ n ∈ Q, n.pos = tk (k + 1) := by
    cases Q with
    | nil => simp [phi] at hphi
    | cons x xs => exact ⟨x, by simp, (hall x (by simp)).pos⟩
  have htV : tk k ∈ V := h.tin.resolve_right ht
  have haV : ak k ∈ V := (h.sin htV).1.resolve_right fun ⟨n, hn, hp⟩ => hs ⟨n, hn, .inl hp⟩
  have hbV : bk k ∈ V := (h.sin htV).2.resolve_right fun ⟨n, hn, hp⟩ => hs ⟨n, hn, .inr hp⟩
  have hk : k + 1 < 16 := by
    by_contra hcon
    have hk16 : k + 1 = 16 := by have := h.lt; omega
    have : phi Q = 0 := by
      unfold phi
      apply List.sum_eq_zero
      intro x hx
      obtain ⟨n, hn, rfl⟩ := List.mem_map.1 hx
      show wC n.pos = 0
      rw [(hall n hn).pos, wC_t, hk16]; decide
    omega
  refine ⟨⟨hk, fun n hn => .inl (hall n hn), fun _ => ⟨fun n hn hp => ?_, ?_, ?_⟩, ?_, .inr hex, ?_, ?_⟩, hex⟩
  · rw [(hall n hn).pos] at hp
    have := tk_inj hp; omega
  · intro hmem
    obtain ⟨j, hj, h1 | h1 | h1⟩ := h.vsub _ hmem
    · exact tk_ne_ak _ _ h1.symm
    · have := ak_inj h1; omega
    · exact ak_ne_bk _ _ h1
  · intro hmem
    obtain ⟨j, hj, h1 | h1 | h1⟩ := h.vsub _ hmem
    · exact tk_ne_bk _ _ h1.symm
    · exact ak_ne_bk _ _ h1.symm
    · have := bk_inj h1; omega
  · intro j hj
    rcases Nat.lt_succ_iff_lt_or_eq.1 hj with hj | rfl
    · exact h.old j hj
    · exact ⟨htV, haV, hbV⟩
  · intro hmem
    exfalso
    obtain ⟨j, hj, h1 | h1 | h1⟩ := h.vsub _ hmem
    · have := tk_inj h1; omega
    · exact tk_ne_ak _ _ h1
    · exact tk_ne_bk _ _ h1
  · intro v hv
    obtain ⟨j, hj, h1⟩ := h.vsub v hv
    exact ⟨j, by omega, h1⟩

theorem dia_pos {k : ℕ} {Q : List Node} {V : List Cell} (h : Dia k Q V) {n : Node} (hn : n ∈ Q) : n.pos ≠ (1, 0) := by
  intro h0
  have e1 := congrArg Prod.snd h0
  rcases h.nodes n hn with h1 | h1 | h1
  · rw [h1.pos] at e1; simp only [tk] at e1; omega
  · rcases h1.pos with h2 | h2 <;> rw [h2] at e1
    · simp only [ak] at e1; omega
    · simp only [bk] at e1; omega
  · rw [h1.pos] at e1; simp only [tk] at e1; omega

theorem dia_loop : ∀ (t k : ℕ) (Q : List Node) (V : List Cell), Dia k Q V → Inv diamonds (1, 2) (1, 0) 1 Q V → t < phi Q →
    ∃ cur V', GoodNode diamonds (1, 2) (1, 0) 1 V' cur ∧ cur.pos ≠ (1, 0) ∧
      loop diamonds 1 (1, 0) t Q V = (returnPath diamonds cur true).map some
  | t, k, [], V, _, _, ht => by simp [phi] at ht
  | 0, k, x :: xs, V, h, hI, _ => by
    have hm := List.mem_of_getElem? (scan_ok x xs).1
    exact ⟨_, V, hI.nodes _ hm, dia_pos h hm, rfl⟩
  | t + 1, k, x :: xs, V, h, hI, ht => by
    obtain ⟨h1, h2⟩ := scan_ok x xs
    have key : ∃ k', (scan x 0 0 (x :: xs)).1.pos ≠ (1, 0) ∧
        Dia k' ((children diamonds (scan x 0 0 (x :: xs)).1.pos).foldl
            (addChild 1 (1, 0) (scan x 0 0 (x :: xs)).1 (V ++ [(scan x 0 0 (x :: xs)).1.pos]))
            ((x :: xs).eraseIdx (scan x 0 0 (x :: xs)).2)) (V ++ [(scan x 0 0 (x :: xs)).1.pos]) ∧
        phi ((children diamonds (scan x 0 0 (x :: xs)).1.pos).foldl
            (addChild 1 (1, 0) (scan x 0 0 (x :: xs)).1 (V ++ [(scan x 0 0 (x :: xs)).1.pos]))
            ((x :: xs).eraseIdx (scan x 0 0 (x :: xs)).2)) + 1 = phi (x :: xs) := by
      by_cases hT : ∃ n ∈ x :: xs, n.pos = tk k
      · exact ⟨k, dia_t h hT h1 h2⟩
      · by_cases hS : ∃ n ∈ x :: xs, n.pos = ak k ∨ n.pos = bk k
        · exact ⟨k, dia_s h hT hS h1 h2⟩
        · obtain ⟨h', hT'⟩ := dia_next h hT hS (by omega)
          exact ⟨k + 1, dia_t h' hT' h1 h2⟩
    obtain ⟨k', e1, e2, e3⟩ := key
    obtain ⟨cur, V', hg, hp, hc⟩ := dia_loop t k' _ _ e2 (inv_step _ _ _ _ hI h1 e1) (by omega)
    refine ⟨cur, V', hg, hp, ?_⟩
    rw [← hc]
    exact loop_next rfl e1 rfl rfl

/-- The route from the start over the diamonds and back to the end. -/
def diamondRoute : List Cell :=
  (List.range 16).flatMap (fun k => [tk k, ak k]) ++ [tk 16, (2, 35), (3, 36)] ++
    (List.range 35).map (fun i => ((4 : ℤ), 35 - (i : ℤ))) ++ [(3, 0), (2, 0), (1, 0)]

/-- **C68 is false of this code**: in a maze with five rows there is a route of 72 steps from the start to the end, but
the search gives up and returns a path that does not end at the end. -/
theorem C68_refuted : Inside diamonds (1, 2) ∧ IsRoute diamonds (1, 2) (1, 0) diamondRoute ∧
    ∃ r, search diamonds (1, 2) (1, 0) 1 = .ok (some r) ∧ r.gaveUp = true ∧ r.path.getLast? ≠ some (1, 0) := by
  have hin : Inside diamonds (1, 2) := ⟨by norm_num, by norm_num [diamonds], by norm_num, by norm_num [diamonds]⟩
  have hroute : IsRoute diamonds (1, 2) (1, 0) diamondRoute := by
    refine ⟨by decide, by decide +kernel, ?_, ?_⟩
    · unfold Nbr; decide +kernel
    · unfold Inside; decide +kernel
  refine ⟨hin, hroute, ?_⟩
  have hstart : IsT 0 (⟨(1, 2), 0, 0, 0, []⟩ : Node) := by
    refine ⟨rfl, by simp, by norm_num, by simp⟩
  obtain ⟨cur, V, hg, hp, hc⟩ := dia_loop 100000 0 [⟨(1, 2), 0, 0, 0, []⟩] [] ⟨by norm_num, by
      intro n hn
      rw [List.mem_singleton.1 hn]
      exact .inl hstart, by
      intro _
      refine ⟨?_, by simp, by simp⟩
      intro n hn
      rw [List.mem_singleton.1 hn]
      decide, by simp, .inr ⟨_, List.mem_singleton.2 rfl, rfl⟩, by simp, by simp⟩ (inv_start _ _ _ _) (by decide +kernel)
  have hs : search diamonds (1, 2) (1, 0) 1 = (returnPath diamonds cur true).map some := hc
  rw [returnPath_ok diamonds cur true (fun p hp => route_inside hg.route hin p (List.mem_reverse.2 hp)) hg.simple] at hs
  refine ⟨_, hs, rfl, ?_⟩
  show cur.trail.reverse.getLast? ≠ _
  rw [hg.route.last]
  exact fun h => hp (Option.some.inj h)

end Gasur.Props
