import Verif.Proofs.Bfm
import Mathlib.Algebra.Order.Ring.Int
import Mathlib.Data.Fin.VecNotation
import Mathlib.Tactic.FinCases

/-!
# Properties C06, C07: `bfm_shortest_path`

`Walk G eps u v l a` (`Verif/Spec/Graph.lean`): the vertex list `l` is a walk from `u` to `v` along arcs
of the matrix `G` with total weight `a`. `NoNegCycle G eps src`: no closed walk through a vertex
reachable from `src` has negative weight.
-/

set_option linter.unusedSectionVars false

namespace Gasur.Props

open Gasur.Bfm Gasur.Spec

variable {K : Type*} [CommRing K] [LinearOrder K] [IsStrictOrderedRing K] {n : ℕ}

/-- Every entry is `inf`, zero, or at least `eps` in absolute value. -/
def NoTiny (G : Fin n → Fin n → WithTop K) (eps : K) : Prop :=
  ∀ u v (w : K), G u v = w → w = 0 ∨ eps ≤ |w|

theorem arcs_sublist {G : Fin n → Fin n → WithTop K} {eps : K} (heps : 0 < eps) :
    (arcs G eps).Sublist ((List.finRange n).flatMap fun v =>
      ((List.finRange n).filter fun u => decide (G u v ≠ 0)).map fun u => (u, v)) := by
  unfold arcs
  have : ∀ l : List (Fin n), (l.flatMap fun v =>
      ((List.finRange n).filter fun u => isArc eps (G u v)).map fun u => (u, v)).Sublist
      (l.flatMap fun v =>
        ((List.finRange n).filter fun u => decide (G u v ≠ 0)).map fun u => (u, v)) := by
    intro l
    induction l with
    | nil => simp
    | cons v l ih =>
      rw [List.flatMap_cons, List.flatMap_cons]
      refine List.Sublist.append ?_ ih
      apply List.Sublist.map
      apply List.monotone_filter_right
      intro u hu
      rw [decide_eq_true_eq]
      intro h0
      rw [h0] at hu
      have : isArc eps ((0 : K) : WithTop K) = true := hu
      simp only [isArc, abs_zero, decide_eq_true_eq] at this
      exact absurd heps (not_lt.2 this)
  exact this _

theorem tiny_iff {G : Fin n → Fin n → WithTop K} {eps : K} (heps : 0 < eps) :
    (arcs G eps).length < countNonzero G ↔ ¬ NoTiny G eps := by
  have hsub := arcs_sublist (G := G) heps
  unfold countNonzero
  constructor
  · intro h hnt
    have : arcs G eps = ((List.finRange n).flatMap fun v =>
      ((List.finRange n).filter fun u => decide (G u v ≠ 0)).map fun u => (u, v)) := by
      unfold arcs
      congr 1
      funext v
      congr 1
      apply List.filter_congr
      intro u _
      rcases top_or (G u v) with hg | ⟨w, hg⟩
      · rw [hg]; simp [isArc]
      · rw [hg]
        rcases hnt u v w hg with h0 | h0
        · subst h0; simp [isArc, heps]
        · have hne : w ≠ 0 := by
            rintro rfl
            rw [abs_zero] at h0
            exact absurd heps (not_lt.2 h0)
          simp [isArc, h0, hne]
    rw [← this] at h
    exact absurd h (lt_irrefl _)
  · intro hnt
    by_contra hlen
    have heq := hsub.eq_of_length_le (not_lt.1 hlen)
    apply hnt
    intro u v w hg
    by_contra hcon
    push Not at hcon
    have hmem : (u, v) ∈ ((List.finRange n).flatMap fun v =>
      ((List.finRange n).filter fun u => decide (G u v ≠ 0)).map fun u => (u, v)) := by
      simp [List.mem_flatMap, hg, hcon.1]
    rw [← heq, mem_arcs, hg] at hmem
    simp only [isArc, decide_eq_true_eq] at hmem
    exact absurd hmem (not_le.2 hcon.2)

/-- **C06.** On every graph with at least two vertices and no negative cycle reachable from the source,
`bfm_shortest_path` returns; the distance is `inf` with an empty path iff there is no walk, and otherwise
it is the weight of the returned path, which is a walk from source to destination, and no walk is
lighter. (`fuel` bounds the reconstruction loop; any value `≥ n` gives the same result.) -/
theorem C06_bfm_shortest (G : Fin n → Fin n → WithTop K) (eps : K) (heps : 0 < eps) (hn2 : 2 ≤ n)
    (hnt : NoTiny G eps) (src dst : Fin n) (hn : NoNegCycle G eps src) (fuel : ℕ) (hf : n ≤ fuel) :
    ∃ dist path pred, bfm G eps src dst fuel = .ok (dist, path, pred) ∧
      (dist = ⊤ ↔ ∀ l a, ¬ Walk G eps src dst l a) ∧
      (dist = ⊤ → path = []) ∧
      (∀ d : K, dist = d → Walk G eps src dst path d ∧ ∀ l a, Walk G eps src dst l a → d ≤ a) := by
  obtain ⟨dist, path, pred, h, hc⟩ := bfm_spec hn2 (by rw [tiny_iff heps]; simpa using hnt)
    src dst hn fuel hf
  refine ⟨dist, path, pred, h, ?_⟩
  rcases hc with ⟨h1, h2, h3⟩ | ⟨d, h1, h2, h3, h4⟩
  · subst h1
    exact ⟨⟨fun _ => h3, fun _ => rfl⟩, fun _ => h2, fun d hd => by simp at hd⟩
  · subst h1
    refine ⟨⟨fun hd => by simp at hd, fun hd => absurd h2 (hd _ _)⟩, fun hd => by simp at hd, ?_⟩
    intro d' hd'
    rw [WithTop.coe_inj] at hd'
    subst hd'
    exact ⟨h2, h4⟩

/-- **C07.** Absent negative cycles the reconstruction loop stops after at most `n` tests of its
condition, and the path repeats no vertex. -/
theorem C07_bfm_path_simple (G : Fin n → Fin n → WithTop K) (eps : K) (heps : 0 < eps)
    (hn2 : 2 ≤ n) (hnt : NoTiny G eps) (src dst : Fin n) (hn : NoNegCycle G eps src) :
    ∃ dist path pred, (∀ fuel, n ≤ fuel → bfm G eps src dst fuel = .ok (dist, path, pred)) ∧
      path.Nodup ∧ path.length ≤ n ∧
      (path ≠ [] → path.head? = some src ∧ path.getLast? = some dst) := by
  have hall := fun fuel (hf : n ≤ fuel) => bfm_spec hn2 (by rw [tiny_iff heps]; simpa using hnt)
    src dst hn fuel hf
  obtain ⟨dist, path, pred, h, hc⟩ := hall n (le_refl _)
  refine ⟨dist, path, pred, ?_, ?_⟩
  · intro fuel hf
    rw [← h]
    unfold bfm
    cases hh : bfmHelper G eps src with
    | error e => rfl
    | ok s =>
      simp only
      cases hd : s.D dst with
      | top => rfl
      | coe d =>
        simp only
        have hs : s = sweeps G eps (n - 1) (initSt src) := by
          unfold bfmHelper at hh
          split at hh
          · simp at hh
          · split at hh
            · simp at hh
            · simp only [Except.ok.injEq] at hh
              exact hh.symm
        have hinv : Inv G eps src s := by rw [hs]; exact Inv.sweeps hn _ Inv.init
        obtain ⟨l, hl⟩ := hinv.tree dst (by rw [hd]; simp)
        have hlen : l.length ≤ n := by
          have := List.Nodup.length_le_card hl.nodup
          rwa [Fintype.card_fin] at this
        rw [walkBack_TP hl fuel [] (by omega), walkBack_TP hl n [] hlen]
  · rcases hc with ⟨h1, h2, h3⟩ | ⟨d, h1, h2, h3, h4⟩
    · subst h2
      simp
    · refine ⟨h3, ?_, ?_⟩
      · have := List.Nodup.length_le_card h3
        rwa [Fintype.card_fin] at this
      · intro _
        have : ∀ (v : Fin n) (l : List (Fin n)) (a : K), Walk G eps src v l a →
            l.head? = some src ∧ l.getLast? = some v := by
          intro v l a hw
          induction hw with
          | nil => simp
          | snoc hw' _ ih =>
            refine ⟨?_, by simp⟩
            rw [List.head?_append, ih.1]
            rfl
        exact this _ _ _ h2

/-- **C06, failures.** A one-vertex graph always raises (the iteration counter is never assigned), and a
larger graph raises `IndexError` exactly when some finite entry is non-zero but smaller than `eps`. -/
theorem C06_bfm_errors (G : Fin n → Fin n → WithTop K) (eps : K) (heps : 0 < eps)
    (src dst : Fin n) (fuel : ℕ) :
    (n = 1 → bfm G eps src dst fuel = .error .unbound) ∧
    (2 ≤ n → (bfm G eps src dst fuel = .error .indexError ↔
      ∃ u v, ∃ w : K, G u v = w ∧ w ≠ 0 ∧ |w| < eps)) := by
  constructor
  · intro h
    unfold bfm bfmHelper
    rw [if_pos (by omega)]
  · intro h
    have hiff : (∃ u v, ∃ w : K, G u v = w ∧ w ≠ 0 ∧ |w| < eps) ↔
        (arcs G eps).length < countNonzero G := by
      rw [tiny_iff heps]
      unfold NoTiny
      push Not
      rfl
    rw [hiff]
    unfold bfm bfmHelper
    rw [if_neg (by omega)]
    by_cases hc : (arcs G eps).length < countNonzero G
    · rw [if_pos hc]
      simp [hc]
    · rw [if_neg hc]
      simp only [hc, iff_false]
      intro hcon
      split at hcon
      · simp at hcon
      · split at hcon <;> simp at hcon

/-! ### Non-vacuity and the role of the hypothesis -/

/-- A graph with a negative arc and no negative cycle. -/
def exG : Fin 4 → Fin 4 → WithTop ℤ :=
  ![![0, 4, 1, 0], ![0, 0, 0, 2], ![0, -2, 0, 5], ![0, 0, 0, 0]]

example : (bfm exG 1 0 3 4).toOption.map (fun x => (x.1, x.2.1)) =
    some (((1 : ℤ) : WithTop ℤ), [0, 2, 1, 3]) := by decide +kernel

example : NoTiny exG 1 := by
  intro u v w h
  by_cases hw : w = 0
  · exact .inl hw
  · exact .inr (Int.one_le_abs hw)

/-- All arcs of `exG` increase the rank `0 ↦ 0, 2 ↦ 1, 1 ↦ 2, 3 ↦ 3`, so it has no cycle at all. -/
def exRank : Fin 4 → ℕ := ![0, 2, 1, 3]

theorem exG_arc : ∀ u v : Fin 4, (∃ w : ℤ, Arc exG 1 u v w) → exRank u < exRank v := by
  intro u v ⟨w, h1, h2⟩
  have hw : w ≠ 0 := by rintro rfl; simp at h2
  have hne : exG u v ≠ ((0 : ℤ) : WithTop ℤ) := by
    rw [h1]
    intro h
    exact hw (WithTop.coe_inj.1 h)
  clear h1 h2 hw
  revert hne
  revert u v
  decide +kernel

example : NoNegCycle exG 1 0 := by
  have key : ∀ (u v : Fin 4) l (a : ℤ), Walk exG 1 u v l a →
      (v = u ∧ a = 0) ∨ exRank u < exRank v := by
    intro u v l a h
    induction h with
    | nil => exact .inl ⟨rfl, rfl⟩
    | snoc hw harc ih =>
      right
      have := exG_arc _ _ ⟨_, harc⟩
      rcases ih with ⟨h1, _⟩ | h1
      · rw [← h1]; exact this
      · omega
  intro v l a _ c b hb
  rcases key v v c b hb with ⟨_, h⟩ | h
  · exact h.ge
  · omega

/-- A graph with a negative cycle `1 → 2 → 1`. -/
def negG : Fin 3 → Fin 3 → WithTop ℤ := ![![0, 1, 0], ![0, 0, -2], ![0, 1, 0]]

/-- **C07, the hypothesis is needed**: with a negative cycle the reconstruction loop of
`bfm_shortest_path` never stops. -/
theorem C07_negative_cycle_loops (fuel : ℕ) : bfm negG 1 0 1 fuel = .error .loop := by
  have hp : ∀ v : Fin 3, (sweeps negG 1 2 (initSt 0)).p v = ![0, 2, 1] v := by decide +kernel
  have hD : (sweeps negG 1 2 (initSt 0)).D 1 = ((0 : ℤ) : WithTop ℤ) := by decide +kernel
  have hc : ¬ (arcs negG 1).length < countNonzero negG := by decide +kernel
  have key : ∀ (k : ℕ) (path : List (Fin 3)),
      walkBack (sweeps negG 1 2 (initSt 0)).p 0 k 1 path = none ∧
      walkBack (sweeps negG 1 2 (initSt 0)).p 0 k 2 path = none := by
    intro k
    induction k with
    | zero => intro path; exact ⟨rfl, rfl⟩
    | succ k ih =>
      intro path
      constructor
      · rw [walkBack, if_neg (by decide), hp]
        exact (ih _).2
      · rw [walkBack, if_neg (by decide), hp]
        exact (ih _).1
  unfold bfm bfmHelper
  rw [if_neg (by omega), if_neg hc]
  simp only [Nat.reduceSub]
  rw [hD]
  simp only
  rw [(key fuel [1]).1]

end Gasur.Props
