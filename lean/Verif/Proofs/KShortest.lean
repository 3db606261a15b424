import Verif.Model.KShortest
import Verif.Props.Bfm
import Mathlib.Algebra.BigOperators.Fin
import Mathlib.Algebra.BigOperators.Group.List.Basic
import Mathlib.Data.List.Sort

/-! Proofs for `k_shortest`. -/

set_option linter.unusedSectionVars false
set_option linter.unusedSimpArgs false

namespace Gasur.KShortest

open Gasur.Bfm Gasur.Spec Gasur.Props

variable {K : Type*} [CommRing K] [LinearOrder K] [IsStrictOrderedRing K] {N : ℕ}

/-- Arcs increase the vertex index. -/
def Dag (G : Fin N → Fin N → WithTop K) (eps : K) : Prop := ∀ u v w, Arc G eps u v w → u < v

theorem walk_good {G : Fin N → Fin N → WithTop K} {eps : K} (hd : Dag G eps) {u v l a}
    (h : Walk G eps u v l a) :
    l.Pairwise (· < ·) ∧ (∃ t, l = u :: t) ∧ l.getLast? = some v ∧ (∀ x ∈ l, x ≤ v) ∧
      ((u = v ∧ a = 0) ∨ u < v) := by
  induction h with
  | nil => simp
  | @snoc v x l a w hw harc ih =>
    obtain ⟨h1, ⟨t, h2⟩, h3, h4, h5⟩ := ih
    have hlt := hd _ _ _ harc
    refine ⟨?_, ⟨t ++ [x], by rw [h2]; rfl⟩, by simp, ?_, ?_⟩
    · rw [List.pairwise_append]
      refine ⟨h1, by simp, ?_⟩
      intro y hy z hz
      rw [List.mem_singleton] at hz
      subst hz
      exact lt_of_le_of_lt (h4 y hy) hlt
    · intro y hy
      rcases List.mem_append.1 hy with hy | hy
      · exact (lt_of_le_of_lt (h4 y hy) hlt).le
      · rw [List.mem_singleton] at hy
        exact hy.le
    · right
      rcases h5 with ⟨h5, _⟩ | h5
      · rw [h5]; exact hlt
      · exact h5.trans hlt

theorem Dag.noNeg {G : Fin N → Fin N → WithTop K} {eps : K} (hd : Dag G eps) (r : Fin N) :
    NoNegCycle G eps r := by
  intro v l a _ c b hb
  rcases (walk_good hd hb).2.2.2.2 with ⟨_, h⟩ | h
  · exact h.ge
  · exact absurd h (lt_irrefl _)

theorem Dag.temp {G : Fin N → Fin N → WithTop K} {eps : K} (hd : Dag G eps) (rem v' nxts) :
    Dag (tempMat G rem v' nxts) eps := by
  intro u v w h
  have h1 := h.1
  unfold tempMat at h1
  split at h1
  · simp at h1
  · split at h1
    · simp at h1
    · exact hd u v w ⟨h1, h.2⟩

theorem NoTiny.temp {G : Fin N → Fin N → WithTop K} {eps : K} (hd : NoTiny G eps) (rem v' nxts) :
    NoTiny (tempMat G rem v' nxts) eps := by
  intro u v w h1
  unfold tempMat at h1
  split at h1
  · simp at h1
  · split at h1
    · simp at h1
    · exact hd u v w h1

/-- Shape of every path in the tables. -/
structure Good (dst : Fin N) (p : List (Fin N)) : Prop where
  sorted : p.Pairwise (· < ·)
  len : 2 ≤ p.length
  last : p.getLast? = some dst

theorem Good.lt_dst {dst : Fin N} {p} (h : Good dst p) {i : ℕ} {v} (hv : p[i]? = some v)
    (hi : i + 1 < p.length) : v < dst := by
  have hl := h.last
  rw [List.getLast?_eq_getElem?] at hl
  have := List.pairwise_iff_getElem.1 h.sorted i (p.length - 1) (by omega) (by omega) (by omega)
  rw [List.getElem?_eq_getElem (by omega)] at hv hl
  simp only [Option.some.injEq] at hv hl
  rw [hv, hl] at this
  exact this

theorem Good.next {dst : Fin N} {p} (h : Good dst p) {i : ℕ} {v} (hv : p[i]? = some v)
    (hlt : v < dst) : i + 1 < p.length := by
  by_contra hcon
  have hi : i < p.length := by
    by_contra hc
    rw [List.getElem?_eq_none (by omega)] at hv
    simp at hv
  have hl := h.last
  rw [List.getLast?_eq_getElem?] at hl
  have : p.length - 1 = i := by omega
  rw [this, hv] at hl
  simp only [Option.some.injEq] at hl
  exact absurd hlt (by rw [hl]; exact lt_irrefl _)

/-- Invariant of the tables. -/
structure KInv (dst : Fin N) (st : YSt K N) : Prop where
  good : ∀ pc ∈ st.P, Good dst pc.1
  goodOut : ∀ pc ∈ st.out, Good dst pc.1
  lenS : st.S.length = st.P.length
  mem : ∀ (i : ℕ) (pc) (w), st.P[i]? = some pc → st.S[i]? = some w → w ∈ pc.1
  x : ∀ e ∈ st.X, e.1 < st.P.length
  fin : ∀ pc ∈ st.P, pc.2 ≠ ⊤
  finOut : ∀ pc ∈ st.out, pc.2 ≠ ⊤

theorem pathCost_ne_top {G : Fin N → Fin N → WithTop K} (hfin : ∀ u v, G u v ≠ ⊤) :
    ∀ l : List (Fin N), pathCost G l ≠ ⊤
  | [] => by simp [pathCost]
  | [_] => by simp [pathCost]
  | a :: b :: l => by
    unfold pathCost
    rw [WithTop.add_ne_top]
    exact ⟨hfin a b, pathCost_ne_top hfin (b :: l)⟩

theorem mapM_some {α β : Type*} (f : α → Option β) : ∀ (l : List α), (∀ a ∈ l, (f a).isSome) →
    ∃ r, l.mapM f = some r
  | [], _ => ⟨[], rfl⟩
  | a :: l, h => by
    obtain ⟨b, hb⟩ := Option.isSome_iff_exists.1 (h a List.mem_cons_self)
    obtain ⟨r, hr⟩ := mapM_some f l (fun x hx => h x (List.mem_cons_of_mem _ hx))
    exact ⟨b :: r, by simp [List.mapM_cons, hb, hr]⟩

theorem deviate_ok {G : Fin N → Fin N → WithTop K} {eps : K} (hN : 2 ≤ N) (heps : 0 < eps)
    (hd : Dag G eps) (hnt : NoTiny G eps) (hfin : ∀ u v, G u v ≠ ⊤) {dst : Fin N} {path} (hp : Good dst path) {st : YSt K N}
    (hst : KInv dst st) {ind : ℕ} (hi : ind + 1 < path.length) :
    ∃ st', deviate G eps dst path st ind = .ok st' ∧ KInv dst st' ∧ st'.out = st.out ∧
      st'.cur = st.cur ∧ ∃ t, st'.P = st.P ++ t := by
  have hpi : path[ind]? = some path[ind] := List.getElem?_eq_getElem (by omega)
  have hlt := hp.lt_dst hpi hi
  obtain ⟨nxts, hnx⟩ := mapM_some (fun sp : List (Fin N) => sp[ind + 1]?)
    (samePrefix path (st.out.map Prod.fst) ind) (by
      intro sp hsp
      unfold samePrefix at hsp
      rcases List.mem_cons.1 hsp with rfl | hsp
      · rw [List.getElem?_eq_getElem hi]; rfl
      · rw [List.mem_filter, decide_eq_true_eq] at hsp
        obtain ⟨hm, hl, htake⟩ := hsp
        obtain ⟨pc, hpc, rfl⟩ := List.mem_map.1 hm
        have hg := hst.goodOut pc hpc
        have h1 : (pc.1)[ind]? = some path[ind] := by
          have : (path.take (ind + 1))[ind]? = (pc.1.take (ind + 1))[ind]? := by rw [htake]
          rw [List.getElem?_take_of_lt (by omega), List.getElem?_take_of_lt (by omega)] at this
          rw [← this, hpi]
        have := hg.next h1 hlt
        rw [List.getElem?_eq_getElem this]; rfl)
  obtain ⟨dist, dev, pred, hb, hcase⟩ := bfm_spec (G := tempMat G (path.take (ind - 1)) path[ind] nxts)
    (eps := eps) hN (by rw [tiny_iff heps]; simpa using NoTiny.temp hnt _ _ _) path[ind] dst
    ((hd.temp _ _ _).noNeg _) N (le_refl _)
  unfold deviate
  rw [hpi]
  simp only
  rw [hnx]
  simp only
  rw [hb]
  simp only
  rcases hcase with ⟨_, h2, _⟩ | ⟨d, h1, hw, _, _⟩
  · rw [if_pos h2]
    exact ⟨st, rfl, hst, rfl, rfl, [], by simp⟩
  · obtain ⟨g1, ⟨t, g2⟩, g3, g4, _⟩ := walk_good (hd.temp _ _ _) hw
    rw [if_neg (by rw [g2]; simp)]
    have hdevlen : 2 ≤ dev.length := by
      rw [g2]
      cases t with
      | nil =>
        rw [g2] at g3
        simp only [List.getLast?_singleton, Option.some.injEq] at g3
        rw [g3] at hlt
        exact absurd hlt (lt_irrefl _)
      | cons b t => simp
    have hjoin : Good dst (joinDev (path.take (ind + 1)) dev) := by
      have htk : (path.take (ind + 1)).take ((path.take (ind + 1)).length - 2) =
          path.take (ind - 1) := by
        rw [List.take_take]
        congr 1
        rw [List.length_take]
        omega
      unfold joinDev
      rw [htk]
      constructor
      · rw [List.pairwise_append]
        refine ⟨hp.sorted.sublist (List.take_sublist _ _), g1, ?_⟩
        intro x hx y hy
        have hxlt : x < path[ind] := by
          obtain ⟨i, hi', rfl⟩ := List.mem_iff_getElem.1 hx
          rw [List.getElem_take]
          rw [List.length_take] at hi'
          exact List.pairwise_iff_getElem.1 hp.sorted i ind (by omega) (by omega) (by omega)
        rw [g2] at hy g1
        rcases List.mem_cons.1 hy with rfl | hy
        · exact hxlt
        · exact hxlt.trans ((List.pairwise_cons.1 g1).1 y hy)
      · rw [List.length_append]; omega
      · rw [List.getLast?_append, g3]; rfl
    refine ⟨_, rfl, ?_, rfl, rfl, _, rfl⟩
    constructor
    · intro pc hpc
      rcases List.mem_append.1 hpc with hpc | hpc
      · exact hst.good pc hpc
      · rw [List.mem_singleton] at hpc
        subst hpc
        exact hjoin
    · exact hst.goodOut
    · simp [hst.lenS]
    · intro i pc w h1 h2
      simp only at h1 h2
      by_cases hil : i < st.P.length
      · rw [List.getElem?_append_left hil] at h1
        rw [List.getElem?_append_left (by rw [hst.lenS]; exact hil)] at h2
        exact hst.mem i pc w h1 h2
      · rw [List.getElem?_append_right (by omega)] at h1
        rw [List.getElem?_append_right (by rw [hst.lenS]; omega), hst.lenS] at h2
        cases hi0 : i - st.P.length with
        | zero =>
          rw [hi0] at h1 h2
          simp only [List.getElem?_cons_zero, Option.some.injEq] at h1 h2
          rw [← h1, ← h2]
          simp [joinDev, g2]
        | succ j => rw [hi0] at h1; simp at h1
    · intro e he
      simp only [List.length_append, List.length_singleton]
      rcases List.mem_append.1 he with he | he
      · have := hst.x e he; omega
      · rw [List.mem_singleton] at he
        subst he
        simp
    · intro pc hpc
      rcases List.mem_append.1 hpc with hpc | hpc
      · exact hst.fin pc hpc
      · rw [List.mem_singleton] at hpc
        subst hpc
        simp only
        rw [WithTop.add_ne_top]
        exact ⟨pathCost_ne_top hfin _, by rw [h1]; exact WithTop.coe_ne_top⟩
    · exact hst.finOut

theorem foldDev_ok {G : Fin N → Fin N → WithTop K} {eps : K} (hN : 2 ≤ N) (heps : 0 < eps)
    (hd : Dag G eps) (hnt : NoTiny G eps) (hfin : ∀ u v, G u v ≠ ⊤) {dst : Fin N} {path} (hp : Good dst path) :
    ∀ (is : List ℕ) (st : YSt K N), (∀ i ∈ is, i + 1 < path.length) → KInv dst st →
    ∃ st', is.foldlM (deviate G eps dst path) st = .ok st' ∧ KInv dst st' ∧ st'.out = st.out ∧
      st'.cur = st.cur ∧ ∃ t, st'.P = st.P ++ t
  | [], st, _, hst => ⟨st, rfl, hst, rfl, rfl, [], by simp⟩
  | i :: is, st, hi, hst => by
    obtain ⟨st1, h1, h2, h3, h4, t, h5⟩ := deviate_ok hN heps hd hnt hfin hp hst (hi i List.mem_cons_self)
    obtain ⟨st2, k1, k2, k3, k4, t', k5⟩ := foldDev_ok hN heps hd hnt hfin hp is st1
      (fun j hj => hi j (List.mem_cons_of_mem _ hj)) h2
    refine ⟨st2, ?_, k2, k3.trans h3, k4.trans h4, t ++ t', by rw [k5, h5, List.append_assoc]⟩
    rw [List.foldlM_cons, h1]
    exact k1

theorem lastIdx_some {w : Fin N} : ∀ {l : List (Fin N)}, w ∈ l → ∃ i, lastIdx w l = some i
  | a :: l, h => by
    unfold lastIdx
    cases hl : lastIdx w l with
    | some i => exact ⟨_, rfl⟩
    | none =>
      rcases List.mem_cons.1 h with rfl | h
      · simp
      · obtain ⟨i, hi⟩ := lastIdx_some h
        rw [hi] at hl
        simp at hl

theorem minX_mem {X : List (ℕ × WithTop K)} {e} (h : minX X = some e) : e ∈ X := by
  cases X with
  | nil => simp [minX] at h
  | cons x l =>
    simp only [minX, Option.some.injEq] at h
    have : ∀ (l : List (ℕ × WithTop K)) (b), l.foldl (fun b y => if y.2 < b.2 then y else b) b = b ∨
        l.foldl (fun b y => if y.2 < b.2 then y else b) b ∈ l := by
      intro l
      induction l with
      | nil => intro b; exact .inl rfl
      | cons y l ih =>
        intro b
        rw [List.foldl_cons]
        rcases ih (if y.2 < b.2 then y else b) with h | h
        · rw [h]
          split
          · exact .inr List.mem_cons_self
          · exact .inl rfl
        · exact .inr (List.mem_cons_of_mem _ h)
    rw [← h]
    rcases this l x with h' | h'
    · rw [h']; exact List.mem_cons_self
    · exact List.mem_cons_of_mem _ h'

theorem yenStep_ok {G : Fin N → Fin N → WithTop K} {eps : K} (hN : 2 ≤ N) (heps : 0 < eps)
    (hd : Dag G eps) (hnt : NoTiny G eps) (hfin : ∀ u v, G u v ≠ ⊤) {dst : Fin N} {st : YSt K N}
    (hst : KInv dst st) (hcur : st.cur < st.P.length) :
    ∃ st', yenStep G eps dst st = .ok st' ∧ KInv dst st' ∧ st'.cur < st'.P.length ∧
      ((st'.X = [] ∧ st'.out = st.out) ∨ ∃ pc, st'.out = st.out ++ [pc]) := by
  obtain ⟨pc, hpc⟩ : ∃ pc, st.P[st.cur]? = some pc := ⟨_, List.getElem?_eq_getElem hcur⟩
  obtain ⟨w, hw⟩ : ∃ w, st.S[st.cur]? = some w :=
    ⟨_, List.getElem?_eq_getElem (by rw [hst.lenS]; exact hcur)⟩
  have hp : Good dst pc.1 := hst.good pc (List.mem_of_getElem? hpc)
  obtain ⟨wi, hwi⟩ := lastIdx_some (hst.mem _ _ _ hpc hw)
  have hinv0 : KInv dst { st with X := st.X.eraseP fun x => x.1 == st.cur } :=
    ⟨hst.good, hst.goodOut, hst.lenS, hst.mem, fun e he => hst.x e (List.mem_of_mem_eraseP he),
      hst.fin, hst.finOut⟩
  obtain ⟨st1, h1, h2, h3, h4, t, h5⟩ := foldDev_ok hN heps hd hnt hfin hp
    ((List.range (pc.1.length - 1)).drop wi) { st with X := st.X.eraseP fun x => x.1 == st.cur }
    (by
      intro i hi
      have := List.mem_range.1 (List.mem_of_mem_drop hi)
      omega) hinv0
  unfold yenStep
  rw [hpc, hw]
  obtain ⟨p, c⟩ := pc
  simp only at hwi h1 ⊢
  rw [hwi]
  simp only
  rw [h1]
  simp only
  cases hm : minX st1.X with
  | none =>
    refine ⟨st1, rfl, h2, ?_, .inl ⟨?_, h3⟩⟩
    · rw [h4, h5, List.length_append]
      simp only
      omega
    · cases hx : st1.X with
      | nil => rfl
      | cons a l => rw [hx] at hm; simp [minX] at hm
  | some e =>
    have he := h2.x e (minX_mem hm)
    obtain ⟨i, ci⟩ := e
    simp only at he ⊢
    rw [List.getElem?_eq_getElem he]
    refine ⟨_, rfl, ?_, he, .inr ⟨_, by rw [h3]⟩⟩
    refine ⟨h2.good, ?_, h2.lenS, h2.mem, h2.x, h2.fin, ?_⟩
    · intro pc hpc
      rcases List.mem_append.1 hpc with hpc | hpc
      · exact h2.goodOut pc hpc
      · rw [List.mem_singleton] at hpc
        subst hpc
        exact h2.good _ (List.getElem_mem _)
    · intro pc hpc
      rcases List.mem_append.1 hpc with hpc | hpc
      · exact h2.finOut pc hpc
      · rw [List.mem_singleton] at hpc
        subst hpc
        exact h2.fin _ (List.getElem_mem _)

theorem yenLoop_ok {G : Fin N → Fin N → WithTop K} {eps : K} (hN : 2 ≤ N) (heps : 0 < eps)
    (hd : Dag G eps) (hnt : NoTiny G eps) (hfin : ∀ u v, G u v ≠ ⊤) {dst : Fin N} (k : ℕ) : ∀ (fuel : ℕ) (st : YSt K N),
    KInv dst st → st.cur < st.P.length → st.out.length ≤ k →
    ∃ st', yenLoop G eps dst k fuel st = .ok st' ∧ KInv dst st' ∧ (∃ t, st'.out = st.out ++ t) ∧
      st'.out.length ≤ k ∧ (k ≤ st.out.length + fuel → ¬ (st'.out.length < k ∧ st'.X ≠ []))
  | 0, st, hst, _, hk => ⟨st, rfl, hst, ⟨[], by simp⟩, hk, fun h => by omega⟩
  | fuel + 1, st, hst, hcur, hk => by
    unfold yenLoop
    by_cases hc : st.out.length < k ∧ st.X ≠ []
    · rw [if_pos hc]
      obtain ⟨st1, h1, h2, h3, h4⟩ := yenStep_ok hN heps hd hnt hfin hst hcur
      rw [h1]
      simp only
      have hlen : st1.out.length ≤ k := by
        rcases h4 with ⟨_, h4⟩ | ⟨pc, h4⟩
        · rw [h4]; exact hk
        · rw [h4, List.length_append, List.length_singleton]; omega
      obtain ⟨st2, k1, k2, ⟨t, k3⟩, k4, k5⟩ := yenLoop_ok hN heps hd hnt hfin k fuel st1 h2 h3 hlen
      have hpre : ∃ t', st2.out = st.out ++ t' := by
        rcases h4 with ⟨_, h4⟩ | ⟨pc, h4⟩
        · exact ⟨t, by rw [k3, h4]⟩
        · exact ⟨[pc] ++ t, by rw [k3, h4, List.append_assoc]⟩
      refine ⟨st2, k1, k2, hpre, k4, ?_⟩
      intro hf
      rcases h4 with ⟨hx, h4⟩ | ⟨pc, h4⟩
      · -- X is empty: the loop stops at once
        have : st2 = st1 := by
          cases fuel with
          | zero => simp only [yenLoop, Except.ok.injEq] at k1; exact k1.symm
          | succ f =>
            unfold yenLoop at k1
            rw [if_neg (by rw [hx]; simp)] at k1
            simp only [Except.ok.injEq] at k1
            exact k1.symm
        rw [this, hx]
        simp
      · apply k5
        rw [h4, List.length_append, List.length_singleton]
        omega
    · rw [if_neg hc]
      exact ⟨st, rfl, hst, ⟨[], by simp⟩, hk, fun _ => hc⟩

/-! ### The padded matrix -/

variable {n : ℕ}

theorem costPad_dag (lc : Fin n → K) {eps : K} (heps : 0 < eps) : Dag (costPad lc eps) eps := by
  intro u v w h
  by_contra hlt
  have h1 := h.1
  unfold costPad at h1
  rw [dif_neg (by simpa using hlt)] at h1
  have : w = 0 := by exact_mod_cast h1.symm
  have h2 := h.2
  rw [this, abs_zero] at h2
  exact absurd heps (not_lt.2 h2)

theorem costPad_noTiny (lc : Fin n → K) {eps : K} (heps : 0 < eps)
    (h : ∀ i, lc i = 0 ∨ eps ≤ |lc i|) : NoTiny (costPad lc eps) eps := by
  intro u v w hw
  unfold costPad at hw
  split at hw
  · split at hw
    · rw [WithTop.coe_inj] at hw
      rw [← hw]
      exact h _
    · rw [WithTop.coe_inj] at hw
      rw [← hw, abs_of_pos heps]
      exact .inr (le_refl _)
  · left
    exact_mod_cast hw.symm

/-- Weight contributed by entering vertex `v`. -/
def val (lc : Fin n → K) (eps : K) (v : Fin (n + 2)) : K :=
  if h : 1 ≤ v.val ∧ v.val ≤ n then lc ⟨v.val - 1, by omega⟩ else eps

theorem costPad_val (lc : Fin n → K) {eps : K} {u v : Fin (n + 2)} (h : u < v) :
    costPad lc eps u v = ((val lc eps v : K) : WithTop K) := by
  have h' : u.val < v.val := h
  unfold costPad val
  rw [dif_pos h']
  by_cases hv : v.val ≤ n
  · rw [dif_pos hv, dif_pos ⟨by omega, hv⟩]
  · rw [dif_neg hv, dif_neg (by omega)]

theorem walk_weight (lc : Fin n → K) {eps : K} (heps : 0 < eps) {u v l a}
    (h : Walk (costPad lc eps) eps u v l a) : a = (l.tail.map (val lc eps)).sum := by
  induction h with
  | nil => simp
  | @snoc v x l a w hw harc ih =>
    obtain ⟨_, ⟨t, h2⟩, _⟩ := walk_good (costPad_dag lc heps) hw
    have hlt := costPad_dag lc heps _ _ _ harc
    have h1 := harc.1
    rw [costPad_val lc hlt, WithTop.coe_inj] at h1
    rw [h2] at ih ⊢
    rw [ih, ← h1]
    simp

/-- Any increasing list of selectable vertices is a walk from the source. -/
theorem walk_of_sorted (lc : Fin n → K) {eps : K} : ∀ (l : List (Fin (n + 2))),
    (⟨0, by omega⟩ :: l).Pairwise (· < ·) → (∀ x ∈ l, eps ≤ |val lc eps x|) →
    ∃ v, (⟨0, by omega⟩ :: l).getLast? = some v ∧
      Walk (costPad lc eps) eps ⟨0, by omega⟩ v (⟨0, by omega⟩ :: l) ((l.map (val lc eps)).sum) := by
  intro l
  induction l using List.reverseRecOn with
  | nil => intro _ _; exact ⟨_, rfl, .nil⟩
  | append_singleton l x ih =>
    intro hs hv
    rw [← List.cons_append] at hs
    have hs' := List.pairwise_append.1 hs
    obtain ⟨v, h1, h2⟩ := ih hs'.1 (fun y hy => hv y (List.mem_append_left _ hy))
    have hvx : v < x := hs'.2.2 v (List.mem_of_getLast? h1) x (by simp)
    refine ⟨x, by rw [← List.cons_append, List.getLast?_append]; rfl, ?_⟩
    have := h2.snoc (x := x) (w := val lc eps x) ⟨costPad_val lc hvx, hv x (by simp)⟩
    simpa using this

theorem val_vertex (lc : Fin n → K) (eps : K) (j : Fin n) :
    val lc eps ⟨j.val + 1, by omega⟩ = lc j := by
  unfold val
  rw [dif_pos ⟨Nat.succ_le_succ (Nat.zero_le _), j.isLt⟩]
  rfl

theorem val_dst (lc : Fin n → K) (eps : K) : val lc eps ⟨n + 1, by omega⟩ = eps := by
  unfold val
  rw [dif_neg (by simp)]

theorem sum_filter_finRange (f : Fin n → K) (p : Fin n → Bool) :
    (((List.finRange n).filter p).map f).sum = ∑ j, if p j then f j else 0 := by
  rw [← List.sum_ofFn]
  rw [List.ofFn_eq_map]
  generalize List.finRange n = l
  induction l with
  | nil => simp
  | cons a l ih =>
    by_cases h : p a
    · simp [List.filter_cons, h, ih]
    · simp [List.filter_cons, h, ih]

/-- Walk realising a given set. -/
theorem walk_of_set (lc : Fin n → K) (σ : Equiv.Perm (Fin n)) {eps : K} (heps : 0 < eps)
    (hnt : ∀ i, lc i = 0 ∨ eps ≤ |lc i|) (T : Finset (Fin n)) :
    ∃ l, Walk (costPad (fun i => lc (σ i)) eps) eps ⟨0, by omega⟩ ⟨n + 1, by omega⟩ l
      ((∑ i ∈ T, lc i) + eps) := by
  let mid : List (Fin n) := (List.finRange n).filter fun j => decide (σ j ∈ T ∧ lc (σ j) ≠ 0)
  let ver : List (Fin (n + 2)) := mid.map fun j => ⟨j.val + 1, by omega⟩
  have hmid : mid.Pairwise (· < ·) :=
    (List.pairwise_lt_finRange n).sublist List.filter_sublist
  have hsum : ((ver ++ [(⟨n + 1, by omega⟩ : Fin (n + 2))]).map (val (fun i => lc (σ i)) eps)).sum =
      (∑ i ∈ T, lc i) + eps := by
    rw [List.map_append, List.sum_append, List.map_singleton, List.sum_singleton, val_dst]
    congr 1
    have h1 : ver.map (val (fun i => lc (σ i)) eps) = mid.map fun j => lc (σ j) := by
      rw [List.map_map]
      apply List.map_congr_left
      intro j _
      exact val_vertex (fun i => lc (σ i)) eps j
    rw [h1, sum_filter_finRange]
    rw [← Finset.sum_filter_add_sum_filter_not T (fun i => lc i ≠ 0)]
    have h2 : ∑ x ∈ T with ¬ lc x ≠ 0, lc x = 0 := by
      apply Finset.sum_eq_zero
      intro x hx
      rw [Finset.mem_filter] at hx
      simpa using hx.2
    rw [h2, add_zero]
    rw [← Equiv.sum_comp σ.symm]
    simp only [Equiv.apply_symm_apply]
    rw [Finset.sum_filter, ← Finset.sum_filter_add_sum_filter_not Finset.univ (fun i => i ∈ T)]
    rw [Finset.filter_mem_eq_inter, Finset.univ_inter]
    have h3 : ∑ x ∈ Finset.univ with x ∉ T,
        (if decide (x ∈ T ∧ lc x ≠ 0) = true then lc x else 0) = 0 := by
      apply Finset.sum_eq_zero
      intro x hx
      rw [Finset.mem_filter] at hx
      rw [if_neg]
      simp [hx.2]
    rw [h3, add_zero]
    apply Finset.sum_congr rfl
    intro x hx
    simp [hx]
  obtain ⟨v, h1, h2⟩ := walk_of_sorted (fun i => lc (σ i)) (eps := eps)
    (ver ++ [⟨n + 1, by omega⟩]) (by
      rw [List.pairwise_cons]
      constructor
      · intro x hx
        rcases List.mem_append.1 hx with hx | hx
        · obtain ⟨j, _, rfl⟩ := List.mem_map.1 hx
          exact Fin.mk_lt_mk.2 (Nat.succ_pos _)
        · rw [List.mem_singleton] at hx
          subst hx
          exact Fin.mk_lt_mk.2 (Nat.succ_pos _)
      · rw [List.pairwise_append]
        refine ⟨?_, by simp, ?_⟩
        · rw [List.pairwise_map]
          refine hmid.imp ?_
          intro a b hab
          exact Fin.mk_lt_mk.2 (Nat.succ_lt_succ hab)
        · intro x hx y hy
          obtain ⟨j, _, rfl⟩ := List.mem_map.1 hx
          rw [List.mem_singleton] at hy
          subst hy
          exact Fin.mk_lt_mk.2 (Nat.succ_lt_succ j.isLt)) (by
      intro x hx
      rcases List.mem_append.1 hx with hx | hx
      · obtain ⟨j, hj, rfl⟩ := List.mem_map.1 hx
        rw [val_vertex]
        have := (List.mem_filter.1 hj).2
        rw [decide_eq_true_eq] at this
        exact (hnt (σ j)).resolve_left this.2
      · rw [List.mem_singleton] at hx
        subst hx
        rw [val_dst, abs_of_pos heps])
  rw [← List.cons_append, List.getLast?_append] at h1
  simp only [List.getLast?_singleton, Option.some_or, Option.some.injEq] at h1
  subst h1
  rw [hsum] at h2
  exact ⟨_, h2⟩

/-- Vertices strictly between the first and the last one are elements. -/
theorem Good.inner {p : List (Fin (n + 2))} (h : Good (⟨n + 1, by omega⟩ : Fin (n + 2)) p) :
    (∃ a, p = a :: (p.tail.dropLast ++ [⟨n + 1, by omega⟩])) ∧
    ∀ v ∈ p.tail.dropLast, 1 ≤ v.val ∧ v.val ≤ n := by
  obtain ⟨hs, hl, hlast⟩ := h
  match p, hs, hl, hlast with
  | a :: b :: t, hs, hl, hlast =>
    have hd : (b :: t) = (b :: t).dropLast ++ [⟨n + 1, by omega⟩] := by
      have : (b :: t).getLast? = some (⟨n + 1, by omega⟩ : Fin (n + 2)) := by
        rw [← hlast, List.getLast?_cons_cons]
      exact (List.dropLast_append_getLast? _ this).symm
    refine ⟨⟨a, by simpa using hd⟩, ?_⟩
    intro v hv
    simp only [List.tail_cons] at hv
    have h1 : a < v := (List.pairwise_cons.1 hs).1 v (List.mem_of_mem_dropLast hv)
    have h2 : v < ⟨n + 1, by omega⟩ := by
      have hs2 := (List.pairwise_cons.1 hs).2
      rw [hd] at hs2
      exact (List.pairwise_append.1 hs2).2.2 v hv _ (by simp)
    rw [Fin.lt_def] at h1 h2
    simp only at h2
    constructor <;> omega

theorem mapM_eq_map {α β : Type*} (f : α → Option β) (g : α → β) : ∀ (l : List α),
    (∀ a ∈ l, f a = some (g a)) → l.mapM f = some (l.map g)
  | [], _ => rfl
  | a :: l, h => by
    rw [List.mapM_cons, h a List.mem_cons_self,
      mapM_eq_map f g l (fun x hx => h x (List.mem_cons_of_mem _ hx))]
    rfl

/-- Decoding of one vertex. -/
def dec (σ : Equiv.Perm (Fin n)) (d : Fin n) (v : Fin (n + 2)) : Fin n :=
  if h : 1 ≤ v.val ∧ v.val ≤ n then σ ⟨v.val - 1, by omega⟩ else d

theorem decodePath_good (σ : Equiv.Perm (Fin n)) {p : List (Fin (n + 2))}
    (h : Good (⟨n + 1, by omega⟩ : Fin (n + 2)) p) :
    ∃ l, decodePath σ p = some l ∧ l.Nodup ∧
      ∀ (lc : Fin n → K) (eps : K), (l.map lc).sum =
        ((p.tail.dropLast).map (val (fun i => lc (σ i)) eps)).sum := by
  by_cases hn : 0 < n
  · have hin := h.inner.2
    refine ⟨(p.tail.dropLast).map (dec σ ⟨0, hn⟩), ?_, ?_, ?_⟩
    · unfold decodePath
      apply mapM_eq_map
      intro v hv
      unfold dec
      rw [dif_pos (hin v hv), dif_pos (hin v hv)]
    · apply List.Nodup.map_on
      · intro x hx y hy hxy
        unfold dec at hxy
        rw [dif_pos (hin x hx), dif_pos (hin y hy)] at hxy
        have := σ.injective hxy
        have h1 := hin x hx
        have h2 := hin y hy
        simp only [Fin.mk.injEq] at this
        exact Fin.ext (by omega)
      · have : p.Nodup := h.sorted.imp (fun hab => ne_of_lt hab)
        exact (this.sublist (List.tail_sublist _)).sublist (List.dropLast_sublist _)
    · intro lc eps
      rw [List.map_map]
      congr 1
      apply List.map_congr_left
      intro v hv
      simp only [Function.comp, dec, val]
      rw [dif_pos (hin v hv), dif_pos (hin v hv)]
  · have : p.tail.dropLast = [] := by
      rw [List.eq_nil_iff_forall_not_mem]
      intro v hv
      have := h.inner.2 v hv
      omega
    refine ⟨[], ?_, by simp, ?_⟩
    · unfold decodePath
      rw [this]
      rfl
    · intro lc eps
      rw [this]
      rfl

theorem mapM_exists {α β : Type*} (f : α → Option β) (Q : α → β → Prop) : ∀ (l : List α),
    (∀ a ∈ l, ∃ b, f a = some b ∧ Q a b) → ∃ r, l.mapM f = some r ∧ List.Forall₂ Q l r
  | [], _ => ⟨[], rfl, .nil⟩
  | a :: l, h => by
    obtain ⟨b, hb, hq⟩ := h a List.mem_cons_self
    obtain ⟨r, hr, hq'⟩ := mapM_exists f Q l (fun x hx => h x (List.mem_cons_of_mem _ hx))
    exact ⟨b :: r, by simp [List.mapM_cons, hb, hr], .cons hq hq'⟩

/-- Main theorem about `kShortest`. -/
theorem kShortest_spec (lc : Fin n → K) (σ : Equiv.Perm (Fin n)) {eps : K} (heps : 0 < eps)
    (hnt : ∀ i, lc i = 0 ∨ eps ≤ |lc i|) (k : ℕ) (hk : 0 < k) :
    ∃ p c rest, kShortest lc σ eps k = .ok ((p, c) :: rest) ∧
      rest.length < k ∧
      (∀ q ∈ (p, c) :: rest, q.1.Nodup ∧ q.2 ≠ ⊤) ∧
      c = (((p.map lc).sum + eps : K) : WithTop K) ∧
      ∀ T : Finset (Fin n), c ≤ (((∑ i ∈ T, lc i) + eps : K) : WithTop K) := by
  have hdag := costPad_dag (fun i => lc (σ i)) heps
  have hntp := costPad_noTiny (fun i => lc (σ i)) heps (fun i => hnt (σ i))
  obtain ⟨dist, path, pred, hb, hcase⟩ := bfm_spec (G := costPad (fun i => lc (σ i)) eps)
    (eps := eps) (by omega) (by rw [tiny_iff heps]; simpa using hntp) ⟨0, by omega⟩
    ⟨n + 1, by omega⟩ (hdag.noNeg _) (n + 2) (le_refl _)
  rcases hcase with ⟨_, _, h3⟩ | ⟨d, h1, hw, _, hmin⟩
  · obtain ⟨l, hl⟩ := walk_of_set lc σ heps hnt ∅
    exact absurd hl (h3 _ _)
  · subst h1
    obtain ⟨g1, ⟨t, g2⟩, g3, _, _⟩ := walk_good hdag hw
    have hgood : Good (⟨n + 1, by omega⟩ : Fin (n + 2)) path := by
      refine ⟨g1, ?_, g3⟩
      rw [g2]
      cases t with
      | nil =>
        rw [g2] at g3
        simp at g3
      | cons b t => simp
    subst g2
    let st0 : YSt K (n + 2) :=
      { P := [((⟨0, by omega⟩ : Fin (n + 2)) :: t, (d : WithTop K))], S := [⟨0, by omega⟩]
        X := [(0, (d : WithTop K))], out := [((⟨0, by omega⟩ : Fin (n + 2)) :: t, (d : WithTop K))]
        cur := 0 }
    have hinv : KInv (⟨n + 1, by omega⟩ : Fin (n + 2)) st0 := by
      constructor
      · intro pc hpc
        simp only [st0, List.mem_singleton] at hpc
        subst hpc
        exact hgood
      · intro pc hpc
        simp only [st0, List.mem_singleton] at hpc
        subst hpc
        exact hgood
      · rfl
      · intro i pc w h1 h2
        cases i with
        | zero =>
          simp only [st0, List.getElem?_cons_zero, Option.some.injEq] at h1 h2
          rw [← h1, ← h2]
          simp
        | succ i => simp [st0] at h1
      · intro e he
        simp only [st0, List.mem_singleton] at he
        subst he
        simp [st0]
      · intro pc hpc
        simp only [st0, List.mem_singleton] at hpc
        subst hpc
        exact WithTop.coe_ne_top
      · intro pc hpc
        simp only [st0, List.mem_singleton] at hpc
        subst hpc
        exact WithTop.coe_ne_top
    obtain ⟨st, k1, k2, ⟨t', k3⟩, k4, _⟩ := yenLoop_ok (by omega) heps hdag hntp
      (fun u v => by unfold costPad; split <;> [split <;> exact WithTop.coe_ne_top; simp]) k k st0 hinv
      (by simp [st0]) (by simp [st0]; omega)
    obtain ⟨r, hr, hq⟩ := mapM_exists
      (fun pc : List (Fin (n + 2)) × WithTop K => (decodePath σ pc.1).map fun l => (l, pc.2))
      (fun pc q => q.2 = pc.2 ∧ (q.1.Nodup ∧ q.2 ≠ ⊤) ∧
        ∀ (lc : Fin n → K) (eps : K), (q.1.map lc).sum =
          ((pc.1.tail.dropLast).map (val (fun i => lc (σ i)) eps)).sum) st.out (by
        intro pc hpc
        obtain ⟨l, h1, h2, h3⟩ := decodePath_good (K := K) σ (k2.goodOut pc hpc)
        exact ⟨(l, pc.2), by rw [h1]; rfl, rfl, ⟨h2, k2.finOut pc hpc⟩, h3⟩)
    have hrun : kShortest lc σ eps k = .ok r := by
      unfold kShortest kHelper
      rw [if_neg (by omega), hb]
      simp only
      rw [show yenLoop (costPad (fun i => lc (σ i)) eps) eps ⟨n + 1, by omega⟩ k k
        { P := [((⟨0, by omega⟩ : Fin (n + 2)) :: t, (d : WithTop K))], S := [⟨0, by omega⟩]
          X := [(0, (d : WithTop K))]
          out := [((⟨0, by omega⟩ : Fin (n + 2)) :: t, (d : WithTop K))], cur := 0 } = .ok st from k1]
      simp only
      rw [hr]
    rw [k3] at hq
    simp only [st0, List.singleton_append] at hq
    cases hq with
    | @cons _ q0 _ rest hq0 hrest =>
      obtain ⟨e1, e2, e3⟩ := hq0
      obtain ⟨p, c⟩ := q0
      simp only at e1 e2 e3
      refine ⟨p, c, rest, hrun, ?_, ?_, ?_, ?_⟩
      · have h1 := hrest.length_eq
        rw [k3] at k4
        simp only [st0, List.singleton_append, List.length_cons] at k4
        omega
      · intro q hqm
        rcases List.mem_cons.1 hqm with rfl | hqm
        · exact e2
        · obtain ⟨i, hi, rfl⟩ := List.mem_iff_getElem.1 hqm
          have := List.forall₂_iff_get.1 hrest
          have h2 := this.2 i (by rw [this.1]; exact hi) hi
          exact h2.2.1
      · rw [e1, WithTop.coe_inj, walk_weight _ heps hw, e3 lc eps]
        obtain ⟨⟨a, ha⟩, _⟩ := hgood.inner
        have : t = ((⟨0, by omega⟩ : Fin (n + 2)) :: t).tail.dropLast ++ [⟨n + 1, by omega⟩] := by
          have := congrArg List.tail ha
          simpa using this
        simp only [List.tail_cons] at this ⊢
        conv_lhs => rw [this]
        rw [List.map_append, List.sum_append, List.map_singleton, List.sum_singleton, val_dst]
      · intro T
        obtain ⟨l, hl⟩ := walk_of_set lc σ heps hnt T
        rw [e1, WithTop.coe_le_coe]
        exact hmin _ _ hl

/-- Whatever the costs: if `kShortest` succeeds then its paths have distinct elements, finite costs and
there are at most `k` of them (and at least one if `k > 0`). -/
theorem kShortest_ok (lc : Fin n → K) (σ : Equiv.Perm (Fin n)) {eps : K} (heps : 0 < eps) (k : ℕ)
    {out} (h : kShortest lc σ eps k = .ok out) :
    out.length ≤ k ∧ (0 < k → out ≠ []) ∧ ∀ q ∈ out, q.1.Nodup ∧ q.2 ≠ ⊤ := by
  rcases Nat.eq_zero_or_pos k with rfl | hk
  · simp only [kShortest, if_true, Except.ok.injEq] at h
    subst h
    simp
  · by_cases hnt : ∀ i, lc i = 0 ∨ eps ≤ |lc i|
    · obtain ⟨p, c, rest, h1, h2, h3, _⟩ := kShortest_spec lc σ heps hnt k hk
      rw [h1] at h
      simp only [Except.ok.injEq] at h
      subst h
      exact ⟨by simp; omega, by simp, h3⟩
    · exfalso
      push Not at hnt
      obtain ⟨i, hi0, hi⟩ := hnt
      have htiny : ¬ NoTiny (costPad (fun i => lc (σ i)) eps) eps := by
        intro hcon
        have := hcon ⟨0, by omega⟩ ⟨(σ.symm i).val + 1, by omega⟩ (lc i) (by
          unfold costPad
          rw [dif_pos (by simp), dif_pos (by simp; omega)]
          simp)
        rcases this with h' | h'
        · exact hi0 h'
        · exact absurd hi (not_lt.2 h')
      have hcount : (arcs (costPad (fun i => lc (σ i)) eps) eps).length <
          countNonzero (costPad (fun i => lc (σ i)) eps) := by
        by_contra hc
        exact htiny (by
          have := (tiny_iff (G := costPad (fun i => lc (σ i)) eps) heps).not
          simpa using this.1 hc)
      unfold kShortest kHelper bfm bfmHelper at h
      rw [if_neg (by omega), if_neg (by omega), if_pos hcount] at h
      simp at h

end Gasur.KShortest
