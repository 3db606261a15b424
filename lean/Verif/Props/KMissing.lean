import Verif.Props.KShortest
import Mathlib.Algebra.Order.BigOperators.Group.Finset

/-!
# Property C08, continued: how wrong a reported row can be

Every row of `k_shortest`, for every `k`, is a subset with at most one element missing: there is a set `T` of at most one element
more whose cost is the reported one.
-/

set_option linter.unusedSectionVars false

namespace Gasur.Props

open Gasur.KShortest Gasur.Bfm Gasur.Spec

variable {K : Type*} [CommRing K] [LinearOrder K] [IsStrictOrderedRing K] {n : ℕ}

namespace KMissing

/-- The cost of a reported path is that of a path with at most one vertex more (first vertices not counted). -/
def Near (lc : Fin n → K) (eps : K) (pc : List (Fin (n + 2)) × WithTop K) : Prop :=
  ∃ q : List (Fin (n + 2)), Good (⟨n + 1, by omega⟩ : Fin (n + 2)) q ∧ pc.1.tail.Sublist q.tail ∧
    q.tail.length ≤ pc.1.tail.length + 1 ∧ pc.2 = (((q.tail.map (val lc eps)).sum : K) : WithTop K)

theorem pathCost_val (lc : Fin n → K) {eps : K} : ∀ (l : List (Fin (n + 2))), l.Pairwise (· < ·) →
    pathCost (costPad lc eps) l = (((l.tail.map (val lc eps)).sum : K) : WithTop K)
  | [], _ => by simp [pathCost]
  | [a], _ => by simp [pathCost]
  | a :: b :: l, h => by
    unfold pathCost
    rw [pathCost_val lc (b :: l) (List.pairwise_cons.1 h).2,
      costPad_val lc ((List.pairwise_cons.1 h).1 b List.mem_cons_self)]
    simp

/-- A walk in the matrix without some arcs is a walk of the same cost. -/
theorem walk_temp {N : ℕ} {G : Fin N → Fin N → WithTop K} {eps : K} {rem : List (Fin N)} {v' : Fin N} {nxts : List (Fin N)}
    {u v l a} (h : Walk (tempMat G rem v' nxts) eps u v l a) : Walk G eps u v l a := by
  induction h with
  | nil => exact .nil
  | @snoc v x l a w hw harc ih =>
    refine .snoc ih ⟨?_, harc.2⟩
    have h1 := harc.1
    unfold tempMat at h1
    split at h1
    · simp at h1
    · split at h1
      · simp at h1
      · exact h1

theorem deviate_near (lc : Fin n → K) {eps : K} (heps : 0 < eps) (hnt : NoTiny (costPad lc eps) eps)
    {path : List (Fin (n + 2))} (hp : Good (⟨n + 1, by omega⟩ : Fin (n + 2)) path) {st st' : YSt K (n + 2)}
    {ind : ℕ} (hi : ind + 1 < path.length)
    (h : deviate (costPad lc eps) eps ⟨n + 1, by omega⟩ path st ind = .ok st')
    (hP : ∀ pc ∈ st.P, Near lc eps pc) : ∀ pc ∈ st'.P, Near lc eps pc := by
  have hd := costPad_dag lc heps
  have hpi : path[ind]? = some path[ind] := List.getElem?_eq_getElem (by omega)
  have hlt := hp.lt_dst hpi hi
  unfold deviate at h
  rw [hpi] at h
  simp only at h
  split at h
  · exact (nomatch h)
  rename_i nxts hnx
  obtain ⟨dist, dev, pred, hb, hcase⟩ := bfm_spec (G := tempMat (costPad lc eps) (path.take (ind - 1)) path[ind] nxts)
    (eps := eps) (by omega) (by rw [tiny_iff heps]; simpa using NoTiny.temp hnt _ _ _) path[ind] ⟨n + 1, by omega⟩
    ((hd.temp _ _ _).noNeg _) (n + 2) (le_refl _)
  rw [hb] at h
  simp only at h
  rcases hcase with ⟨_, h2, _⟩ | ⟨d, h1, hw, _, _⟩
  · rw [if_pos h2] at h
    obtain rfl := Except.ok.inj h
    exact hP
  · obtain ⟨g1, ⟨t, g2⟩, g3, g4, _⟩ := walk_good (hd.temp _ _ _) hw
    rw [if_neg (by rw [g2]; simp)] at h
    obtain rfl := Except.ok.inj h
    intro pc hpc
    rcases List.mem_append.1 hpc with hpc | hpc
    · exact hP pc hpc
    rw [List.mem_singleton] at hpc
    subst hpc
    have hdevlen : 2 ≤ dev.length := by
      rw [g2]
      cases t with
      | nil =>
        rw [g2] at g3
        simp only [List.getLast?_singleton, Option.some.injEq] at g3
        rw [g3] at hlt
        exact absurd hlt (lt_irrefl _)
      | cons b t => simp
    have hwt := walk_weight lc heps (walk_temp hw)
    have htk : (path.take (ind + 1)).take ((path.take (ind + 1)).length - 2) = path.take (ind - 1) := by
      rw [List.take_take]
      congr 1
      rw [List.length_take]
      omega
    have hts : path.take (ind + 1) = path.take ind ++ [path[ind]] := by
      rw [List.take_succ_eq_append_getElem (by omega)]
    refine ⟨path.take ind ++ dev, ⟨?_, by rw [List.length_append]; omega, by rw [List.getLast?_append, g3]; rfl⟩, ?_, ?_, ?_⟩
    · rw [List.pairwise_append]
      refine ⟨hp.sorted.sublist (List.take_sublist _ _), g1, ?_⟩
      intro x hx y hy
      have hxlt : x < path[ind] := by
        obtain ⟨i, hi', rfl⟩ := List.mem_iff_getElem.1 hx
        rw [List.getElem_take]
        rw [List.length_take] at hi'
        exact List.pairwise_iff_getElem.1 hp.sorted i ind (by omega) (by omega) (by omega)
      rw [g2] at hy g1
      rcases List.mem_cons.1 hy with rfl | hy
      · exact hxlt
      · exact hxlt.trans ((List.pairwise_cons.1 g1).1 y hy)
    · simp only [joinDev]
      rw [htk]
      exact List.Sublist.tail ((List.take_sublist_take_left (by omega)).append (List.Sublist.refl _))
    · simp only [joinDev, List.length_tail]
      rw [htk, List.length_append, List.length_append, List.length_take, List.length_take]
      omega
    · simp only
      rw [pathCost_val lc _ (hp.sorted.sublist (List.take_sublist _ _)), h1, ← WithTop.coe_add, WithTop.coe_inj, hwt, hts]
      rcases Nat.eq_zero_or_pos ind with rfl | hpos
      · simp
      · have hne : path.take ind ≠ [] := by
          intro h0
          have := congrArg List.length h0
          rw [List.length_take, List.length_nil] at this
          omega
        obtain ⟨b, r, hbr⟩ := List.exists_cons_of_ne_nil hne
        rw [hbr, g2]
        simp [add_assoc]

theorem foldDev_near (lc : Fin n → K) {eps : K} (heps : 0 < eps) (hnt : NoTiny (costPad lc eps) eps)
    {path : List (Fin (n + 2))} (hp : Good (⟨n + 1, by omega⟩ : Fin (n + 2)) path) :
    ∀ (is : List ℕ) (st st' : YSt K (n + 2)), (∀ i ∈ is, i + 1 < path.length) →
    is.foldlM (deviate (costPad lc eps) eps ⟨n + 1, by omega⟩ path) st = .ok st' →
    (∀ pc ∈ st.P, Near lc eps pc) → ∀ pc ∈ st'.P, Near lc eps pc
  | [], st, st', _, h, hP => by
    obtain rfl := Except.ok.inj h
    exact hP
  | i :: is, st, st', hi, h, hP => by
    rw [List.foldlM_cons] at h
    cases h1 : deviate (costPad lc eps) eps ⟨n + 1, by omega⟩ path st i with
    | error e => rw [h1] at h; exact (nomatch h)
    | ok st1 =>
      rw [h1] at h
      exact foldDev_near lc heps hnt hp is st1 st' (fun j hj => hi j (List.mem_cons_of_mem _ hj)) h
        (deviate_near lc heps hnt hp (hi i List.mem_cons_self) h1 hP)

theorem yenStep_near (lc : Fin n → K) {eps : K} (heps : 0 < eps) (hnt : NoTiny (costPad lc eps) eps)
    {st st' : YSt K (n + 2)} (hst : KInv (⟨n + 1, by omega⟩ : Fin (n + 2)) st)
    (h : yenStep (costPad lc eps) eps ⟨n + 1, by omega⟩ st = .ok st')
    (hP : ∀ pc ∈ st.P, Near lc eps pc) (hO : ∀ pc ∈ st.out, Near lc eps pc) :
    (∀ pc ∈ st'.P, Near lc eps pc) ∧ ∀ pc ∈ st'.out, Near lc eps pc := by
  have hd := costPad_dag lc heps
  have hfin : ∀ u v, costPad lc eps u v ≠ ⊤ := fun u v => by
    unfold costPad; split <;> [split <;> exact WithTop.coe_ne_top; simp]
  unfold yenStep at h
  split at h
  · rename_i path c w hpc hw
    have hp : Good (⟨n + 1, by omega⟩ : Fin (n + 2)) path := hst.good (path, c) (List.mem_of_getElem? hpc)
    split at h
    · exact (nomatch h)
    rename_i wi hwi
    have hinv0 : KInv (⟨n + 1, by omega⟩ : Fin (n + 2)) { st with X := st.X.eraseP fun x => x.1 == st.cur } :=
      ⟨hst.good, hst.goodOut, hst.lenS, hst.mem, fun e he => hst.x e (List.mem_of_mem_eraseP he), hst.fin, hst.finOut⟩
    have hix : ∀ i ∈ (List.range (path.length - 1)).drop wi, i + 1 < path.length := by
      intro i hi
      have := List.mem_range.1 (List.mem_of_mem_drop hi)
      omega
    split at h
    · exact (nomatch h)
    rename_i st1 h1
    have hP1 := foldDev_near lc heps hnt hp _ _ _ hix h1 hP
    obtain ⟨s, k1, _, k3, _⟩ := foldDev_ok (by omega) heps hd hnt hfin hp _ _ hix hinv0
    obtain rfl := Except.ok.inj (k1.symm.trans h1)
    split at h
    · obtain rfl := Except.ok.inj h
      exact ⟨hP1, by rw [k3]; exact hO⟩
    · split at h
      · exact (nomatch h)
      · rename_i pc hx
        obtain rfl := Except.ok.inj h
        refine ⟨hP1, ?_⟩
        intro pc' hpc'
        rcases List.mem_append.1 hpc' with hpc' | hpc'
        · rw [k3] at hpc'
          exact hO pc' hpc'
        · rw [List.mem_singleton] at hpc'
          subst hpc'
          exact hP1 _ (List.mem_of_getElem? hx)
  · exact (nomatch h)

theorem yenLoop_near (lc : Fin n → K) {eps : K} (heps : 0 < eps) (hnt : NoTiny (costPad lc eps) eps) (k : ℕ) :
    ∀ (fuel : ℕ) {st st' : YSt K (n + 2)}, KInv (⟨n + 1, by omega⟩ : Fin (n + 2)) st → st.cur < st.P.length →
    yenLoop (costPad lc eps) eps ⟨n + 1, by omega⟩ k fuel st = .ok st' →
    (∀ pc ∈ st.P, Near lc eps pc) → (∀ pc ∈ st.out, Near lc eps pc) →
    KInv (⟨n + 1, by omega⟩ : Fin (n + 2)) st' ∧ ∀ pc ∈ st'.out, Near lc eps pc
  | 0, st, st', hst, _, h, _, hO => by
    obtain rfl := Except.ok.inj h
    exact ⟨hst, hO⟩
  | fuel + 1, st, st', hst, hcur, h, hP, hO => by
    unfold yenLoop at h
    split at h
    · obtain ⟨st1, h1, h2, h3, _⟩ := yenStep_ok (by omega) heps (costPad_dag lc heps) hnt (fun u v => by
        unfold costPad; split <;> [split <;> exact WithTop.coe_ne_top; simp]) hst hcur
      rw [h1] at h
      simp only at h
      obtain ⟨hP1, hO1⟩ := yenStep_near lc heps hnt hst h1 hP hO
      exact yenLoop_near lc heps hnt k fuel h2 h3 h hP1 hO1
    · obtain rfl := Except.ok.inj h
      exact ⟨hst, hO⟩

theorem mapM_sublist {α β : Type*} (f : α → Option β) {l l' : List α} (h : l.Sublist l') :
    ∀ {a b : List β}, l.mapM f = some a → l'.mapM f = some b → a.Sublist b := by
  induction h with
  | slnil =>
    intro a b ha hb
    rw [← Option.some.inj (ha.symm.trans hb)]
  | @cons l l' x _ ih =>
    intro a b ha hb
    rw [List.mapM_cons] at hb
    cases hx : f x with
    | none => rw [hx] at hb; exact (nomatch hb)
    | some y =>
      cases hr : l'.mapM f with
      | none => rw [hx, hr] at hb; exact (nomatch hb)
      | some r =>
        rw [hx, hr] at hb
        obtain rfl := Option.some.inj hb
        exact (ih ha hr).cons _
  | @cons_cons l l' x _ ih =>
    intro a b ha hb
    rw [List.mapM_cons] at ha hb
    cases hx : f x with
    | none => rw [hx] at hb; exact (nomatch hb)
    | some y =>
      cases hr : l'.mapM f with
      | none => rw [hx, hr] at hb; exact (nomatch hb)
      | some r =>
        cases hr' : l.mapM f with
        | none => rw [hx, hr'] at ha; exact (nomatch ha)
        | some r' =>
          rw [hx, hr] at hb
          rw [hx, hr'] at ha
          obtain rfl := Option.some.inj hb
          obtain rfl := Option.some.inj ha
          exact (ih hr' hr).cons_cons _

theorem mapM_length {α β : Type*} (f : α → Option β) : ∀ {l : List α} {a : List β}, l.mapM f = some a → a.length = l.length
  | [], a, h => by
    obtain rfl := Option.some.inj h
    rfl
  | x :: l, a, h => by
    rw [List.mapM_cons] at h
    cases hx : f x with
    | none => rw [hx] at h; exact (nomatch h)
    | some y =>
      cases hr : l.mapM f with
      | none => rw [hx, hr] at h; exact (nomatch h)
      | some r =>
        rw [hx, hr] at h
        obtain rfl := Option.some.inj h
        simp [mapM_length f hr]

theorem kShortest_near (lc : Fin n → K) (σ : Equiv.Perm (Fin n)) {eps : K} (heps : 0 < eps)
    (hnt : ∀ i, lc i = 0 ∨ eps ≤ |lc i|) (k : ℕ) {out : List (List (Fin n) × WithTop K)}
    (h : kShortest lc σ eps k = .ok out) :
    ∀ r ∈ out, ∃ T : List (Fin n), T.Nodup ∧ r.1.Sublist T ∧ T.length ≤ r.1.length + 1 ∧
      r.2 = (((T.map lc).sum + eps : K) : WithTop K) := by
  have hdag := costPad_dag (fun i => lc (σ i)) heps
  have hntp := costPad_noTiny (fun i => lc (σ i)) heps (fun i => hnt (σ i))
  unfold kShortest kHelper at h
  split at h
  · obtain rfl := Except.ok.inj h
    simp
  obtain ⟨dist, path, pred, hb, hcase⟩ := bfm_spec (G := costPad (fun i => lc (σ i)) eps)
    (eps := eps) (by omega) (by rw [tiny_iff heps]; simpa using hntp) ⟨0, by omega⟩
    ⟨n + 1, by omega⟩ (hdag.noNeg _) (n + 2) (le_refl _)
  rw [hb] at h
  simp only at h
  rcases hcase with ⟨_, _, h3⟩ | ⟨d, h1, hw, _, _⟩
  · obtain ⟨l, hl⟩ := walk_of_set lc σ heps hnt ∅
    exact absurd hl (h3 _ _)
  subst h1
  obtain ⟨g1, ⟨t, g2⟩, g3, _, _⟩ := walk_good hdag hw
  have hgood : Good (⟨n + 1, by omega⟩ : Fin (n + 2)) path := by
    refine ⟨g1, ?_, g3⟩
    rw [g2]
    cases t with
    | nil =>
      rw [g2] at g3
      simp at g3
    | cons b t => simp
  subst g2
  simp only at h
  have hN0 : Near (fun i => lc (σ i)) eps ((⟨0, by omega⟩ : Fin (n + 2)) :: t, (d : WithTop K)) :=
    ⟨_, hgood, List.Sublist.refl _, Nat.le_succ _, by rw [WithTop.coe_inj]; exact walk_weight _ heps hw⟩
  split at h
  · exact (nomatch h)
  rename_i out' hout
  split at hout
  · exact (nomatch hout)
  rename_i st hst
  obtain rfl := Except.ok.inj hout
  obtain ⟨hK, hO⟩ := yenLoop_near (fun i => lc (σ i)) heps hntp k k (by
      constructor
      · intro pc hpc
        simp only [List.mem_singleton] at hpc
        subst hpc
        exact hgood
      · intro pc hpc
        simp only [List.mem_singleton] at hpc
        subst hpc
        exact hgood
      · rfl
      · intro i pc w h1 h2
        cases i with
        | zero =>
          simp only [List.getElem?_cons_zero, Option.some.injEq] at h1 h2
          rw [← h1, ← h2]
          simp
        | succ i => simp at h1
      · intro e he
        simp only [List.mem_singleton] at he
        subst he
        simp
      · intro pc hpc
        simp only [List.mem_singleton] at hpc
        subst hpc
        exact WithTop.coe_ne_top
      · intro pc hpc
        simp only [List.mem_singleton] at hpc
        subst hpc
        exact WithTop.coe_ne_top) (by simp) hst
    (by intro pc hpc; simp only [List.mem_singleton] at hpc; subst hpc; exact hN0)
    (by intro pc hpc; simp only [List.mem_singleton] at hpc; subst hpc; exact hN0)
  obtain ⟨r', hr, hq⟩ := mapM_exists
    (fun pc : List (Fin (n + 2)) × WithTop K => (decodePath σ pc.1).map fun l => (l, pc.2))
    (fun pc q => ∃ T : List (Fin n), T.Nodup ∧ q.1.Sublist T ∧ T.length ≤ q.1.length + 1 ∧
      q.2 = (((T.map lc).sum + eps : K) : WithTop K)) st.out (by
      intro pc hpc
      obtain ⟨l, h1, h2, h3⟩ := decodePath_good (K := K) σ (hK.goodOut pc hpc)
      obtain ⟨q, n1, n2, n3, n4⟩ := hO pc hpc
      obtain ⟨T, t1, t2, t3⟩ := decodePath_good (K := K) σ n1
      refine ⟨(l, pc.2), by rw [h1]; rfl, T, t2, ?_, ?_, ?_⟩
      · refine mapM_sublist _ ?_ h1 t1
        obtain ⟨⟨a, e1⟩, _⟩ := (hK.goodOut pc hpc).inner
        obtain ⟨⟨b, e2⟩, _⟩ := n1.inner
        have e1' := congrArg List.tail e1
        have e2' := congrArg List.tail e2
        rw [List.tail_cons] at e1' e2'
        rw [e1', e2'] at n2
        exact List.append_sublist_append_right _ |>.1 n2
      · have l1 := mapM_length _ h1
        have l2 := mapM_length _ t1
        have := (hK.goodOut pc hpc).len
        have := n1.len
        simp only [List.length_dropLast, List.length_tail] at l1 l2 n3
        simp only
        omega
      · simp only
        obtain ⟨⟨b, e2⟩, _⟩ := n1.inner
        have e2' := congrArg List.tail e2
        rw [List.tail_cons] at e2'
        rw [n4, WithTop.coe_inj, t3 lc eps]
        conv_lhs => rw [e2']
        rw [List.map_append, List.sum_append, List.map_singleton, List.sum_singleton, val_dst])
  rw [hr] at h
  obtain rfl := Except.ok.inj h
  intro r hrm
  obtain ⟨i, hi, rfl⟩ := List.mem_iff_getElem.1 hrm
  have := List.forall₂_iff_get.1 hq
  exact this.2 i (by rw [this.1]; exact hi) hi

end KMissing

/-- **C08, every row.** For every `k`, every row that `k_shortest` returns is the row of a subset `T` with at most one element
missing: the reported cost is the cost of `T` (plus `eps`, as for every row), the reported elements are in `T`, and `T` has at
most one element more. *Missing:* that nothing is missing, and which subsets are returned (both false, see `C08_refuted`). -/
theorem C08_one_missing_partial (lc : Fin n → K) (σ : Equiv.Perm (Fin n)) {eps : K} (heps : 0 < eps)
    (hnt : ∀ i, lc i = 0 ∨ eps ≤ |lc i|) (k : ℕ) {out : List (List (Fin n) × WithTop K)}
    (h : kShortest lc σ eps k = .ok out) :
    ∀ r ∈ out, ∃ T : Finset (Fin n), r.1.toFinset ⊆ T ∧ T.card ≤ r.1.toFinset.card + 1 ∧
      r.2 = ((subsetCost lc T + eps : K) : WithTop K) := by
  intro r hr
  obtain ⟨T, t1, t2, t3, t4⟩ := KMissing.kShortest_near lc σ heps hnt k h r hr
  refine ⟨T.toFinset, ?_, ?_, ?_⟩
  · intro x hx
    rw [List.mem_toFinset] at hx ⊢
    exact t2.subset hx
  · rw [List.toFinset_card_of_nodup t1, List.toFinset_card_of_nodup (t1.sublist t2)]
    exact t3
  · rw [t4]
    unfold subsetCost
    rw [List.sum_toFinset lc t1]

/-- **C08, no row is cheaper than it should be.** With non-negative costs the reported cost of every row is at least the cost of
the reported subset. -/
theorem C08_never_too_cheap_partial (lc : Fin n → K) (σ : Equiv.Perm (Fin n)) {eps : K} (heps : 0 < eps)
    (hlc : ∀ i, lc i = 0 ∨ eps ≤ lc i) (k : ℕ) {out : List (List (Fin n) × WithTop K)}
    (h : kShortest lc σ eps k = .ok out) :
    ∀ r ∈ out, ((subsetCost lc r.1.toFinset + eps : K) : WithTop K) ≤ r.2 := by
  intro r hr
  obtain ⟨T, t1, _, t3⟩ := C08_one_missing_partial lc σ heps
    (fun i => (hlc i).imp id fun h => h.trans (le_abs_self _)) k h r hr
  rw [t3, WithTop.coe_le_coe]
  refine add_le_add_left (Finset.sum_le_sum_of_subset_of_nonneg t1 ?_) eps
  intro i _ _
  rcases hlc i with h | h
  · exact h.ge
  · exact heps.le.trans h

/-- What `k_shortest([-1, -2, -4], 12)` returns: 11 rows, although there are only 8 subsets. -/
theorem C08_witness_all :
    (kShortest (n := 3) (K := ℤ) (fun i => if i = 0 then -1 else if i = 1 then -2 else -4) (Equiv.refl _) 1 12).toOption =
      some [([0, 1, 2], ((-6 : ℤ) : WithTop ℤ)), ([1, 2], ((-5 : ℤ) : WithTop ℤ)), ([2], ((-4 : ℤ) : WithTop ℤ)),
        ([1, 2], ((-5 : ℤ) : WithTop ℤ)), ([2], ((-3 : ℤ) : WithTop ℤ)), ([1], ((-2 : ℤ) : WithTop ℤ)),
        ([], ((-1 : ℤ) : WithTop ℤ)), ([2], ((-3 : ℤ) : WithTop ℤ)), ([], ((-1 : ℤ) : WithTop ℤ)),
        ([], ((1 : ℤ) : WithTop ℤ)), ([], ((1 : ℤ) : WithTop ℤ))] := by
  decide +kernel

/-- **C08 is false of this code even if all subsets are asked for**: with `k = 12` for three elements the search ends by itself
after 11 rows, and three of the eight subsets have not been returned. -/
theorem C08_refuted_incomplete : ∃ out : List (List (Fin 3) × WithTop ℤ),
    kShortest (n := 3) (K := ℤ) (fun i => if i = 0 then -1 else if i = 1 then -2 else -4) (Equiv.refl _) 1 12 = .ok out ∧
    2 ^ 3 < out.length ∧ out.length < 12 ∧
    ({0} : Finset (Fin 3)) ∉ out.map (fun p => p.1.toFinset) ∧ ({0, 1} : Finset (Fin 3)) ∉ out.map (fun p => p.1.toFinset) ∧
    ({0, 2} : Finset (Fin 3)) ∉ out.map (fun p => p.1.toFinset) := by
  have hw := C08_witness_all
  cases hk : kShortest (n := 3) (K := ℤ) (fun i => if i = 0 then -1 else if i = 1 then -2 else -4) (Equiv.refl _) 1 12 with
  | error e => rw [hk] at hw; simp [Except.toOption] at hw
  | ok o =>
    rw [hk] at hw
    simp only [Except.toOption, Option.some.injEq] at hw
    refine ⟨o, rfl, ?_⟩
    rw [hw]
    decide +kernel

/-- The hypotheses of the theorems above hold for these costs (and the third row `[2]`, reported with -4, belongs to
`T = {0, 2}`), and for the non-negative costs of `C08_witness`. -/
example : (∀ i : Fin 3, (fun i : Fin 3 => if i = 0 then (-1 : ℤ) else if i = 1 then -2 else -4) i = 0 ∨
      1 ≤ |(fun i : Fin 3 => if i = 0 then (-1 : ℤ) else if i = 1 then -2 else -4) i|) ∧
    subsetCost (fun i : Fin 3 => if i = 0 then (-1 : ℤ) else if i = 1 then -2 else -4) {0, 2} + 1 = -4 ∧
    ∀ i : Fin 2, (if i = 0 then (20 : ℤ) else 10) = 0 ∨ 1 ≤ (if i = 0 then (20 : ℤ) else 10) := by
  decide

end Gasur.Props
