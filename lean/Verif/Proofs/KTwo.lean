import Verif.Props.KShortest
import Mathlib.Algebra.Order.BigOperators.Group.Finset
import Mathlib.Tactic.Linarith

/-! The first two paths of `k_shortest`. -/

set_option linter.unusedSectionVars false
set_option linter.unusedSimpArgs false

namespace Gasur.KShortest

open Gasur.Bfm Gasur.Spec Gasur.Props

variable {K : Type*} [CommRing K] [LinearOrder K] [IsStrictOrderedRing K] {N : ℕ}

theorem walk_last {G : Fin N → Fin N → WithTop K} {eps : K} {u v l a} (h : Walk G eps u v l a) :
    l.getLast? = some v := by
  cases h <;> simp

theorem walk_head {G : Fin N → Fin N → WithTop K} {eps : K} {u v l a} (h : Walk G eps u v l a) :
    ∃ t, l = u :: t := by
  induction h with
  | nil => exact ⟨[], rfl⟩
  | snoc _ _ ih => obtain ⟨t, rfl⟩ := ih; exact ⟨_, rfl⟩

theorem walk_temp_sub {G : Fin N → Fin N → WithTop K} {eps : K} {rem v' nxts u v l a}
    (h : Walk (tempMat G rem v' nxts) eps u v l a) : Walk G eps u v l a := by
  induction h with
  | nil => exact .nil
  | snoc _ harc ih =>
    refine ih.snoc ⟨?_, harc.2⟩
    have h1 := harc.1
    unfold tempMat at h1
    split at h1
    · simp at h1
    · split at h1
      · simp at h1
      · exact h1

theorem walk_temp_first {G : Fin N → Fin N → WithTop K} {eps : K} {rem nxts u v l a}
    (h : Walk (tempMat G rem u nxts) eps u v l a) : ∀ x t, l = u :: x :: t → x ∉ nxts := by
  induction h with
  | nil => intro x t ht; simp at ht
  | @snoc v y l a w hw harc ih =>
    intro x t ht
    obtain ⟨t', rfl⟩ := walk_head hw
    cases t' with
    | nil =>
      have hv := walk_last hw
      simp only [List.getLast?_singleton, Option.some.injEq] at hv
      simp only [List.cons_append, List.nil_append, List.cons.injEq, true_and] at ht
      obtain ⟨rfl, _⟩ := ht
      intro hx
      have h1 := harc.1
      unfold tempMat at h1
      split at h1
      · simp at h1
      · rw [if_pos ⟨hv.symm, hx⟩] at h1
        simp at h1
    | cons z t' =>
      simp only [List.cons_append, List.cons.injEq, true_and] at ht
      exact ih x t' (by rw [ht.1])

theorem walk_to_temp {G : Fin N → Fin N → WithTop K} {eps : K} (hd : Dag G eps) {nxts u v l a}
    (h : Walk G eps u v l a) : (∀ x t, l = u :: x :: t → x ∉ nxts) → Walk (tempMat G [] u nxts) eps u v l a := by
  induction h with
  | nil => intro _; exact .nil
  | @snoc v y l a w hw harc ih =>
    intro hx
    refine (ih ?_).snoc ⟨?_, harc.2⟩
    · rintro x t rfl
      exact hx x (t ++ [y]) rfl
    · unfold tempMat
      rw [if_neg (by simp), if_neg]
      · exact harc.1
      · rintro ⟨rfl, hy⟩
        obtain ⟨t, rfl⟩ := walk_head hw
        have hg := walk_good hd hw
        cases t with
        | nil => exact hx y [] rfl hy
        | cons z t =>
          have h1 := (List.pairwise_cons.1 hg.1).1 z List.mem_cons_self
          exact absurd (hg.2.2.2.1 z (by simp)) (not_le.2 h1)

theorem walk_append {G : Fin N → Fin N → WithTop K} {eps : K} {u v w l l' a b} (h : Walk G eps u v l a)
    (h' : Walk G eps v w l' b) : Walk G eps u w (l.dropLast ++ l') (a + b) := by
  induction h' with
  | nil =>
    rw [List.dropLast_append_getLast? _ (walk_last h), add_zero]
    exact h
  | snoc _ harc ih =>
    rw [← List.append_assoc, ← add_assoc]
    exact ih.snoc harc

theorem pathCost_snoc (G : Fin N → Fin N → WithTop K) (v x : Fin N) : ∀ l : List (Fin N), l.getLast? = some v →
    pathCost G (l ++ [x]) = pathCost G l + G v x
  | [], h => by simp at h
  | [a], h => by
    simp only [List.getLast?_singleton, Option.some.injEq] at h
    subst h
    simp [pathCost]
  | a :: b :: l, h => by
    rw [List.getLast?_cons_cons] at h
    have := pathCost_snoc G v x (b :: l) h
    rw [List.cons_append] at this
    rw [List.cons_append, List.cons_append, pathCost, this, pathCost, add_assoc]

theorem walk_cost {G : Fin N → Fin N → WithTop K} {eps : K} {u v l a} (h : Walk G eps u v l a) :
    pathCost G l = (a : WithTop K) := by
  induction h with
  | nil => simp [pathCost]
  | snoc hw harc ih => rw [pathCost_snoc G _ _ _ (walk_last hw), ih, harc.1, WithTop.coe_add]

theorem walk_take {G : Fin N → Fin N → WithTop K} {eps : K} {u v l a} (h : Walk G eps u v l a) :
    ∀ (i : ℕ) (x), l[i]? = some x → ∃ b, Walk G eps u x (l.take (i + 1)) b := by
  induction h with
  | nil =>
    intro i x hx
    cases i with
    | zero =>
      simp only [List.getElem?_cons_zero, Option.some.injEq] at hx
      subst hx
      exact ⟨0, .nil⟩
    | succ i => simp at hx
  | @snoc v y l a w hw harc ih =>
    intro i x hx
    by_cases hi : i < l.length
    · rw [List.getElem?_append_left hi] at hx
      obtain ⟨b, hb⟩ := ih i x hx
      rw [List.take_append_of_le_length (by omega)]
      exact ⟨b, hb⟩
    · rw [List.getElem?_append_right (by omega)] at hx
      cases h0 : i - l.length with
      | zero =>
        rw [h0] at hx
        simp only [List.getElem?_cons_zero, Option.some.injEq] at hx
        subst hx
        rw [List.take_of_length_le (by simp; omega)]
        exact ⟨_, hw.snoc harc⟩
      | succ j => rw [h0] at hx; simp at hx

/-- The next vertices of the known paths with the same prefix. -/
theorem samePrefix_next {path : List (Fin N)} {out : List (List (Fin N))} {ind : ℕ} {nxts : List (Fin N)}
    (h : (samePrefix path out ind).mapM (fun sp => sp[ind + 1]?) = some nxts) {sp : List (Fin N)}
    (hsp : sp ∈ samePrefix path out ind) : ∃ x ∈ nxts, sp[ind + 1]? = some x := by
  generalize samePrefix path out ind = L at h hsp
  induction L generalizing nxts with
  | nil => simp at hsp
  | cons a L ih =>
    rw [List.mapM_cons] at h
    cases ha : a[ind + 1]? with
    | none => rw [ha] at h; simp at h
    | some x =>
      cases hl : L.mapM (fun sp => sp[ind + 1]?) with
      | none => rw [ha, hl] at h; simp at h
      | some r =>
        rw [ha, hl] at h
        have h : x :: r = nxts := by simpa using h
        subst h
        rcases List.mem_cons.1 hsp with rfl | hsp
        · exact ⟨x, List.mem_cons_self, ha⟩
        · obtain ⟨y, hy, hy'⟩ := ih hl hsp
          exact ⟨y, List.mem_cons_of_mem _ hy, hy'⟩

theorem samePrefix_next' {path : List (Fin N)} {out : List (List (Fin N))} {ind : ℕ} {nxts : List (Fin N)}
    (h : (samePrefix path out ind).mapM (fun sp => sp[ind + 1]?) = some nxts) {x} (hx : x ∈ nxts) :
    ∃ sp ∈ samePrefix path out ind, sp[ind + 1]? = some x := by
  generalize samePrefix path out ind = L at h
  induction L generalizing nxts with
  | nil => simp at h; subst h; simp at hx
  | cons a L ih =>
    rw [List.mapM_cons] at h
    cases ha : a[ind + 1]? with
    | none => rw [ha] at h; simp at h
    | some y =>
      cases hl : L.mapM (fun sp => sp[ind + 1]?) with
      | none => rw [ha, hl] at h; simp at h
      | some r =>
        rw [ha, hl] at h
        have h : y :: r = nxts := by simpa using h
        subst h
        rcases List.mem_cons.1 hx with rfl | hx
        · exact ⟨a, List.mem_cons_self, ha⟩
        · obtain ⟨sp, hs, hs'⟩ := ih hx hl
          exact ⟨sp, List.mem_cons_of_mem _ hs, hs'⟩

/-- One deviation of a path that is a walk: nothing changes, or a walk is found that is not yet known. At the first
vertex it is a cheapest one among those with another second vertex than the known paths, and is stored correctly. -/
theorem deviate_walk {G : Fin N → Fin N → WithTop K} {eps : K} (hN : 2 ≤ N) (heps : 0 < eps)
    (hd : Dag G eps) (hnt : NoTiny G eps) (hfin : ∀ u v, G u v ≠ ⊤) {src dst : Fin N} {path d}
    (hw : Walk G eps src dst path d) (hp : Good dst path) {st : YSt K N}
    (hst : KInv dst st) (hout : ∀ pc ∈ st.out, ∃ t, pc.1 = src :: t) {ind : ℕ} (hi : ind + 1 < path.length) :
    ∃ st', deviate G eps dst path st ind = .ok st' ∧ st'.out = st.out ∧ st'.cur = st.cur ∧
      ((st' = st ∧ (ind = 0 → ∀ l a, Walk G eps src dst l a → l[1]? = path[1]? ∨ ∃ pc ∈ st.out, l[1]? = pc.1[1]?)) ∨
       ∃ l a, Walk G eps src dst l a ∧ l.take (ind + 1) = path.take (ind + 1) ∧ l[ind + 1]? ≠ path[ind + 1]? ∧
        (∀ pc ∈ st.out, l ≠ pc.1) ∧
        st'.X = st.X ++ [(st.P.length, (a : WithTop K))] ∧
        (∃ q, st'.P = st.P ++ [(q, (a : WithTop K))] ∧ (ind = 0 → q = l)) ∧
        (∃ w, st'.S = st.S ++ [w] ∧ (ind = 0 → w = src)) ∧
        (ind = 0 → ∀ l' a', Walk G eps src dst l' a' → l'[1]? ≠ path[1]? →
          (∀ pc ∈ st.out, l'[1]? ≠ pc.1[1]?) → a ≤ a')) := by
  have hpi : path[ind]? = some path[ind] := List.getElem?_eq_getElem (by omega)
  have hlt := hp.lt_dst hpi hi
  obtain ⟨tp, htp⟩ := walk_head hw
  have hsrc : ind = 0 → path[ind] = src := by
    rintro rfl
    have h0 : path[0]? = some src := by rw [htp]; rfl
    rw [hpi] at h0
    exact Option.some.inj h0
  obtain ⟨nxts, hnx⟩ := mapM_some (fun sp : List (Fin N) => sp[ind + 1]?)
    (samePrefix path (st.out.map Prod.fst) ind) (by
      intro sp hsp
      unfold samePrefix at hsp
      rcases List.mem_cons.1 hsp with rfl | hsp
      · rw [List.getElem?_eq_getElem hi]; rfl
      · rw [List.mem_filter, decide_eq_true_eq] at hsp
        obtain ⟨hm, hl, htake⟩ := hsp
        obtain ⟨pc, hpc, rfl⟩ := List.mem_map.1 hm
        have hg := hst.goodOut pc hpc
        have h1 : (pc.1)[ind]? = some path[ind] := by
          have : (path.take (ind + 1))[ind]? = (pc.1.take (ind + 1))[ind]? := by rw [htake]
          rw [List.getElem?_take_of_lt (by omega), List.getElem?_take_of_lt (by omega)] at this
          rw [← this, hpi]
        have := hg.next h1 hlt
        rw [List.getElem?_eq_getElem this]; rfl)
  obtain ⟨dist, dev, pred, hb, hcase⟩ := bfm_spec (G := tempMat G (path.take (ind - 1)) path[ind] nxts)
    (eps := eps) hN (by rw [tiny_iff heps]; simpa using NoTiny.temp hnt _ _ _) path[ind] dst
    ((hd.temp _ _ _).noNeg _) N (le_refl _)
  -- a walk with another second vertex survives in the matrix for the first vertex
  have hback : ind = 0 → ∀ l a, Walk G eps src dst l a → l[1]? ≠ path[1]? →
      (∀ pc ∈ st.out, l[1]? ≠ pc.1[1]?) → Walk (tempMat G (path.take (ind - 1)) path[ind] nxts) eps path[ind] dst l a := by
    intro h0 l a hl hl1 hl2
    rw [hsrc h0]
    have hr : path.take (ind - 1) = [] := by rw [h0]; rfl
    rw [hr]
    refine walk_to_temp hd hl ?_
    rintro x t rfl hx
    obtain ⟨sp, hsp, hspx⟩ := samePrefix_next' hnx hx
    rw [h0, zero_add] at hspx
    unfold samePrefix at hsp
    rcases List.mem_cons.1 hsp with rfl | hsp
    · exact hl1 (by rw [hspx]; rfl)
    · obtain ⟨pc, hpc, rfl⟩ := List.mem_map.1 (List.mem_filter.1 hsp).1
      exact hl2 pc hpc (by rw [hspx]; rfl)
  unfold deviate
  rw [hpi]
  simp only
  rw [hnx]
  simp only
  rw [hb]
  simp only
  rcases hcase with ⟨_, h2, h3⟩ | ⟨c, h1, hwd, _, hmin⟩
  · rw [if_pos h2]
    refine ⟨st, rfl, rfl, rfl, .inl ⟨rfl, ?_⟩⟩
    intro h0 l a hl
    by_contra hcon
    push Not at hcon
    exact h3 _ _ (hback h0 l a hl hcon.1 hcon.2)
  · obtain ⟨t, ht⟩ := walk_head hwd
    rw [if_neg (by rw [ht]; simp)]
    refine ⟨_, rfl, rfl, rfl, .inr ?_⟩
    obtain ⟨b, hwp⟩ := walk_take hw ind path[ind] hpi
    have hwG := walk_temp_sub hwd
    have hwl := walk_append hwp hwG
    have htk : (path.take (ind + 1)).dropLast = path.take ind := by
      rw [List.dropLast_take]
      simp
      omega
    rw [htk] at hwl
    have hlt' : (path.take ind).length = ind := by rw [List.length_take]; omega
    have htake : (path.take ind ++ dev).take (ind + 1) = path.take (ind + 1) := by
      have h5 : path.take (ind + 1) = path.take ind ++ [path[ind]] := by
        rw [List.take_add_one, hpi]; rfl
      have h6 : (path.take ind).take (ind + 1) = path.take ind := by
        rw [List.take_take, min_eq_right (by omega)]
      rw [List.take_append, hlt', Nat.add_sub_cancel_left, h6, h5, ht]
      rfl
    have hget : ∀ x, (path.take ind ++ dev)[ind + 1]? = some x → x ∉ nxts := by
      intro x hx
      rw [List.getElem?_append_right (by omega), hlt', Nat.add_sub_cancel_left, ht] at hx
      cases t with
      | nil => simp at hx
      | cons y t =>
        simp only [List.getElem?_cons_succ, List.getElem?_cons_zero, Option.some.injEq] at hx
        subst hx
        exact walk_temp_first hwd y t ht
    have hdl : 2 ≤ dev.length := by
      rw [ht]
      cases t with
      | nil =>
        have hv := walk_last hwd
        rw [ht] at hv
        simp only [List.getLast?_singleton, Option.some.injEq] at hv
        rw [hv] at hlt
        exact absurd hlt (lt_irrefl _)
      | cons y t => simp
    have hsome : ∃ x, (path.take ind ++ dev)[ind + 1]? = some x :=
      ⟨_, List.getElem?_eq_getElem (by rw [List.length_append]; omega)⟩
    obtain ⟨x, hx⟩ := hsome
    have hxn := hget x hx
    have hcost : pathCost G (path.take (ind + 1)) + dist = ((b + c : K) : WithTop K) := by
      rw [walk_cost hwp, h1, WithTop.coe_add]
    refine ⟨path.take ind ++ dev, b + c, hwl, htake, ?_, ?_, ?_, ?_, ?_, ?_⟩
    · rw [hx]
      intro he
      obtain ⟨y, hy, hy'⟩ := samePrefix_next hnx (sp := path) (by unfold samePrefix; exact List.mem_cons_self)
      rw [hy', Option.some.injEq] at he
      exact hxn (he ▸ hy)
    · rintro pc hpc he
      have hmem : pc.1 ∈ samePrefix path (st.out.map Prod.fst) ind := by
        unfold samePrefix
        refine List.mem_cons_of_mem _ (List.mem_filter.2 ⟨List.mem_map_of_mem hpc, ?_⟩)
        rw [decide_eq_true_eq, ← he, htake]
        refine ⟨?_, rfl⟩
        rw [List.length_append]
        omega
      obtain ⟨y, hy, hy'⟩ := samePrefix_next hnx hmem
      rw [← he, hx, Option.some.injEq] at hy'
      exact hxn (hy' ▸ hy)
    · simp only [hcost]
    · refine ⟨joinDev (path.take (ind + 1)) dev, by simp only [hcost], ?_⟩
      intro h0
      subst h0
      simp [joinDev]
    · exact ⟨_, rfl, hsrc⟩
    · intro h0 l' a' hl' h1' h2'
      have := hmin l' a' (hback h0 l' a' hl' h1' h2')
      have hb0 : b = 0 := by
        subst h0
        have h5 : path.take (0 + 1) = [src] := by rw [htp]; rfl
        rw [h5] at hwp
        have h6 := walk_cost hwp
        simp only [pathCost] at h6
        exact_mod_cast h6.symm
      rw [hb0, zero_add]
      exact this

/-- The deviations at the later vertices only add candidates whose costs are those of walks through the second vertex of
the path. -/
theorem foldDev_later {G : Fin N → Fin N → WithTop K} {eps : K} (hN : 2 ≤ N) (heps : 0 < eps)
    (hd : Dag G eps) (hnt : NoTiny G eps) (hfin : ∀ u v, G u v ≠ ⊤) {src dst : Fin N} {path d}
    (hw : Walk G eps src dst path d) (hp : Good dst path) :
    ∀ (is : List ℕ) (st : YSt K N), (∀ i ∈ is, 1 ≤ i ∧ i + 1 < path.length) → KInv dst st →
    (∀ pc ∈ st.out, ∃ t, pc.1 = src :: t) →
    ∃ st', is.foldlM (deviate G eps dst path) st = .ok st' ∧ KInv dst st' ∧ st'.out = st.out ∧
      st'.cur = st.cur ∧ (∃ t, st'.P = st.P ++ t) ∧ (∃ t, st'.S = st.S ++ t) ∧
      ∃ t, st'.X = st.X ++ t ∧ ∀ e ∈ t, ∃ l a, Walk G eps src dst l a ∧ l ≠ path ∧ l[1]? = path[1]? ∧
        (∀ pc ∈ st.out, l ≠ pc.1) ∧ e.2 = (a : WithTop K)
  | [], st, _, hst, _ => ⟨st, rfl, hst, rfl, rfl, ⟨[], by simp⟩, ⟨[], by simp⟩, [], by simp, by simp⟩
  | i :: is, st, hi, hst, hout => by
    obtain ⟨hi1, hi2⟩ := hi i List.mem_cons_self
    obtain ⟨st1, h1, h2, _, _, _⟩ := deviate_ok hN heps hd hnt hfin hp hst hi2
    obtain ⟨st1', g1, g3, g4, hc⟩ := deviate_walk hN heps hd hnt hfin hw hp hst hout hi2
    have : st1' = st1 := by rw [h1] at g1; exact (Except.ok.inj g1).symm
    subst this
    obtain ⟨st2, k1, k2, k3, k4, ⟨tP, k5⟩, ⟨tS, k6⟩, tX, k7, k8⟩ := foldDev_later hN heps hd hnt hfin hw hp is st1'
      (fun j hj => hi j (List.mem_cons_of_mem _ hj)) h2 (by rw [g3]; exact hout)
    rw [g3] at k8
    refine ⟨st2, ?_, k2, k3.trans g3, k4.trans g4, ?_⟩
    · rw [List.foldlM_cons, h1]
      exact k1
    rcases hc with ⟨rfl, _⟩ | ⟨l, a, hl, htk, hne, hno, hX, ⟨q, hP, _⟩, ⟨w, hS, _⟩, _⟩
    · exact ⟨⟨tP, k5⟩, ⟨tS, k6⟩, tX, k7, k8⟩
    · refine ⟨⟨_, by rw [k5, hP, List.append_assoc]⟩, ⟨_, by rw [k6, hS, List.append_assoc]⟩, _,
        by rw [k7, hX, List.append_assoc], ?_⟩
      intro e he
      rcases List.mem_append.1 he with he | he
      · rw [List.mem_singleton] at he
        subst he
        refine ⟨l, a, hl, ?_, ?_, hno, rfl⟩
        · rintro rfl
          exact hne rfl
        · have : (l.take (i + 1))[1]? = (path.take (i + 1))[1]? := by rw [htk]
          rw [List.getElem?_take_of_lt (by omega), List.getElem?_take_of_lt (by omega)] at this
          exact this
      · exact k8 e he

theorem lastIdx_none {w : Fin N} : ∀ {l : List (Fin N)}, w ∉ l → lastIdx w l = none
  | [], _ => rfl
  | a :: l, h => by
    rw [List.mem_cons, not_or] at h
    unfold lastIdx
    rw [lastIdx_none h.2]
    simp [h.1]

theorem lastIdx_head {w : Fin N} {l : List (Fin N)} (h : w ∉ l) : lastIdx w (w :: l) = some 0 := by
  unfold lastIdx
  rw [lastIdx_none h]
  simp

theorem minX_first {x : ℕ × WithTop K} : ∀ {Y : List (ℕ × WithTop K)}, (∀ e ∈ Y, x.2 ≤ e.2) →
    minX (x :: Y) = some x
  | [], _ => rfl
  | e :: Y, h => by
    have := minX_first (x := x) (Y := Y) (fun e he => h e (List.mem_cons_of_mem _ he))
    simp only [minX, List.foldl_cons] at this ⊢
    rw [if_neg (not_lt.2 (h e List.mem_cons_self))]
    exact this

/-- The tables before the first round. -/
def yst0 (src : Fin N) (p1 : List (Fin N)) (d : K) : YSt K N :=
  { P := [(p1, (d : WithTop K))], S := [src], X := [(0, (d : WithTop K))], out := [(p1, (d : WithTop K))], cur := 0 }

theorem yst0_inv {src dst : Fin N} {p1 : List (Fin N)} (hp : Good dst p1) (hs : src ∈ p1) (d : K) :
    KInv dst (yst0 src p1 d) := by
  refine ⟨?_, ?_, rfl, ?_, ?_, ?_, ?_⟩
  · intro pc hpc
    simp only [yst0, List.mem_singleton] at hpc
    subst hpc
    exact hp
  · intro pc hpc
    simp only [yst0, List.mem_singleton] at hpc
    subst hpc
    exact hp
  · intro i pc w h1 h2
    cases i with
    | zero =>
      simp only [yst0, List.getElem?_cons_zero, Option.some.injEq] at h1 h2
      rw [← h1, ← h2]
      exact hs
    | succ i => simp [yst0] at h1
  · intro e he
    simp only [yst0, List.mem_singleton] at he
    subst he
    simp [yst0]
  · intro pc hpc
    simp only [yst0, List.mem_singleton] at hpc
    subst hpc
    exact WithTop.coe_ne_top
  · intro pc hpc
    simp only [yst0, List.mem_singleton] at hpc
    subst hpc
    exact WithTop.coe_ne_top

/-- The first round finds a second-best walk, if there is another walk at all. -/
theorem yen_second {G : Fin N → Fin N → WithTop K} {eps : K} (hN : 2 ≤ N) (heps : 0 < eps)
    (hd : Dag G eps) (hnt : NoTiny G eps) (hfin : ∀ u v, G u v ≠ ⊤) {src dst : Fin N} {p1 : List (Fin N)} {d : K}
    (hw : Walk G eps src dst p1 d) (hp : Good dst p1)
    (hex : ∀ l a, Walk G eps src dst l a → l ≠ p1 →
      ∃ l' a', Walk G eps src dst l' a' ∧ l'[1]? ≠ p1[1]? ∧ a' ≤ a) :
    ∃ st1, yenStep G eps dst (yst0 src p1 d) = .ok st1 ∧ KInv dst st1 ∧ st1.cur < st1.P.length ∧
      ((st1.X = [] ∧ st1.out = [(p1, (d : WithTop K))] ∧ ∀ l a, Walk G eps src dst l a → l = p1) ∨
       ∃ l0 a0 Y, Walk G eps src dst l0 a0 ∧ l0[1]? ≠ p1[1]? ∧
        st1.out = [(p1, (d : WithTop K)), (l0, (a0 : WithTop K))] ∧
        (∀ l a, Walk G eps src dst l a → l ≠ p1 → a0 ≤ a) ∧
        st1.cur = 1 ∧ st1.P[1]? = some (l0, (a0 : WithTop K)) ∧ st1.S[1]? = some src ∧
        st1.X = (1, (a0 : WithTop K)) :: Y ∧
        ∀ e ∈ Y, ∃ l a, Walk G eps src dst l a ∧ l ≠ p1 ∧ l[1]? = p1[1]? ∧ e.2 = (a : WithTop K)) := by
  obtain ⟨tp, htp⟩ := walk_head hw
  have hs : src ∈ p1 := by rw [htp]; exact List.mem_cons_self
  have hinv := yst0_inv hp hs d
  obtain ⟨st1, y1, y2, y3, _⟩ := yenStep_ok hN heps hd hnt hfin hinv (by simp [yst0])
  refine ⟨st1, y1, y2, y3, ?_⟩
  have hidx : lastIdx src p1 = some 0 := by
    rw [htp]
    apply lastIdx_head
    intro hm
    have h1 := hp.sorted
    rw [htp] at h1
    exact absurd ((List.pairwise_cons.1 h1).1 src hm) (lt_irrefl _)
  have hlen := hp.len
  have hrange : (List.range (p1.length - 1)).drop 0 = 0 :: (List.range (p1.length - 2)).map (· + 1) := by
    rw [List.drop_zero, show p1.length - 1 = p1.length - 2 + 1 by omega, List.range_succ_eq_map]
  let sta : YSt K N := { yst0 src p1 d with X := (yst0 src p1 d).X.eraseP fun x => x.1 == (yst0 src p1 d).cur }
  have hXa : sta.X = [] := by simp [sta, yst0]
  have hinva : KInv dst sta :=
    ⟨hinv.good, hinv.goodOut, hinv.lenS, hinv.mem, by rw [hXa]; simp, hinv.fin, hinv.finOut⟩
  have houta : ∀ pc ∈ sta.out, ∃ t, pc.1 = src :: t := by
    intro pc hpc
    simp only [sta, yst0, List.mem_singleton] at hpc
    subst hpc
    exact ⟨tp, htp⟩
  have hi0 : 0 + 1 < p1.length := by omega
  obtain ⟨stb, b1, b2, _, _, _⟩ := deviate_ok hN heps hd hnt hfin hp hinva hi0
  obtain ⟨stb', c1, c3, c4, hc⟩ := deviate_walk hN heps hd hnt hfin hw hp hinva houta hi0
  have : stb' = stb := by rw [b1] at c1; exact (Except.ok.inj c1).symm
  subst this
  obtain ⟨stc, e1, e2, e3, e4, ⟨tP, e5⟩, ⟨tS, e6⟩, tX, e7, e8⟩ := foldDev_later hN heps hd hnt hfin hw hp
    ((List.range (p1.length - 2)).map (· + 1)) stb' (by
      intro i hi
      obtain ⟨j, hj, rfl⟩ := List.mem_map.1 hi
      have := List.mem_range.1 hj
      omega) b2 (by rw [c3]; exact houta)
  have hfold : ((List.range (p1.length - 1)).drop 0).foldlM (deviate G eps dst p1) sta = .ok stc := by
    rw [hrange, List.foldlM_cons, b1]
    exact e1
  have hstep : yenStep G eps dst (yst0 src p1 d) = match minX stc.X with
      | none => .ok stc
      | some (i, _) =>
        match stc.P[i]? with
        | none => .error .index
        | some pc => .ok { stc with cur := i, out := stc.out ++ [pc] } := by
    unfold yenStep
    have hP0 : (yst0 src p1 d).P[(yst0 src p1 d).cur]? = some (p1, (d : WithTop K)) := rfl
    have hS0 : (yst0 src p1 d).S[(yst0 src p1 d).cur]? = some src := rfl
    rw [hP0, hS0]
    simp only
    rw [hidx]
    simp only
    rw [show ((List.range (p1.length - 1)).drop 0).foldlM (deviate G eps dst p1)
      { yst0 src p1 d with X := (yst0 src p1 d).X.eraseP fun x => x.1 == (yst0 src p1 d).cur } = .ok stc from hfold]
    rfl
  rcases hc with ⟨rfl, hno⟩ | ⟨l, a, hl, htk, hne, _, hX, ⟨q, hP, hq⟩, ⟨w, hS, hws⟩, hmin⟩
  · have hall : ∀ l a, Walk G eps src dst l a → l = p1 := by
      intro l a hl
      by_contra hcon
      obtain ⟨l', a', hl', hne', _⟩ := hex l a hl hcon
      rcases hno rfl l' a' hl' with h | ⟨pc, hpc, h⟩
      · exact hne' h
      · simp only [sta, yst0, List.mem_singleton] at hpc
        subst hpc
        exact hne' h
    have htX : tX = [] := by
      cases tX with
      | nil => rfl
      | cons e t =>
        obtain ⟨l, a, hl, hne, _⟩ := e8 e List.mem_cons_self
        exact absurd (hall l a hl) hne
    have hXc : stc.X = [] := by rw [e7, hXa, htX]; rfl
    rw [hstep, hXc] at y1
    have y1 : stc = st1 := Except.ok.inj y1
    subst y1
    exact .inl ⟨hXc, by rw [e3]; rfl, hall⟩
  · right
    have hq := hq rfl
    have hws := hws rfl
    subst hq hws
    have hXc : stc.X = (1, (a : WithTop K)) :: tX := by rw [e7, hX, hXa]; rfl
    have hPc : stc.P = [(p1, (d : WithTop K)), (q, (a : WithTop K))] ++ tP := by rw [e5, hP]; rfl
    have hSc : stc.S = [w, w] ++ tS := by rw [e6, hS]; rfl
    have hmin' : ∀ l' a', Walk G eps w dst l' a' → l' ≠ p1 → a ≤ a' := by
      intro l' a' hl' hne'
      obtain ⟨l2, a2, hl2, hne2, hle⟩ := hex l' a' hl' hne'
      refine le_trans (hmin rfl l2 a2 hl2 hne2 ?_) hle
      intro pc hpc
      simp only [sta, yst0, List.mem_singleton] at hpc
      subst hpc
      exact hne2
    have hm : minX stc.X = some (1, (a : WithTop K)) := by
      rw [hXc]
      apply minX_first
      intro e he
      obtain ⟨l', a', hl', hne', _, _, hea⟩ := e8 e he
      rw [hea]
      exact WithTop.coe_le_coe.2 (hmin' l' a' hl' hne')
    have hP1 : stc.P[1]? = some (q, (a : WithTop K)) := by rw [hPc]; rfl
    rw [hstep, hm] at y1
    simp only [hP1] at y1
    have y1 := Except.ok.inj y1
    subst y1
    refine ⟨q, a, tX, hl, hne, ?_, hmin', rfl, hP1, by rw [hSc]; rfl, hXc, ?_⟩
    · show stc.out ++ [(q, (a : WithTop K))] = _
      rw [e3, c3]
      rfl
    · intro e he
      obtain ⟨l', a', hl', hne', h1', _, hea⟩ := e8 e he
      exact ⟨l', a', hl', hne', h1', hea⟩

/-- Once every walk is known, a round finds nothing. -/
theorem foldDev_known {G : Fin N → Fin N → WithTop K} {eps : K} (hN : 2 ≤ N) (heps : 0 < eps)
    (hd : Dag G eps) (hnt : NoTiny G eps) (hfin : ∀ u v, G u v ≠ ⊤) {src dst : Fin N} {path d}
    (hw : Walk G eps src dst path d) (hp : Good dst path) {st : YSt K N} (hst : KInv dst st)
    (hout : ∀ pc ∈ st.out, ∃ t, pc.1 = src :: t)
    (hall : ∀ l a, Walk G eps src dst l a → ∃ pc ∈ st.out, l = pc.1) :
    ∀ (is : List ℕ), (∀ i ∈ is, i + 1 < path.length) → is.foldlM (deviate G eps dst path) st = .ok st
  | [], _ => rfl
  | i :: is, hi => by
    obtain ⟨st1, g1, _, _, hc⟩ := deviate_walk hN heps hd hnt hfin hw hp hst hout (hi i List.mem_cons_self)
    rcases hc with ⟨rfl, _⟩ | ⟨l, a, hl, _, _, hno, _⟩
    · rw [List.foldlM_cons, g1]
      exact foldDev_known hN heps hd hnt hfin hw hp hst hout hall is (fun j hj => hi j (List.mem_cons_of_mem _ hj))
    · obtain ⟨pc, hpc, h⟩ := hall l a hl
      exact absurd h (hno pc hpc)

theorem yen_known {G : Fin N → Fin N → WithTop K} {eps : K} (hN : 2 ≤ N) (heps : 0 < eps)
    (hd : Dag G eps) (hnt : NoTiny G eps) (hfin : ∀ u v, G u v ≠ ⊤) {src dst : Fin N} {path c d}
    {st : YSt K N} (hst : KInv dst st) (hcur : st.P[st.cur]? = some (path, c)) (hS : st.S[st.cur]? = some src)
    (hw : Walk G eps src dst path d)
    (hout : ∀ pc ∈ st.out, ∃ t, pc.1 = src :: t)
    (hall : ∀ l a, Walk G eps src dst l a → ∃ pc ∈ st.out, l = pc.1)
    (hX : (st.X.eraseP fun x => x.1 == st.cur) = []) :
    yenStep G eps dst st = .ok { st with X := [] } := by
  have hp : Good dst path := hst.good _ (List.mem_of_getElem? hcur)
  obtain ⟨tp, htp⟩ := walk_head hw
  obtain ⟨wi, hwi⟩ := lastIdx_some (w := src) (l := path) (by rw [htp]; exact List.mem_cons_self)
  have hinv : KInv dst { st with X := [] } :=
    ⟨hst.good, hst.goodOut, hst.lenS, hst.mem, by simp, hst.fin, hst.finOut⟩
  have hf := foldDev_known hN heps hd hnt hfin hw hp hinv hout hall ((List.range (path.length - 1)).drop wi) (by
    intro i hi
    have := List.mem_range.1 (List.mem_of_mem_drop hi)
    omega)
  unfold yenStep
  rw [hcur, hS]
  simp only
  rw [hwi]
  simp only
  rw [hX, hf]
  rfl

theorem yenLoop_stop {G : Fin N → Fin N → WithTop K} {eps : K} {dst : Fin N} {k fuel : ℕ} {st : YSt K N}
    (h : ¬ (st.out.length < k ∧ st.X ≠ [])) : yenLoop G eps dst k fuel st = .ok st := by
  cases fuel with
  | zero => rfl
  | succ f =>
    unfold yenLoop
    rw [if_neg h]

/-- The result of the loop begins with the two best walks. -/
theorem yen_two {G : Fin N → Fin N → WithTop K} {eps : K} (hN : 2 ≤ N) (heps : 0 < eps)
    (hd : Dag G eps) (hnt : NoTiny G eps) (hfin : ∀ u v, G u v ≠ ⊤) {src dst : Fin N} {p1 : List (Fin N)} {d : K}
    (hw : Walk G eps src dst p1 d) (hp : Good dst p1)
    (hex : ∀ l a, Walk G eps src dst l a → l ≠ p1 →
      ∃ l' a', Walk G eps src dst l' a' ∧ l'[1]? ≠ p1[1]? ∧ a' ≤ a) {k : ℕ} (hk : 2 ≤ k) :
    ∃ st, yenLoop G eps dst k k (yst0 src p1 d) = .ok st ∧ KInv dst st ∧ st.out.length ≤ k ∧
      ((st.out = [(p1, (d : WithTop K))] ∧ ∀ l a, Walk G eps src dst l a → l = p1) ∨
       ∃ l0 a0 rest, Walk G eps src dst l0 a0 ∧ l0[1]? ≠ p1[1]? ∧
        st.out = (p1, (d : WithTop K)) :: (l0, (a0 : WithTop K)) :: rest ∧
        (∀ l a, Walk G eps src dst l a → l ≠ p1 → a0 ≤ a) ∧
        ((∀ l a, Walk G eps src dst l a → l = p1 ∨ l = l0) → rest = [])) := by
  obtain ⟨tp, htp⟩ := walk_head hw
  have hs : src ∈ p1 := by rw [htp]; exact List.mem_cons_self
  have hinv := yst0_inv hp hs d
  obtain ⟨st1, y1, y2, y3, hc⟩ := yen_second hN heps hd hnt hfin hw hp hex
  obtain ⟨f, rfl⟩ : ∃ f, k = f + 2 := ⟨k - 2, by omega⟩
  have hrun : yenLoop G eps dst (f + 2) (f + 2) (yst0 src p1 d) = yenLoop G eps dst (f + 2) (f + 1) st1 := by
    rw [yenLoop, if_pos (by simp [yst0]), y1]
  rw [hrun]
  rcases hc with ⟨hX, hout, hall⟩ | ⟨l0, a0, Y, hl0, hne, hout, hmin, hcur, hP, hS, hX, hY⟩
  · refine ⟨st1, yenLoop_stop (by rw [hX]; simp), y2, by rw [hout]; simp, .inl ⟨hout, hall⟩⟩
  · obtain ⟨st2, k1, k2, ⟨t, k3⟩, k4, _⟩ := yenLoop_ok hN heps hd hnt hfin (f + 2) (f + 1) st1 y2 y3
      (by rw [hout]; simp)
    refine ⟨st2, k1, k2, k4, .inr ⟨l0, a0, t, hl0, hne, by rw [k3, hout]; rfl, hmin, ?_⟩⟩
    intro hall
    have hY0 : Y = [] := by
      cases Y with
      | nil => rfl
      | cons e Y =>
        obtain ⟨l, a, hl, h1, h2, _⟩ := hY e List.mem_cons_self
        rcases hall l a hl with rfl | rfl
        · exact absurd rfl h1
        · exact absurd h2 hne
    have hX' : (st1.X.eraseP fun x => x.1 == st1.cur) = [] := by
      rw [hX, hcur, hY0]
      rfl
    have hstep := yen_known hN heps hd hnt hfin y2 (by rw [hcur]; exact hP) (by rw [hcur]; exact hS) hl0 (by
      intro pc hpc
      rw [hout] at hpc
      simp only [List.mem_cons, List.not_mem_nil, or_false] at hpc
      rcases hpc with rfl | rfl
      · exact ⟨tp, htp⟩
      · exact walk_head hl0) (by
      intro l a hl
      rw [hout]
      rcases hall l a hl with rfl | rfl
      · exact ⟨_, List.mem_cons_self, rfl⟩
      · exact ⟨_, List.mem_cons_of_mem _ List.mem_cons_self, rfl⟩) hX'
    rw [yenLoop] at k1
    split at k1
    · rw [hstep] at k1
      simp only at k1
      rw [yenLoop_stop (by simp)] at k1
      have k1 := Except.ok.inj k1
      subst k1
      simpa using k3
    · have k1 := Except.ok.inj k1
      subst k1
      simpa using k3

/-! ### The padded matrix -/

variable {n : ℕ}

/-- The path that selects a set of elements (in sorted positions). -/
def pathOf (T : Finset (Fin n)) : List (Fin (n + 2)) :=
  ⟨0, by omega⟩ :: (((List.finRange n).filter (· ∈ T)).map (fun j => (⟨j.val + 1, by omega⟩ : Fin (n + 2))) ++
    [⟨n + 1, by omega⟩])

theorem mem_pathOf {T : Finset (Fin n)} {j : Fin n} : (⟨j.val + 1, by omega⟩ : Fin (n + 2)) ∈ pathOf T ↔ j ∈ T := by
  unfold pathOf
  simp only [List.mem_cons, List.mem_append, List.mem_map, List.mem_filter, List.mem_finRange, true_and,
    List.not_mem_nil, or_false, Fin.mk.injEq, decide_eq_true_eq]
  constructor
  · rintro (h | ⟨i, hi, h⟩ | h)
    · omega
    · have : i = j := Fin.ext (by omega)
      exact this ▸ hi
    · have := j.isLt; omega
  · intro h
    exact .inr (.inl ⟨j, h, rfl⟩)

theorem pathOf_inj {S T : Finset (Fin n)} (h : pathOf S = pathOf T) : S = T := by
  ext j
  rw [← mem_pathOf, h, mem_pathOf]

theorem mid_sorted (T : Finset (Fin n)) : ((List.finRange n).filter (· ∈ T)).Pairwise (· < ·) :=
  (List.pairwise_lt_finRange n).sublist List.filter_sublist

theorem pathOf_sorted (T : Finset (Fin n)) : (pathOf T).Pairwise (· < ·) := by
  unfold pathOf
  rw [List.pairwise_cons]
  constructor
  · intro x hx
    rcases List.mem_append.1 hx with hx | hx
    · obtain ⟨j, _, rfl⟩ := List.mem_map.1 hx
      exact Fin.mk_lt_mk.2 (Nat.succ_pos _)
    · rw [List.mem_singleton] at hx
      subst hx
      exact Fin.mk_lt_mk.2 (Nat.succ_pos _)
  · rw [List.pairwise_append]
    refine ⟨?_, by simp, ?_⟩
    · rw [List.pairwise_map]
      refine (mid_sorted T).imp ?_
      intro a b hab
      exact Fin.mk_lt_mk.2 (Nat.succ_lt_succ hab)
    · intro x hx y hy
      obtain ⟨j, _, rfl⟩ := List.mem_map.1 hx
      rw [List.mem_singleton] at hy
      subst hy
      exact Fin.mk_lt_mk.2 (Nat.succ_lt_succ j.isLt)

theorem pathOf_good (T : Finset (Fin n)) : Good (⟨n + 1, by omega⟩ : Fin (n + 2)) (pathOf T) := by
  refine ⟨pathOf_sorted T, by simp [pathOf], ?_⟩
  unfold pathOf
  rw [← List.cons_append, List.getLast?_append]
  rfl

theorem pathOf_weight (lc : Fin n → K) (eps : K) (T : Finset (Fin n)) :
    ((pathOf T).tail.map (val lc eps)).sum = (∑ j ∈ T, lc j) + eps := by
  unfold pathOf
  rw [List.tail_cons, List.map_append, List.sum_append, List.map_singleton, List.sum_singleton, val_dst]
  congr 1
  have h1 : (((List.finRange n).filter (· ∈ T)).map (fun j => (⟨j.val + 1, by omega⟩ : Fin (n + 2)))).map
      (val lc eps) = ((List.finRange n).filter (· ∈ T)).map lc := by
    rw [List.map_map]
    apply List.map_congr_left
    intro j _
    exact val_vertex lc eps j
  rw [h1, sum_filter_finRange]
  simp

/-- Every set is a walk, -/
theorem pathOf_walk (lc : Fin n → K) {eps : K} (heps : 0 < eps) (hnz : ∀ i, eps ≤ |lc i|) (T : Finset (Fin n)) :
    Walk (costPad lc eps) eps ⟨0, by omega⟩ ⟨n + 1, by omega⟩ (pathOf T) ((∑ j ∈ T, lc j) + eps) := by
  obtain ⟨v, h1, h2⟩ := walk_of_sorted lc (eps := eps) (pathOf T).tail (pathOf_sorted T) (by
    intro x _
    unfold val
    split
    · exact hnz _
    · rw [abs_of_pos heps])
  have hl := (pathOf_good T).last
  rw [show (⟨0, by omega⟩ : Fin (n + 2)) :: (pathOf T).tail = pathOf T from rfl] at h1 h2
  rw [hl, Option.some.injEq] at h1
  subst h1
  rw [pathOf_weight] at h2
  exact h2

/-- and every walk is a set. -/
theorem walk_pathOf (lc : Fin n → K) {eps : K} (heps : 0 < eps) {l a}
    (h : Walk (costPad lc eps) eps ⟨0, by omega⟩ ⟨n + 1, by omega⟩ l a) :
    ∃ T : Finset (Fin n), l = pathOf T ∧ a = (∑ j ∈ T, lc j) + eps := by
  obtain ⟨g1, ⟨t, g2⟩, g3, _, _⟩ := walk_good (costPad_dag lc heps) h
  have hgood : Good (⟨n + 1, by omega⟩ : Fin (n + 2)) l := by
    refine ⟨g1, ?_, g3⟩
    rw [g2]
    cases t with
    | nil =>
      rw [g2] at g3
      simp at g3
    | cons b t => simp
  obtain ⟨⟨b, hb⟩, hin⟩ := hgood.inner
  have hb0 : b = ⟨0, by omega⟩ := by
    rw [g2] at hb
    exact ((List.cons.inj hb).1).symm
  subst hb0
  have heq : l = pathOf (Finset.univ.filter fun j : Fin n => (⟨j.val + 1, by omega⟩ : Fin (n + 2)) ∈ l) := by
    have hnd1 : l.Nodup := g1.imp (fun hab => ne_of_lt hab)
    have hnd2 := (pathOf_sorted (Finset.univ.filter fun j : Fin n => (⟨j.val + 1, by omega⟩ : Fin (n + 2)) ∈ l)).imp
      (fun hab => ne_of_lt hab)
    have hperm : l.Perm (pathOf (Finset.univ.filter fun j : Fin n => (⟨j.val + 1, by omega⟩ : Fin (n + 2)) ∈ l)) := by
      rw [List.perm_ext_iff_of_nodup hnd1 hnd2]
      intro x
      by_cases hx0 : x = ⟨0, by omega⟩
      · subst hx0
        exact ⟨fun _ => List.mem_cons_self, fun _ => by rw [g2]; exact List.mem_cons_self⟩
      · by_cases hx1 : x = ⟨n + 1, by omega⟩
        · subst hx1
          refine ⟨fun _ => ?_, fun _ => List.mem_of_getLast? g3⟩
          exact List.mem_of_getLast? (pathOf_good _).last
        · obtain ⟨j, rfl⟩ : ∃ j : Fin n, x = ⟨j.val + 1, by omega⟩ := by
            have h0 : x.val ≠ 0 := fun h => hx0 (Fin.ext h)
            have h1 : x.val ≠ n + 1 := fun h => hx1 (Fin.ext h)
            have h2 := x.isLt
            exact ⟨⟨x.val - 1, by omega⟩, Fin.ext (by simp; omega)⟩
          rw [mem_pathOf, Finset.mem_filter]
          simp
    exact hperm.eq_of_pairwise' (g1.imp le_of_lt) ((pathOf_sorted _).imp le_of_lt)
  refine ⟨_, heq, ?_⟩
  rw [walk_weight lc heps h, ← pathOf_weight, ← heq]

/-- The second vertex of the path of a set is its first element. -/
theorem pathOf_one (T : Finset (Fin n)) :
    (T = ∅ ∧ (pathOf T)[1]? = some ⟨n + 1, by omega⟩) ∨
    ∃ j ∈ T, (∀ i ∈ T, j ≤ i) ∧ (pathOf T)[1]? = some ⟨j.val + 1, by omega⟩ := by
  have hs := mid_sorted T
  cases hm : (List.finRange n).filter (· ∈ T) with
  | nil =>
    left
    refine ⟨?_, by unfold pathOf; rw [hm]; rfl⟩
    rw [Finset.eq_empty_iff_forall_notMem]
    intro j hj
    have : j ∈ (List.finRange n).filter (· ∈ T) := List.mem_filter.2 ⟨List.mem_finRange j, by simpa using hj⟩
    rw [hm] at this
    simp at this
  | cons j t =>
    right
    refine ⟨j, ?_, ?_, by unfold pathOf; rw [hm]; rfl⟩
    · have : j ∈ (List.finRange n).filter (· ∈ T) := by rw [hm]; exact List.mem_cons_self
      simpa using (List.mem_filter.1 this).2
    · intro i hi
      have : i ∈ (List.finRange n).filter (· ∈ T) := List.mem_filter.2 ⟨List.mem_finRange i, by simpa using hi⟩
      rw [hm] at this hs
      rcases List.mem_cons.1 this with rfl | h
      · exact le_refl _
      · exact ((List.pairwise_cons.1 hs).1 i h).le

/-- A cheapest set of elements without zero costs contains exactly the negative ones. -/
theorem min_set (lc : Fin n → K) (hnz : ∀ i, lc i ≠ 0) {S : Finset (Fin n)}
    (hmin : ∀ T : Finset (Fin n), ∑ j ∈ S, lc j ≤ ∑ j ∈ T, lc j) (j : Fin n) : j ∈ S ↔ lc j < 0 := by
  constructor
  · intro hj
    have h1 := hmin (S.erase j)
    rw [← Finset.add_sum_erase S lc hj] at h1
    exact lt_of_le_of_ne (by linarith) (hnz j)
  · intro hlt
    by_contra hj
    have h1 := hmin (insert j S)
    rw [Finset.sum_insert hj] at h1
    linarith

/-- Exchange: a walk through the second vertex of the best one is no better than the best one without its first element. -/
theorem exchange (lc : Fin n → K) (hdesc : ∀ i j, i ≤ j → lc j ≤ lc i) (hnz : ∀ i, lc i ≠ 0) {S : Finset (Fin n)}
    (hmin : ∀ T : Finset (Fin n), ∑ j ∈ S, lc j ≤ ∑ j ∈ T, lc j) {T : Finset (Fin n)} (hT : T ≠ S) :
    ∃ T' : Finset (Fin n), (pathOf T')[1]? ≠ (pathOf S)[1]? ∧ ∑ j ∈ T', lc j ≤ ∑ j ∈ T, lc j := by
  by_cases h1 : (pathOf T)[1]? = (pathOf S)[1]?
  swap
  · exact ⟨T, h1, le_refl _⟩
  rcases pathOf_one T with ⟨hT0, hT1⟩ | ⟨x, hx, hxm, hT1⟩
  · rcases pathOf_one S with ⟨hS0, _⟩ | ⟨y, _, _, hS1⟩
    · exact absurd (hT0.trans hS0.symm) hT
    · rw [hT1, hS1, Option.some.injEq, Fin.mk.injEq] at h1
      have := y.isLt
      omega
  · rcases pathOf_one S with ⟨_, hS1⟩ | ⟨y, hy, hym, hS1⟩
    · rw [hT1, hS1, Option.some.injEq, Fin.mk.injEq] at h1
      have := x.isLt
      omega
    · rw [hT1, hS1, Option.some.injEq, Fin.mk.injEq] at h1
      have hxy : x = y := Fin.ext (by omega)
      subst hxy
      have hneg := (min_set lc hnz hmin x).1 hy
      have hsub : T ⊆ S := by
        intro i hi
        rw [min_set lc hnz hmin]
        exact lt_of_le_of_lt (hdesc x i (hxm i hi)) hneg
      obtain ⟨z, hzS, hzT⟩ : ∃ z ∈ S, z ∉ T := by
        by_contra hcon
        push Not at hcon
        exact hT (hsub.antisymm hcon)
      refine ⟨S.erase x, ?_, ?_⟩
      · rw [hS1]
        rcases pathOf_one (S.erase x) with ⟨_, h⟩ | ⟨w, hw, _, h⟩
        · rw [h, ne_eq, Option.some.injEq, Fin.mk.injEq]
          have := x.isLt
          omega
        · rw [h, ne_eq, Option.some.injEq, Fin.mk.injEq]
          intro hcon
          exact (Finset.mem_erase.1 hw).1 (Fin.ext (by omega))
      · have e1 := Finset.add_sum_erase S lc hy
        have e2 := Finset.add_sum_erase S lc hzS
        have e3 : ∑ j ∈ S.erase z, lc j ≤ ∑ j ∈ T, lc j := by
          have hsub' : T ⊆ S.erase z := by
            intro i hi
            rw [Finset.mem_erase]
            exact ⟨fun h => hzT (h ▸ hi), hsub hi⟩
          rw [← Finset.sum_sdiff hsub']
          have : ∑ j ∈ S.erase z \ T, lc j ≤ 0 := by
            apply Finset.sum_nonpos
            intro j hj
            exact ((min_set lc hnz hmin j).1 (Finset.mem_of_mem_erase (Finset.mem_sdiff.1 hj).1)).le
          linarith
        have e4 := hdesc x z (hym z hzS)
        linarith

theorem decode_pathOf (σ : Equiv.Perm (Fin n)) (T : Finset (Fin n)) :
    decodePath σ (pathOf T) = some (((List.finRange n).filter (· ∈ T)).map σ) := by
  have : (pathOf T).tail.dropLast =
      ((List.finRange n).filter (· ∈ T)).map (fun j => (⟨j.val + 1, by omega⟩ : Fin (n + 2))) := by
    unfold pathOf
    rw [List.tail_cons, List.dropLast_concat]
  unfold decodePath
  rw [this]
  generalize (List.finRange n).filter (· ∈ T) = l
  induction l with
  | nil => rfl
  | cons j l ih =>
    rw [List.map_cons, List.mapM_cons, ih, dif_pos ⟨by simp, j.isLt⟩]
    rfl

/-- The elements of a decoded path. -/
def elems (σ : Equiv.Perm (Fin n)) (T : Finset (Fin n)) : List (Fin n) := ((List.finRange n).filter (· ∈ T)).map σ

theorem elems_toFinset (σ : Equiv.Perm (Fin n)) (T : Finset (Fin n)) :
    (elems σ T).toFinset = T.map σ.toEmbedding := by
  ext i
  simp only [elems, List.mem_toFinset, List.mem_map, List.mem_filter, List.mem_finRange, true_and,
    decide_eq_true_eq, Finset.mem_map, Equiv.coe_toEmbedding]

theorem elems_cost (lc : Fin n → K) (σ : Equiv.Perm (Fin n)) (T : Finset (Fin n)) :
    subsetCost lc (elems σ T).toFinset = ∑ j ∈ T, lc (σ j) := by
  rw [elems_toFinset, subsetCost, Finset.sum_map]
  rfl

/-- The first two paths are the two cheapest subsets. -/
theorem kShortest_two (lc : Fin n → K) (σ : Equiv.Perm (Fin n)) {eps : K} (heps : 0 < eps)
    (hdesc : ∀ i j, i ≤ j → lc (σ j) ≤ lc (σ i)) (hnz : ∀ i, eps ≤ |lc i|) {k : ℕ} (hk : 2 ≤ k) :
    ∃ p rest, kShortest lc σ eps k = .ok ((p, ((subsetCost lc p.toFinset + eps : K) : WithTop K)) :: rest) ∧
      rest.length < k ∧ (∀ T, subsetCost lc p.toFinset ≤ subsetCost lc T) ∧
      ((n = 0 ∧ rest = []) ∨
       (0 < n ∧ ∃ q rest', rest = (q, ((subsetCost lc q.toFinset + eps : K) : WithTop K)) :: rest' ∧
        q.toFinset ≠ p.toFinset ∧ (∀ T, T ≠ p.toFinset → subsetCost lc q.toFinset ≤ subsetCost lc T) ∧
        (n = 1 → rest' = []))) := by
  have hnt : ∀ i, lc (σ i) = 0 ∨ eps ≤ |lc (σ i)| := fun i => .inr (hnz (σ i))
  have hne : ∀ i, lc (σ i) ≠ 0 := by
    intro i h
    have := hnz (σ i)
    rw [h, abs_zero] at this
    exact absurd heps (not_lt.2 this)
  have hdag := costPad_dag (fun i => lc (σ i)) heps
  have hntp := costPad_noTiny (fun i => lc (σ i)) heps hnt
  obtain ⟨dist, path, pred, hb, hcase⟩ := bfm_spec (G := costPad (fun i => lc (σ i)) eps)
    (eps := eps) (by omega) (by rw [tiny_iff heps]; simpa using hntp) ⟨0, by omega⟩
    ⟨n + 1, by omega⟩ (hdag.noNeg _) (n + 2) (le_refl _)
  have hwalk := pathOf_walk (fun i => lc (σ i)) heps (fun i => hnz (σ i))
  rcases hcase with ⟨_, _, h3⟩ | ⟨d, h1, hw, _, hmin⟩
  · exact absurd (hwalk ∅) (h3 _ _)
  subst h1
  obtain ⟨S, hS, hd⟩ := walk_pathOf (fun i => lc (σ i)) heps hw
  have hminS : ∀ T : Finset (Fin n), ∑ j ∈ S, lc (σ j) ≤ ∑ j ∈ T, lc (σ j) := by
    intro T
    have := hmin _ _ (hwalk T)
    rw [hd] at this
    exact le_of_add_le_add_right this
  subst hS
  have hex : ∀ l a, Walk (costPad (fun i => lc (σ i)) eps) eps ⟨0, by omega⟩ ⟨n + 1, by omega⟩ l a → l ≠ pathOf S →
      ∃ l' a', Walk (costPad (fun i => lc (σ i)) eps) eps ⟨0, by omega⟩ ⟨n + 1, by omega⟩ l' a' ∧
        l'[1]? ≠ (pathOf S)[1]? ∧ a' ≤ a := by
    intro l a hl hlS
    obtain ⟨T, rfl, ha⟩ := walk_pathOf (fun i => lc (σ i)) heps hl
    obtain ⟨T', h1, h2⟩ := exchange (fun i => lc (σ i)) hdesc hne hminS (T := T) (fun h => hlS (by rw [h]))
    refine ⟨_, _, hwalk T', h1, ?_⟩
    rw [ha]
    linarith
  have hfin : ∀ u v, costPad (fun i => lc (σ i)) eps u v ≠ ⊤ :=
    fun u v => by unfold costPad; split <;> [split <;> exact WithTop.coe_ne_top; simp]
  obtain ⟨st, k1, k2, k3, hc⟩ := yen_two (by omega) heps hdag hntp hfin hw (pathOf_good S) hex hk
  obtain ⟨r, hr, hq⟩ := mapM_exists
    (fun pc : List (Fin (n + 2)) × WithTop K => (decodePath σ pc.1).map fun l => (l, pc.2))
    (fun pc q => (decodePath σ pc.1).map (fun l => (l, pc.2)) = some q) st.out (by
      intro pc hpc
      obtain ⟨l, h1, h2, h3⟩ := decodePath_good (K := K) σ (k2.goodOut pc hpc)
      exact ⟨(l, pc.2), by rw [h1]; rfl, by rw [h1]; rfl⟩)
  have hrun : kShortest lc σ eps k = .ok r := by
    unfold kShortest kHelper
    rw [if_neg (by omega), hb]
    have : yenLoop (costPad (fun i => lc (σ i)) eps) eps ⟨n + 1, by omega⟩ k k
        { P := [(pathOf S, (d : WithTop K))], S := [⟨0, by omega⟩]
          X := [(0, (d : WithTop K))]
          out := [(pathOf S, (d : WithTop K))], cur := 0 } = .ok st := k1
    unfold pathOf at this ⊢
    simp only
    rw [this]
    simp only
    rw [hr]
  have hlen := hq.length_eq
  have hdec : ∀ (T : Finset (Fin n)) (c : K) (q : List (Fin n) × WithTop K), c = (∑ j ∈ T, lc (σ j)) + eps →
      (decodePath σ (pathOf T)).map (fun l => (l, ((c : K) : WithTop K))) = some q →
      q = (elems σ T, ((subsetCost lc (elems σ T).toFinset + eps : K) : WithTop K)) := by
    intro T c q hc h
    rw [decode_pathOf, Option.map_some, Option.some.injEq] at h
    rw [← h, elems_cost, hc]
    rfl
  have hbest : ∀ T, subsetCost lc (elems σ S).toFinset ≤ subsetCost lc T := by
    intro T
    have h1 := hminS (T.map σ.symm.toEmbedding)
    rw [Finset.sum_map] at h1
    rw [elems_cost]
    simpa [subsetCost] using h1
  rcases hc with ⟨hout, hall⟩ | ⟨l0, a0, rest, hl0, hne0, hout, hmin0, hrest⟩
  · rw [hout] at hq
    cases hq with
    | @cons _ q0 _ rest hq0 hr' =>
      cases hr'
      have := hdec S d q0 hd hq0
      subst this
      refine ⟨elems σ S, [], hrun, by simp; omega, hbest, .inl ⟨?_, rfl⟩⟩
      by_contra hn
      have e1 := pathOf_inj (hall _ _ (hwalk ∅))
      have e2 := pathOf_inj (hall _ _ (hwalk Finset.univ))
      have : (⟨0, by omega⟩ : Fin n) ∈ (∅ : Finset (Fin n)) := by
        rw [e1, ← e2]
        exact Finset.mem_univ _
      simp at this
  · rw [hout] at hq hlen
    obtain ⟨T0, hT0, ha0⟩ := walk_pathOf (fun i => lc (σ i)) heps hl0
    subst hT0
    have hTS : T0 ≠ S := fun h => hne0 (by rw [h])
    cases hq with
    | @cons _ q0 _ r' hq0 hr' =>
      cases hr' with
      | @cons _ q1 _ r'' hq1 hr'' =>
        have e0 := hdec S d q0 hd hq0
        have e1 := hdec T0 a0 q1 ha0 hq1
        subst e0 e1
        have hn : 0 < n := by
          by_contra hn
          have : n = 0 := by omega
          subst this
          exact hTS (Subsingleton.elim _ _)
        refine ⟨elems σ S, _, hrun, ?_, hbest, .inr ⟨hn, elems σ T0, r'', rfl, ?_, ?_, ?_⟩⟩
        · rw [hout] at k3
          simp only [List.length_cons] at k3 hlen ⊢
          omega
        · rw [elems_toFinset, elems_toFinset]
          intro h
          exact hTS (Finset.map_injective _ h)
        · intro T hT
          rw [elems_toFinset] at hT
          have h1 := hmin0 _ _ (hwalk (T.map σ.symm.toEmbedding)) (by
            intro h
            apply hT
            have := pathOf_inj h
            rw [← this, Finset.map_map]
            ext i
            simp)
          rw [ha0, add_le_add_iff_right, Finset.sum_map] at h1
          rw [elems_cost]
          simpa [subsetCost] using h1
        · rintro rfl
          have hrest' := hrest (by
            intro l a hl
            obtain ⟨T, rfl, _⟩ := walk_pathOf (fun i => lc (σ i)) heps hl
            have hfin1 : ∀ A B : Finset (Fin 1), A = B ∨ A = Bᶜ := by decide
            rcases hfin1 T S with h | h
            · exact .inl (by rw [h])
            · rcases hfin1 T0 S with h' | h'
              · exact absurd h' hTS
              · exact .inr (by rw [h, h']))
          rw [hrest'] at hr''
          cases hr''
          rfl

end Gasur.KShortest
