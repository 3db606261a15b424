import Verif.Proofs.KShortest
import Mathlib.Data.Finset.Sort
import Mathlib.Algebra.BigOperators.WithTop

/-! `k_shortest` on a graph some of whose vertices cannot be reached: the other vertices are all that matters. -/

set_option linter.unusedSectionVars false
set_option linter.unusedSimpArgs false

namespace Gasur.KSub

open Gasur.Bfm Gasur.KShortest Gasur.Spec Gasur.Props

variable {K : Type*} [CommRing K] [LinearOrder K] [IsStrictOrderedRing K] {N M : ℕ}

/-- `G` restricted to the vertices `ι` is `G'`, and no arc of finite cost enters another vertex. -/
structure Sub (ι : Fin M → Fin N) (G : Fin N → Fin N → WithTop K) (G' : Fin M → Fin M → WithTop K) : Prop where
  mono : StrictMono ι
  hin : ∀ a b, G (ι a) (ι b) = G' a b
  hout : ∀ u v, (∀ a, ι a ≠ v) → G u v = ⊤ ∨ G u v = 0

variable {ι : Fin M → Fin N} {G : Fin N → Fin N → WithTop K} {G' : Fin M → Fin M → WithTop K} {eps : K}

/-- Folding over all vertices, when those outside the range of `ι` change nothing. -/
theorem foldl_sub {σ σ' : Type*} (hι : StrictMono ι) {R : σ → σ' → Prop} {f : σ → Fin N → σ} {g : σ' → Fin M → σ'}
    (h1 : ∀ s s' a, R s s' → R (f s (ι a)) (g s' a)) (h2 : ∀ s s' v, (∀ a, ι a ≠ v) → R s s' → R (f s v) s')
    {s : σ} {s' : σ'} (h : R s s') : R ((List.finRange N).foldl f s) ((List.finRange M).foldl g s') := by
  classical
  have key : (List.finRange N).filter (fun v => decide (∃ a, ι a = v)) = (List.finRange M).map ι := by
    refine List.Perm.eq_of_pairwise (le := (· < ·)) (fun a b _ _ h h' => absurd h (lt_asymm h')) ?_ ?_ ?_
    · exact (List.pairwise_lt_finRange N).filter _
    · exact List.pairwise_map.2 ((List.pairwise_lt_finRange M).imp fun h => hι h)
    · rw [List.perm_ext_iff_of_nodup ((List.nodup_finRange N).filter _)
        ((List.nodup_finRange M).map hι.injective)]
      intro v
      simp
  have gen : ∀ (l : List (Fin N)) (l' : List (Fin M)) (s : σ) (s' : σ'),
      l.filter (fun v => decide (∃ a, ι a = v)) = l'.map ι → R s s' → R (l.foldl f s) (l'.foldl g s') := by
    intro l
    induction l with
    | nil =>
      intro l' s s' hl hr
      cases l' with
      | nil => exact hr
      | cons _ _ => simp at hl
    | cons v l ih =>
      intro l' s s' hl hr
      by_cases hv : ∃ a, ι a = v
      · rw [List.filter_cons_of_pos (by simpa using hv)] at hl
        cases l' with
        | nil => simp at hl
        | cons b l' =>
          rw [List.map_cons, List.cons.injEq] at hl
          rw [List.foldl_cons, List.foldl_cons, hl.1]
          exact ih l' _ _ hl.2 (h1 _ _ _ hr)
      · rw [List.filter_cons_of_neg (by simpa using hv)] at hl
        rw [List.foldl_cons]
        exact ih l' _ _ hl (h2 _ _ _ (by simpa using hv) hr)
  exact gen _ _ _ _ key h

/-- Corresponding states of the search. -/
structure SimS (ι : Fin M → Fin N) (s : Bfm.St K N) (s' : Bfm.St K M) : Prop where
  dist : ∀ a, s.D (ι a) = s'.D a
  top : ∀ v, (∀ a, ι a ≠ v) → s.D v = ⊤
  pred : ∀ a, s.p (ι a) = ι (s'.p a)
  opt : s.optimal = s'.optimal

theorem relax_sub (hS : Sub ι G G') {s : Bfm.St K N} {s' : Bfm.St K M} (h : SimS ι s s') (a b : Fin M) :
    SimS ι (relax G s (ι a, ι b)) (relax G' s' (a, b)) := by
  unfold relax
  dsimp only
  rw [h.dist, h.dist, hS.hin]
  split
  · refine ⟨?_, ?_, ?_, rfl⟩
    · intro c
      dsimp only
      by_cases hc : c = b
      · subst hc; simp
      · rw [Function.update_of_ne (fun he => hc (hS.mono.injective he)), Function.update_of_ne hc, h.dist]
    · intro v hv
      dsimp only
      rw [Function.update_of_ne (fun he => hv b he.symm)]
      exact h.top v hv
    · intro c
      dsimp only
      by_cases hc : c = b
      · subst hc; simp
      · rw [Function.update_of_ne (fun he => hc (hS.mono.injective he)), Function.update_of_ne hc, h.pred]
  · exact h

theorem relax_tail {s : Bfm.St K N} {u v : Fin N} (hu : s.D u = ⊤) : relax G s (u, v) = s := by
  unfold relax
  dsimp only
  rw [hu, WithTop.top_add, if_neg not_top_lt]

theorem relax_head {s : Bfm.St K N} {u v : Fin N} (hv : G u v = ⊤) : relax G s (u, v) = s := by
  unfold relax
  dsimp only
  rw [hv, WithTop.add_top, if_neg not_top_lt]

theorem isArc_zero (heps : 0 < eps) : isArc eps (0 : WithTop K) = false := by
  show decide (eps ≤ |(0 : K)|) = false
  simpa using heps

theorem sweep_sub (heps : 0 < eps) (hS : Sub ι G G') {s : Bfm.St K N} {s' : Bfm.St K M} (h : SimS ι s s') :
    SimS ι (sweep G eps s) (sweep G' eps s') := by
  unfold sweep arcs
  rw [List.foldl_flatMap, List.foldl_flatMap]
  refine foldl_sub hS.mono (R := SimS ι) ?_ ?_ ⟨h.dist, h.top, h.pred, rfl⟩
  · intro s s' b hs
    rw [List.foldl_map, List.foldl_map, List.foldl_filter, List.foldl_filter]
    refine foldl_sub hS.mono (R := SimS ι) ?_ ?_ hs
    · intro s s' a hs
      rw [hS.hin]
      split
      · exact relax_sub hS hs a b
      · exact hs
    · intro s s' v hv hs
      split
      · rw [relax_tail (hs.top v hv)]
        exact hs
      · exact hs
  · intro s s' v hv hs
    rw [List.foldl_map, List.foldl_filter]
    have : ∀ (l : List (Fin N)), l.foldl (fun x y => if isArc eps (G y v) = true then relax G x (y, v) else x) s = s := by
      intro l
      induction l with
      | nil => rfl
      | cons u l ih =>
        rw [List.foldl_cons]
        have : (if isArc eps (G u v) = true then relax G s (u, v) else s) = s := by
          rcases hS.hout u v hv with ht | h0
          · rw [relax_head ht]; simp
          · rw [h0, isArc_zero heps]; simp
        rw [this]
        exact ih
    rw [this]
    exact hs

theorem sweeps_sub (heps : 0 < eps) (hS : Sub ι G G') : ∀ (k : ℕ) {s : Bfm.St K N} {s' : Bfm.St K M}, SimS ι s s' →
    SimS ι (sweeps G eps k s) (sweeps G' eps k s')
  | 0, _, _, h => h
  | k + 1, s, s', h => by
    unfold sweeps
    have h1 := sweep_sub heps hS h
    rw [h1.opt]
    split
    · exact h1
    · exact sweeps_sub heps hS k h1

theorem initSt_sub (hι : StrictMono ι) (hM : 0 < M) (h0 : ι ⟨0, hM⟩ = ⟨0, Nat.lt_of_le_of_lt (Nat.zero_le _) (ι ⟨0, hM⟩).isLt⟩)
    (r : Fin M) : SimS (K := K) ι (initSt (ι r)) (initSt r) := by
  refine ⟨?_, ?_, ?_, rfl⟩
  · intro a
    simp only [initSt, hι.injective.eq_iff]
  · intro v hv
    simp only [initSt]
    rw [if_neg (fun he => hv r he.symm)]
  · intro a
    simp only [initSt]
    exact h0.symm

theorem sweep_fixed {s : Bfm.St K N} (hf : Fixed G eps s) : sweep G eps s = { s with optimal := true } := by
  unfold sweep
  have : ∀ (l : List (Fin N × Fin N)) (s0 : Bfm.St K N), (∀ a ∈ l, isArc eps (G a.1 a.2) = true) → s0.D = s.D →
      l.foldl (relax G) s0 = s0 := by
    intro l
    induction l with
    | nil => intros; rfl
    | cons a l ih =>
      intro s0 ha hs
      rw [List.foldl_cons]
      have : relax G s0 a = s0 := by
        unfold relax
        rw [if_neg]
        rw [hs]
        have h1 := ha a List.mem_cons_self
        cases hg : G a.1 a.2 with
        | top => simp
        | coe w =>
          rw [hg] at h1
          exact not_lt.2 (hf a.1 a.2 w ⟨hg, by simpa [isArc] using h1⟩)
      rw [this]
      exact ih s0 (fun b hb => ha b (List.mem_cons_of_mem _ hb)) hs
  exact this _ _ (fun a ha => mem_arcs.1 ha) rfl

/-- More sweeps than needed change nothing. -/
theorem sweeps_more : ∀ (k j : ℕ) (s : Bfm.St K N), Fixed G eps (sweeps G eps k s) →
    (sweeps G eps (k + j) s).D = (sweeps G eps k s).D ∧ (sweeps G eps (k + j) s).p = (sweeps G eps k s).p
  | 0, 0, _, _ => ⟨rfl, rfl⟩
  | 0, j + 1, s, hf => by
    rw [Nat.zero_add]
    have hf : Fixed G eps s := hf
    unfold sweeps
    rw [sweep_fixed hf, if_pos rfl]
    exact ⟨rfl, rfl⟩
  | k + 1, j, s, hf => by
    rw [Nat.add_right_comm]
    unfold sweeps at hf ⊢
    split
    · exact ⟨rfl, rfl⟩
    · rename_i hc
      rw [if_neg hc] at hf
      exact sweeps_more k j _ hf

theorem final_fixed {r : Fin N} (hn : NoNegCycle G eps r) : Fixed G eps (sweeps G eps (N - 1) (initSt r)) := by
  have hinv : Inv G eps r (sweeps G eps (N - 1) (initSt r)) := Inv.sweeps hn _ Inv.init
  intro u v w harc
  rcases top_or ((sweeps G eps (N - 1) (initSt r)).D u) with h | ⟨d, h⟩
  · rw [h, WithTop.top_add]
    exact le_top
  · obtain ⟨l, hl⟩ := hinv.sound u d h
    rw [h, ← WithTop.coe_add]
    exact final_bound hn (hl.snoc harc)

theorem walkBack_sub (hι : StrictMono ι) {p : Fin N → Fin N} {p' : Fin M → Fin M} (hp : ∀ a, p (ι a) = ι (p' a)) (src : Fin M) :
    ∀ (k : ℕ) (v : Fin M) (path : List (Fin M)),
      walkBack p (ι src) k (ι v) (path.map ι) = (walkBack p' src k v path).map (List.map ι)
  | 0, _, _ => rfl
  | k + 1, v, path => by
    unfold walkBack
    by_cases hv : v = src
    · rw [if_pos hv, if_pos (by rw [hv])]
      rfl
    · rw [if_neg hv, if_neg (fun he => hv (hι.injective he)), hp, ← List.map_cons]
      exact walkBack_sub hι hp src k _ _

theorem walkBack_more {p : Fin N → Fin N} {src : Fin N} : ∀ (k j : ℕ) (v : Fin N) (path : List (Fin N)) {r},
    walkBack p src k v path = some r → walkBack p src (k + j) v path = some r
  | 0, _, _, _, _, h => by simp [walkBack] at h
  | k + 1, j, v, path, r, h => by
    rw [Nat.add_right_comm]
    unfold walkBack at h ⊢
    split
    · rename_i hv
      rwa [if_pos hv] at h
    · rename_i hv
      rw [if_neg hv] at h
      exact walkBack_more k j _ _ h

/-- What the two graphs must satisfy. -/
structure Ok (ι : Fin M → Fin N) (G : Fin N → Fin N → WithTop K) (G' : Fin M → Fin M → WithTop K) (eps : K) : Prop where
  sub : Sub ι G G'
  two : 2 ≤ M
  zero : ∀ h : 0 < M, ι ⟨0, h⟩ = ⟨0, Nat.lt_of_le_of_lt (Nat.zero_le _) (ι ⟨0, h⟩).isLt⟩
  tiny : NoTiny G eps
  tiny' : NoTiny G' eps
  dag : Dag G' eps

theorem bfm_sub (heps : 0 < eps) (hO : Ok ι G G' eps) (src dst : Fin M) :
    ∃ d path pred pred', bfm G' eps src dst M = .ok (d, path, pred') ∧
      bfm G eps (ι src) (ι dst) N = .ok (d, path.map ι, pred) := by
  have hMN : M ≤ N := by
    have := Fintype.card_le_of_injective ι hO.sub.mono.injective
    simpa using this
  have hM2 := hO.two
  obtain ⟨d, path, pred', hb, _⟩ := bfm_spec (G := G') (eps := eps) hO.two
    (by rw [tiny_iff heps]; simpa using hO.tiny') src dst (hO.dag.noNeg _) M (le_refl _)
  refine ⟨d, path, (sweeps G eps (N - 1) (initSt (ι src))).p, pred', hb, ?_⟩
  · unfold bfm bfmHelper at hb ⊢
    rw [if_neg (by omega), if_neg (by rw [tiny_iff heps]; simpa using hO.tiny')] at hb
    rw [if_neg (by omega), if_neg (by rw [tiny_iff heps]; simpa using hO.tiny)]
    dsimp only at hb ⊢
    have hs := sweeps_sub heps hO.sub (N - 1) (initSt_sub (K := K) hO.sub.mono (by omega) (hO.zero _) src)
    obtain ⟨e1, e2⟩ := sweeps_more (M - 1) (N - M) (initSt src) (final_fixed (hO.dag.noNeg src))
    rw [show M - 1 + (N - M) = N - 1 by omega] at e1 e2
    have hD : (sweeps G eps (N - 1) (initSt (ι src))).D (ι dst) = (sweeps G' eps (M - 1) (initSt src)).D dst := by
      rw [hs.dist, e1]
    rw [hD]
    cases hd : (sweeps G' eps (M - 1) (initSt src)).D dst with
    | top =>
      rw [hd] at hb
      dsimp only at hb ⊢
      obtain ⟨rfl, rfl, _⟩ := Prod.mk.inj (Except.ok.inj hb) |>.imp id (fun h => Prod.mk.inj h)
      rfl
    | coe x =>
      rw [hd] at hb
      dsimp only at hb ⊢
      have hw := walkBack_sub hO.sub.mono (p := (sweeps G eps (N - 1) (initSt (ι src))).p) (p' := (sweeps G' eps (M - 1) (initSt src)).p) (fun a => by
        rw [hs.pred, e2]) src N dst [dst]
      cases hwb : walkBack (sweeps G' eps (M - 1) (initSt src)).p src M dst [dst] with
      | none => rw [hwb] at hb; exact (nomatch hb)
      | some q =>
        rw [hwb] at hb
        have hm := walkBack_more M (N - M) dst [dst] hwb
        rw [show M + (N - M) = N by omega] at hm
        rw [hm] at hw
        rw [show [ι dst] = [dst].map ι from rfl, hw]
        dsimp only [Option.map] at hb ⊢
        obtain ⟨rfl, rfl, _⟩ := Prod.mk.inj (Except.ok.inj hb) |>.imp id (fun h => Prod.mk.inj h)
        rfl

theorem tempMat_sub (hS : Sub ι G G') (rem : List (Fin M)) (v' : Fin M) (nxts : List (Fin M)) :
    Sub ι (tempMat G (rem.map ι) (ι v') (nxts.map ι)) (tempMat G' rem v' nxts) := by
  refine ⟨hS.mono, ?_, ?_⟩
  · intro a b
    unfold tempMat
    simp only [List.mem_map_of_injective hS.mono.injective, hS.mono.injective.eq_iff, hS.hin]
  · intro u v hv
    unfold tempMat
    split
    · exact .inl rfl
    · split
      · exact .inl rfl
      · exact hS.hout u v hv

theorem Ok.temp (hO : Ok ι G G' eps) (rem : List (Fin M)) (v' : Fin M) (nxts : List (Fin M)) :
    Ok ι (tempMat G (rem.map ι) (ι v') (nxts.map ι)) (tempMat G' rem v' nxts) eps :=
  ⟨tempMat_sub hO.sub rem v' nxts, hO.two, hO.zero, NoTiny.temp hO.tiny _ _ _, NoTiny.temp hO.tiny' _ _ _, hO.dag.temp _ _ _⟩

theorem pathCost_sub (hS : Sub ι G G') : ∀ l : List (Fin M), pathCost G (l.map ι) = pathCost G' l
  | [] => rfl
  | [_] => rfl
  | a :: b :: l => by
    rw [List.map_cons, List.map_cons, pathCost, pathCost, ← List.map_cons, pathCost_sub hS (b :: l), hS.hin]

/-- The image of a path with its cost. -/
def upP (ι : Fin M → Fin N) (pc : List (Fin M) × WithTop K) : List (Fin N) × WithTop K := (pc.1.map ι, pc.2)

/-- The image of the tables. -/
def upY (ι : Fin M → Fin N) (st : YSt K M) : YSt K N :=
  { P := st.P.map (upP ι), S := st.S.map ι, X := st.X, out := st.out.map (upP ι), cur := st.cur }

theorem samePrefix_sub (hι : Function.Injective ι) (path : List (Fin M)) (out : List (List (Fin M))) (ind : ℕ) :
    samePrefix (path.map ι) (out.map (List.map ι)) ind = (samePrefix path out ind).map (List.map ι) := by
  unfold samePrefix
  rw [List.map_cons, List.filter_map]
  congr 2
  apply List.filter_congr
  intro sp _
  simp only [Function.comp_def, List.length_map, ← List.map_take, (List.map_injective_iff.2 hι).eq_iff]

theorem mapM_sub (l : List (List (Fin M))) (i : ℕ) :
    (l.map (List.map ι)).mapM (fun sp => sp[i]?) = (l.mapM fun sp => sp[i]?).map (List.map ι) := by
  induction l with
  | nil => rfl
  | cons a l ih =>
    rw [List.map_cons, List.mapM_cons, List.mapM_cons, ih, List.getElem?_map]
    cases a[i]? with
    | none => rfl
    | some x =>
      cases l.mapM (fun sp => sp[i]?) with
      | none => rfl
      | some r => rfl

theorem deviate_sub (heps : 0 < eps) (hO : Ok ι G G' eps) (dst : Fin M) (path : List (Fin M)) (st : YSt K M) (ind : ℕ) :
    deviate G eps (ι dst) (path.map ι) (upY ι st) ind = (deviate G' eps dst path st ind).map (upY ι) := by
  unfold deviate
  have ho : (upY ι st).out.map Prod.fst = (st.out.map Prod.fst).map (List.map ι) := by
    simp [upY, upP, Function.comp_def]
  rw [ho, samePrefix_sub hO.sub.mono.injective, mapM_sub, List.getElem?_map]
  cases path[ind]? with
  | none => rfl
  | some v' =>
    dsimp only [Option.map]
    cases (samePrefix path (st.out.map Prod.fst) ind).mapM (fun sp => sp[ind + 1]?) with
    | none => rfl
    | some nxts =>
      dsimp only
      obtain ⟨d, dev, q, q', b1, b2⟩ := bfm_sub heps (hO.temp (path.take (ind - 1)) v' nxts) v' dst
      rw [← List.map_take, b2, b1]
      dsimp only
      by_cases hd : dev = []
      · rw [if_pos hd, if_pos (by rw [hd]; rfl)]
        rfl
      · rw [if_neg hd, if_neg (by simpa using hd), ← List.map_take, pathCost_sub hO.sub]
        simp [Except.map, upY, upP, joinDev]

theorem foldDev_sub (heps : 0 < eps) (hO : Ok ι G G' eps) (dst : Fin M) (path : List (Fin M)) :
    ∀ (is : List ℕ) (st : YSt K M), is.foldlM (deviate G eps (ι dst) (path.map ι)) (upY ι st) =
      (is.foldlM (deviate G' eps dst path) st).map (upY ι)
  | [], st => rfl
  | i :: is, st => by
    rw [List.foldlM_cons, List.foldlM_cons, deviate_sub heps hO]
    cases deviate G' eps dst path st i with
    | error e => rfl
    | ok st' => exact foldDev_sub heps hO dst path is st'

theorem lastIdx_sub (hι : Function.Injective ι) (w : Fin M) : ∀ l : List (Fin M), lastIdx (ι w) (l.map ι) = lastIdx w l
  | [] => rfl
  | a :: l => by
    rw [List.map_cons, lastIdx, lastIdx, lastIdx_sub hι w l]
    simp only [hι.eq_iff]

theorem yenStep_sub (heps : 0 < eps) (hO : Ok ι G G' eps) (dst : Fin M) (st : YSt K M) :
    yenStep G eps (ι dst) (upY ι st) = (yenStep G' eps dst st).map (upY ι) := by
  unfold yenStep
  have hP : (upY ι st).P[(upY ι st).cur]? = (st.P[st.cur]?).map (upP ι) := List.getElem?_map ..
  have hS : (upY ι st).S[(upY ι st).cur]? = (st.S[st.cur]?).map ι := List.getElem?_map ..
  rw [hP, hS]
  cases st.P[st.cur]? with
  | none => rfl
  | some pc =>
    obtain ⟨path, c⟩ := pc
    cases st.S[st.cur]? with
    | none => rfl
    | some w =>
      simp only [Option.map_some, upP]
      rw [lastIdx_sub hO.sub.mono.injective, List.length_map]
      cases lastIdx w path with
      | none => rfl
      | some wi =>
        dsimp only
        have e : ({ upY ι st with X := (upY ι st).X.eraseP fun x => x.1 == (upY ι st).cur } : YSt K N) =
            upY ι { st with X := st.X.eraseP fun x => x.1 == st.cur } := rfl
        rw [e, foldDev_sub heps hO]
        cases ((List.range (path.length - 1)).drop wi).foldlM (deviate G' eps dst path)
            { st with X := st.X.eraseP fun x => x.1 == st.cur } with
        | error e => rfl
        | ok st' =>
          simp only [Except.map]
          have e2 : (upY ι st').X = st'.X := rfl
          rw [e2]
          cases minX st'.X with
          | none => rfl
          | some x =>
            obtain ⟨i, ci⟩ := x
            dsimp only
            have e3 : (upY ι st').P[i]? = (st'.P[i]?).map (upP ι) := List.getElem?_map ..
            rw [e3]
            cases st'.P[i]? with
            | none => rfl
            | some pc => simp [upY]

theorem yenLoop_sub (heps : 0 < eps) (hO : Ok ι G G' eps) (dst : Fin M) (k : ℕ) :
    ∀ (fuel : ℕ) (st : YSt K M), yenLoop G eps (ι dst) k fuel (upY ι st) = (yenLoop G' eps dst k fuel st).map (upY ι)
  | 0, _ => rfl
  | fuel + 1, st => by
    unfold yenLoop
    have e : ((upY ι st).out.length < k ∧ (upY ι st).X ≠ []) ↔ (st.out.length < k ∧ st.X ≠ []) := by
      simp [upY]
    by_cases hc : st.out.length < k ∧ st.X ≠ []
    · rw [if_pos hc, if_pos (e.2 hc), yenStep_sub heps hO]
      cases yenStep G' eps dst st with
      | error e => rfl
      | ok st' => exact yenLoop_sub heps hO dst k fuel st'
    · rw [if_neg hc, if_neg (fun h' => hc (e.1 h'))]
      rfl

theorem kHelper_sub (heps : 0 < eps) (hO : Ok ι G G' eps) (src dst : Fin M) (k : ℕ) :
    kHelper G eps (ι src) (ι dst) k = (kHelper G' eps src dst k).map (List.map (upP ι)) := by
  unfold kHelper
  obtain ⟨d, path, q, q', b1, b2⟩ := bfm_sub heps hO src dst
  rw [b1, b2]
  dsimp only
  cases path with
  | nil => rfl
  | cons a l =>
    simp only [List.map_cons]
    have := yenLoop_sub heps hO dst k k
      { P := [(a :: l, d)], S := [a], X := [(0, d)], out := [(a :: l, d)], cur := 0 }
    have e : upY ι { P := [(a :: l, d)], S := [a], X := [(0, d)], out := [(a :: l, d)], cur := 0 } =
      { P := [(ι a :: l.map ι, d)], S := [ι a], X := [(0, d)], out := [(ι a :: l.map ι, d)], cur := 0 } := rfl
    rw [e] at this
    rw [this]
    cases yenLoop G' eps dst k k
      { P := [(a :: l, d)], S := [a], X := [(0, d)], out := [(a :: l, d)], cur := 0 } with
    | error e => rfl
    | ok st => rfl

/-! ### The graph of `k_shortest` -/

variable {n m : ℕ}

theorem kShortestInf_coe (lc : Fin n → K) (σ : Equiv.Perm (Fin n)) (eps : K) (k : ℕ) :
    kShortestInf (fun i => (lc i : WithTop K)) σ eps k = kShortest lc σ eps k := rfl

/-- The vertices of the elements `f`, with source and sink. -/
def verts (f : Fin m → Fin n) (a : Fin (m + 2)) : Fin (n + 2) :=
  if h0 : a.val = 0 then ⟨0, by omega⟩
  else if h : a.val ≤ m then ⟨(f ⟨a.val - 1, by omega⟩).val + 1, by omega⟩
  else ⟨n + 1, by omega⟩

theorem verts_zero (f : Fin m → Fin n) : verts f ⟨0, by omega⟩ = ⟨0, by omega⟩ := by
  unfold verts
  rw [dif_pos rfl]

theorem verts_last (f : Fin m → Fin n) : verts f ⟨m + 1, by omega⟩ = ⟨n + 1, by omega⟩ := by
  unfold verts
  rw [dif_neg (by simp), dif_neg (by simp)]

theorem verts_mid (f : Fin m → Fin n) {a : Fin (m + 2)} (h0 : 1 ≤ a.val) (h1 : a.val ≤ m) :
    verts f a = ⟨(f ⟨a.val - 1, by omega⟩).val + 1, by omega⟩ := by
  unfold verts
  rw [dif_neg (by omega), dif_pos h1]

theorem verts_mono {f : Fin m → Fin n} (hf : StrictMono f) : StrictMono (verts f) := by
  intro a b hab
  have hab' : a.val < b.val := hab
  rw [Fin.lt_def]
  unfold verts
  by_cases ha : a.val = 0
  · rw [dif_pos ha, dif_neg (by omega)]
    split <;> simp
  · have ha' : a.val ≤ m := by omega
    rw [dif_neg ha, dif_pos ha', dif_neg (show ¬ b.val = 0 by omega)]
    by_cases hb : b.val ≤ m
    · rw [dif_pos hb]
      have h2 : f ⟨a.val - 1, by omega⟩ < f ⟨b.val - 1, by omega⟩ := hf (by
        rw [Fin.lt_def]
        show a.val - 1 < b.val - 1
        omega)
      have h3 : (f ⟨a.val - 1, by omega⟩).val < (f ⟨b.val - 1, by omega⟩).val := h2
      show (f ⟨a.val - 1, _⟩).val + 1 < (f ⟨b.val - 1, _⟩).val + 1
      omega
    · rw [dif_neg hb]
      show (f ⟨a.val - 1, _⟩).val + 1 < n + 1
      omega

theorem costPad_sub {lc : Fin n → WithTop K} {fin : Fin m → K} {f : Fin m → Fin n} (hf : StrictMono f)
    (hfin : ∀ j, lc (f j) = fin j) (hinf : ∀ i, (∀ j, f j ≠ i) → lc i = ⊤) (eps : K) :
    Sub (verts f) (costPadInf lc eps) (costPad fin eps) := by
  refine ⟨verts_mono hf, ?_, ?_⟩
  · intro a b
    unfold costPadInf costPad
    have hiff : (verts f a).val < (verts f b).val ↔ a.val < b.val := (verts_mono hf).lt_iff_lt
    by_cases hab : a.val < b.val
    · rw [dif_pos hab, dif_pos (hiff.2 hab)]
      by_cases hb : b.val ≤ m
      · rw [dif_pos hb]
        have hv := verts_mid f (by omega) hb
        have hle : (verts f b).val ≤ n := by
          rw [hv]
          show (f _).val + 1 ≤ n
          omega
        rw [dif_pos hle, ← hfin]
        congr 1
        apply Fin.ext
        show (verts f b).val - 1 = _
        rw [hv]
        rfl
      · have : b = ⟨m + 1, by omega⟩ := by
          apply Fin.ext
          show b.val = m + 1
          omega
        rw [dif_neg hb, dif_neg (by rw [this, verts_last]; simp)]
    · rw [dif_neg hab, dif_neg (fun h => hab (hiff.1 h))]
  · intro u v hv
    unfold costPadInf
    by_cases huv : u.val < v.val
    · left
      rw [dif_pos huv]
      by_cases hvn : v.val ≤ n
      · rw [dif_pos hvn]
        apply hinf
        intro j hj
        refine hv ⟨j.val + 1, by omega⟩ ?_
        rw [verts_mid f (by simp) (by show j.val + 1 ≤ m; omega)]
        apply Fin.ext
        show (f ⟨j.val + 1 - 1, _⟩).val + 1 = v.val
        have : (⟨j.val + 1 - 1, by omega⟩ : Fin m) = j := Fin.ext (by simp)
        rw [this, hj]
        show v.val - 1 + 1 = v.val
        omega
      · exfalso
        apply hv ⟨m + 1, by omega⟩
        rw [verts_last]
        apply Fin.ext
        show n + 1 = v.val
        omega
    · right
      rw [dif_neg huv]

theorem costPadInf_noTiny (lc : Fin n → WithTop K) {eps : K} (heps : 0 < eps)
    (h : ∀ i (x : K), lc i = x → x = 0 ∨ eps ≤ |x|) : NoTiny (costPadInf lc eps) eps := by
  intro u v w hw
  unfold costPadInf at hw
  split at hw
  · split at hw
    · exact h _ _ hw
    · rw [WithTop.coe_inj] at hw
      rw [← hw, abs_of_pos heps]
      exact .inr (le_refl _)
  · left
    exact_mod_cast hw.symm

theorem decode_sub {f : Fin m → Fin n} {σ : Equiv.Perm (Fin n)} {σ' : Equiv.Perm (Fin m)} {e : Fin m → Fin n}
    (he : ∀ j, e (σ' j) = σ (f j)) (p : List (Fin (m + 2))) {q : List (Fin m)} (h : decodePath σ' p = some q) :
    decodePath σ (p.map (verts f)) = some (q.map e) := by
  unfold decodePath at h ⊢
  rw [← List.map_tail, ← List.map_dropLast]
  generalize p.tail.dropLast = l at h ⊢
  induction l generalizing q with
  | nil =>
    simp only [List.mapM_nil] at h
    obtain rfl := Option.some.inj h
    rfl
  | cons v l ih =>
    rw [List.mapM_cons] at h
    rw [List.map_cons, List.mapM_cons]
    by_cases hv : 1 ≤ v.val ∧ v.val ≤ m
    · rw [dif_pos hv] at h
      cases hl : l.mapM fun v : Fin (m + 2) =>
          if h : 1 ≤ v.val ∧ v.val ≤ m then some (σ' ⟨v.val - 1, by omega⟩) else none with
      | none => rw [hl] at h; exact (nomatch h)
      | some r =>
        rw [hl] at h
        obtain rfl := Option.some.inj h
        rw [ih hl]
        have e1 := verts_mid f hv.1 hv.2
        have hle : 1 ≤ (verts f v).val ∧ (verts f v).val ≤ n := by
          rw [e1]
          exact ⟨by simp, by show (f _).val + 1 ≤ n; omega⟩
        rw [dif_pos hle]
        have : (⟨(verts f v).val - 1, by omega⟩ : Fin n) = f ⟨v.val - 1, by omega⟩ := by
          apply Fin.ext
          show (verts f v).val - 1 = _
          rw [e1]
          rfl
        rw [this, ← he]
        rfl
    · rw [dif_neg hv] at h
      exact (nomatch h)

/-- Elements of infinite cost do not matter. -/
theorem kShortestInf_sub {lc : Fin n → WithTop K} {fin : Fin m → K} {e : Fin m → Fin n} (hinj : Function.Injective e)
    (hfin : ∀ j, lc (e j) = fin j) (hinf : ∀ i, (∀ j, e j ≠ i) → lc i = ⊤) (σ : Equiv.Perm (Fin n))
    (heps : 0 < eps) (hnt : ∀ j, fin j = 0 ∨ eps ≤ |fin j|) (k : ℕ) :
    ∃ σ' : Equiv.Perm (Fin m), (∀ i j, i ≤ j → σ.symm (e (σ' i)) ≤ σ.symm (e (σ' j))) ∧
      kShortestInf lc σ eps k =
        (kShortest fin σ' eps k).map (List.map fun p => (p.1.map e, p.2)) := by
  classical
  let s : Finset (Fin n) := Finset.univ.image fun j => σ.symm (e j)
  have hcard : s.card = m := by
    rw [Finset.card_image_of_injective _ (fun a b h => hinj (σ.symm.injective h)), Finset.card_univ, Fintype.card_fin]
  let f : Fin m → Fin n := fun j => s.orderEmbOfFin hcard j
  have hf : StrictMono f := fun a b h => (s.orderEmbOfFin hcard).strictMono h
  have hmem : ∀ j, ∃ i, e i = σ (f j) := by
    intro j
    have := s.orderEmbOfFin_mem hcard j
    obtain ⟨i, _, hi⟩ := Finset.mem_image.1 this
    refine ⟨i, ?_⟩
    show e i = σ (s.orderEmbOfFin hcard j)
    rw [← hi, Equiv.apply_symm_apply]
  choose g hg using hmem
  have hgi : Function.Injective g := by
    intro a b hab
    have : σ (f a) = σ (f b) := by rw [← hg, ← hg, hab]
    exact hf.injective (σ.injective this)
  let σ' : Equiv.Perm (Fin m) := Equiv.ofBijective g ⟨hgi, Finite.surjective_of_injective hgi⟩
  have hσ' : ∀ j, e (σ' j) = σ (f j) := hg
  refine ⟨σ', ?_, ?_⟩
  · intro i j hij
    rw [hσ', hσ', Equiv.symm_apply_apply, Equiv.symm_apply_apply]
    exact hf.monotone hij
  · have hsub := costPad_sub (lc := fun i => lc (σ i)) (fin := fun j => fin (σ' j)) hf
      (fun j => by rw [← hσ', hfin]) (by
        intro i hi
        apply hinf
        intro j hj
        obtain ⟨t, rfl⟩ := σ'.surjective j
        rw [hσ'] at hj
        exact hi t (σ.injective hj)) eps
    have hO : Ok (verts f) (costPadInf (fun i => lc (σ i)) eps) (costPad (fun j => fin (σ' j)) eps) eps :=
      ⟨hsub, by omega, fun _ => verts_zero f, costPadInf_noTiny _ heps (by
        intro i x hx
        by_cases hi : ∃ j, e j = σ i
        · obtain ⟨j, hj⟩ := hi
          rw [← hj, hfin, WithTop.coe_inj] at hx
          rw [← hx]
          exact hnt j
        · push Not at hi
          have hx : lc (σ i) = x := hx
          rw [hinf _ hi] at hx
          exact absurd hx (by simp)), costPad_noTiny _ heps (fun j => hnt _), costPad_dag _ heps⟩
    have hk := kHelper_sub heps hO ⟨0, by omega⟩ ⟨m + 1, by omega⟩ k
    rw [verts_zero, verts_last] at hk
    by_cases hk0 : k = 0
    · subst hk0
      simp [kShortestInf, kShortest, Except.map]
    · obtain ⟨p, c, rest, hok, _⟩ := kShortest_spec fin σ' heps hnt k (by omega)
      unfold kShortest at hok ⊢
      unfold kShortestInf
      rw [if_neg hk0] at hok ⊢
      rw [if_neg hk0, hk]
      cases hh : kHelper (costPad (fun i => fin (σ' i)) eps) eps ⟨0, by omega⟩ ⟨m + 1, by omega⟩ k with
      | error e => rw [hh] at hok; exact (nomatch hok)
      | ok out =>
        rw [hh] at hok
        dsimp only [Except.map] at hok ⊢
        cases ho : out.mapM (fun pc => (decodePath σ' pc.1).map fun l => (l, pc.2)) with
        | none => rw [ho] at hok; exact (nomatch hok)
        | some r =>
          dsimp only
          have : (out.map (upP (verts f))).mapM (fun pc => (decodePath σ pc.1).map fun l => (l, pc.2)) =
              some (r.map fun p => (p.1.map e, p.2)) := by
            clear hok hh hk
            induction out generalizing r with
            | nil =>
              simp only [List.mapM_nil] at ho
              obtain rfl := Option.some.inj ho
              rfl
            | cons x out ih =>
              rw [List.mapM_cons] at ho
              rw [List.map_cons, List.mapM_cons]
              cases hd : decodePath σ' x.1 with
              | none => rw [hd] at ho; exact (nomatch ho)
              | some q =>
                rw [hd] at ho
                cases hr : out.mapM (fun pc => (decodePath σ' pc.1).map fun l => (l, pc.2)) with
                | none => rw [hr] at ho; exact (nomatch ho)
                | some r' =>
                  rw [hr] at ho
                  obtain rfl := Option.some.inj ho
                  have e1 : (upP (verts f) x).1 = x.1.map (verts f) := rfl
                  rw [ih r' hr, e1, decode_sub hσ' x.1 hd]
                  rfl
          rw [this]

/-- The result in terms of the full list. -/
theorem kShortestInf_spec (lc : Fin n → WithTop K) (σ : Equiv.Perm (Fin n)) (heps : 0 < eps)
    (hnt : ∀ i (x : K), lc i = x → x = 0 ∨ eps ≤ |x|) (k : ℕ) (hk : 0 < k) :
    ∃ p c rest, kShortestInf lc σ eps k = .ok ((p, c) :: rest) ∧ ((p, c) :: rest).length ≤ k ∧
      (∀ q ∈ (p, c) :: rest, q.1.Nodup ∧ q.2 ≠ ⊤ ∧ ∀ i ∈ q.1, lc i ≠ ⊤) ∧
      c = (∑ i ∈ p.toFinset, lc i) + (eps : WithTop K) ∧
      ∀ T : Finset (Fin n), c ≤ (∑ i ∈ T, lc i) + (eps : WithTop K) := by
  classical
  let s : Finset (Fin n) := Finset.univ.filter fun i => lc i ≠ ⊤
  let e : Fin s.card → Fin n := fun j => s.orderEmbOfFin rfl j
  have hinj : Function.Injective e := (s.orderEmbOfFin rfl).injective
  have hne : ∀ j, lc (e j) ≠ ⊤ := fun j => (Finset.mem_filter.1 (s.orderEmbOfFin_mem rfl j)).2
  let fin : Fin s.card → K := fun j => (lc (e j)).untop (hne j)
  have hfin : ∀ j, lc (e j) = fin j := fun j => (WithTop.coe_untop _ _).symm
  have hrange : ∀ i, lc i ≠ ⊤ → ∃ j, e j = i := by
    intro i hi
    have : i ∈ (s : Set (Fin n)) := by simpa [s] using hi
    rw [← s.range_orderEmbOfFin rfl] at this
    exact this
  have hinf : ∀ i, (∀ j, e j ≠ i) → lc i = ⊤ := by
    intro i hi
    by_contra hc
    obtain ⟨j, hj⟩ := hrange i hc
    exact hi j hj
  obtain ⟨σ', -, h2⟩ := kShortestInf_sub hinj hfin hinf σ heps (fun j => hnt (e j) (fin j) (hfin j)) k
  obtain ⟨p, c, rest, g1, g2, g3, g4, g5⟩ :=
    kShortest_spec fin σ' heps (fun j => hnt (e j) (fin j) (hfin j)) k hk
  have hsum : ∀ T : Finset (Fin s.card), ∑ i ∈ T.image e, lc i = ((∑ j ∈ T, fin j : K) : WithTop K) := by
    intro T
    rw [Finset.sum_image fun a _ b _ h => hinj h, WithTop.coe_sum]
    exact Finset.sum_congr rfl fun j _ => hfin j
  refine ⟨p.map e, c, rest.map fun p => (p.1.map e, p.2), ?_, ?_, ?_, ?_, ?_⟩
  · rw [h2, g1]
    rfl
  · simp only [List.length_cons, List.length_map]; exact g2
  · have : ∀ q ∈ ((p, c) :: rest).map fun p : List (Fin s.card) × WithTop K => (p.1.map e, p.2),
        q.1.Nodup ∧ q.2 ≠ ⊤ ∧ ∀ i ∈ q.1, lc i ≠ ⊤ := by
      intro q hq
      obtain ⟨r, hr, rfl⟩ := List.mem_map.1 hq
      refine ⟨(g3 r hr).1.map hinj, (g3 r hr).2, ?_⟩
      intro i hi
      obtain ⟨j, _, rfl⟩ := List.mem_map.1 hi
      exact hne j
    exact this
  · have : (p.map e).toFinset = p.toFinset.image e := by
      ext i
      simp
    rw [this, hsum, List.sum_toFinset fin (g3 (p, c) List.mem_cons_self).1, g4, WithTop.coe_add]
  · intro T
    by_cases hT : ∃ i ∈ T, lc i = ⊤
    · have : ∑ i ∈ T, lc i = ⊤ := WithTop.sum_eq_top.2 hT
      rw [this, WithTop.top_add]
      exact le_top
    · push Not at hT
      have : (Finset.univ.filter fun j => e j ∈ T).image e = T := by
        ext i
        simp only [Finset.mem_image, Finset.mem_filter, Finset.mem_univ, true_and]
        constructor
        · rintro ⟨j, hj, rfl⟩
          exact hj
        · intro hi
          obtain ⟨j, rfl⟩ := hrange i (hT i hi)
          exact ⟨j, hi, rfl⟩
      have h5 := g5 (Finset.univ.filter fun j => e j ∈ T)
      rw [WithTop.coe_add, ← hsum, this] at h5
      exact h5

/-- Whatever the costs: if `kShortestInf` succeeds then its paths consist of distinct elements of finite cost, have
finite costs, and there are at most `k` of them (and at least one if `k > 0`). -/
theorem kShortestInf_ok (lc : Fin n → WithTop K) (σ : Equiv.Perm (Fin n)) (heps : 0 < eps) (k : ℕ) {out}
    (h : kShortestInf lc σ eps k = .ok out) :
    out.length ≤ k ∧ (0 < k → out ≠ []) ∧ ∀ q ∈ out, q.1.Nodup ∧ q.2 ≠ ⊤ ∧ ∀ i ∈ q.1, lc i ≠ ⊤ := by
  rcases Nat.eq_zero_or_pos k with rfl | hk
  · simp only [kShortestInf, if_true, Except.ok.injEq] at h
    subst h
    simp
  · by_cases hnt : ∀ i (x : K), lc i = x → x = 0 ∨ eps ≤ |x|
    · obtain ⟨p, c, rest, h1, h2, h3, _⟩ := kShortestInf_spec lc σ heps hnt k hk
      rw [h1] at h
      simp only [Except.ok.injEq] at h
      subst h
      exact ⟨h2, by simp, h3⟩
    · exfalso
      push Not at hnt
      obtain ⟨i, x, hix, hi0, hi⟩ := hnt
      have htiny : ¬ NoTiny (costPadInf (fun i => lc (σ i)) eps) eps := by
        intro hcon
        have := hcon ⟨0, by omega⟩ ⟨(σ.symm i).val + 1, by omega⟩ x (by
          unfold costPadInf
          rw [dif_pos (by simp), dif_pos (by simp; omega)]
          simpa using hix)
        rcases this with h' | h'
        · exact hi0 h'
        · exact absurd hi (not_lt.2 h')
      have hcount : (arcs (costPadInf (fun i => lc (σ i)) eps) eps).length <
          countNonzero (costPadInf (fun i => lc (σ i)) eps) := by
        by_contra hc
        exact htiny (by
          have := (tiny_iff (G := costPadInf (fun i => lc (σ i)) eps) heps).not
          simpa using this.1 hc)
      unfold kShortestInf kHelper bfm bfmHelper at h
      rw [if_neg (by omega), if_neg (by omega), if_pos hcount] at h
      simp at h

end Gasur.KSub
