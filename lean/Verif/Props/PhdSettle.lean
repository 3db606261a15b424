import Verif.Proofs.PhdMerge
import Verif.Props.PhdTwice
import Verif.Model.Cphd

/-!
# Property C141: repeated clean-ups of a PHD filter settle
-/

set_option linter.unusedSectionVars false

namespace Gasur.Props

open Gasur.Phd Gasur.Spec

variable {K V P Z : Type*} [Field K] [LinearOrder K] [IsStrictOrderedRing K]
  [AddCommGroup V] [Module K V] [AddCommGroup P] [Module K P]

/-! ### A list that merging leaves alone -/

theorem argmax_head {x : K} : ∀ {l : List K}, (∀ y ∈ l, y ≤ x) → argmax (x :: l) = some 0 := by
  intro l h
  unfold argmax
  cases hl : argmax l with
  | none => rfl
  | some i =>
    dsimp only
    cases hi : l[i]? with
    | none => rfl
    | some y =>
      dsimp only
      rw [if_neg (not_lt.2 (h y (List.mem_of_getElem? hi)))]

theorem argmax_marked {x : K} {l : List K} (hx : 0 < x) (h : ∀ y ∈ l, y ≤ x) : ∀ n : ℕ,
    argmax (List.replicate n (-1) ++ x :: l) = some n
  | 0 => argmax_head h
  | n + 1 => by
    rw [List.replicate_succ, List.cons_append]
    unfold argmax
    rw [argmax_marked hx h n]
    dsimp only
    rw [List.getElem?_append_right (by simp), List.length_replicate, Nat.sub_self]
    dsimp only [List.getElem?_cons_zero]
    rw [if_pos]
    have : (-1 : K) < 0 := by simp
    exact this.trans hx

/-- Heaviest first, and no component is close to one before it. -/
def Settled (quad : P → V → K) (thr : K) (cs : List (K × V × P)) : Prop :=
  cs.Pairwise fun a b => b.1 ≤ a.1 ∧ thr < quad a.2.2 (b.2.1 - a.2.1)

theorem settled_loop (quad : P → V → K) (thr : K) (hthr : 0 ≤ thr) (hq : ∀ p, quad p 0 = 0) (cs : List (K × V × P))
    (hpos : ∀ c ∈ cs, 0 < c.1) (hs : Settled quad thr cs) : ∀ (rest don : List (K × V × P)), cs = don ++ rest →
    mergeLoop quad thr (ofComps cs).ms (ofComps cs).ps rest.length (List.range' don.length rest.length)
      (List.replicate don.length (-1) ++ rest.map fun c => c.1) (ofComps don) = .ok (ofComps cs)
  | [], don, h => by
    simp only [List.append_nil] at h
    subst h
    simp [mergeLoop]
  | c :: rest, don, h => by
    have hpw : (c :: rest).Pairwise fun a b => b.1 ≤ a.1 ∧ thr < quad a.2.2 (b.2.1 - a.2.1) := by
      have := hs
      unfold Settled at this
      rw [h, List.pairwise_append] at this
      exact this.2.1
    rw [List.pairwise_cons] at hpw
    have hc : 0 < c.1 := hpos c (by rw [h]; simp)
    have hlen : cs.length = don.length + (rest.length + 1) := by rw [h]; simp
    have hat : ∀ k : ℕ, cs[don.length + k]? = (c :: rest)[k]? := by
      intro k
      rw [h, List.getElem?_append_right (by omega)]
      congr 1
      omega
    have hat0 : cs[don.length]? = some c := by simpa using hat 0
    have hm : (ofComps cs).ms[don.length]? = some c.2.1 := by simp [ofComps, hat0]
    have hp : (ofComps cs).ps[don.length]? = some c.2.2 := by simp [ofComps, hat0]
    have hmax : argmax (List.replicate don.length (-1) ++ (c :: rest).map fun c => c.1) = some don.length := by
      rw [List.map_cons]
      refine argmax_marked hc ?_ _
      intro y hy
      obtain ⟨b, hb, rfl⟩ := List.mem_map.1 hy
      exact (hpw.1 b hb).1
    have hci : compInds quad thr (ofComps cs).ms c.2.2 c.2.1 (List.range' don.length (rest.length + 1)) =
        some [don.length] := by
      rw [compInds_eq]
      · congr 1
        rw [List.range'_succ, List.filter_cons, if_pos, List.filter_eq_nil_iff.2]
        · intro i hi
          rw [List.mem_range'_1] at hi
          obtain ⟨k, rfl⟩ : ∃ k, i = don.length + (k + 1) := ⟨i - don.length - 1, by omega⟩
          have hk : k < rest.length := by omega
          have : cs[don.length + (k + 1)]? = some rest[k] := by
            rw [hat]
            simp [hk]
          have hcm : cm cs (don.length + (k + 1)) = rest[k].2.1 := by simp [cm, this]
          rw [hcm]
          simpa using (hpw.1 _ (List.getElem_mem hk)).2
        · have : cm cs don.length = c.2.1 := by simp [cm, hat0]
          rw [this, sub_self, hq]
          simpa using hthr
      · intro i hi
        rw [List.mem_range'_1] at hi
        exact (getElem?_lists (by omega)).2.1
    have hw : (List.replicate don.length (-1) ++ (c :: rest).map fun c => c.1)[don.length]? = some c.1 := by
      rw [List.getElem?_append_right (by simp)]
      simp
    have ih := settled_loop quad thr hthr hq cs hpos hs rest (don ++ [c]) (by rw [h]; simp)
    rw [List.length_cons, List.range'_succ]
    unfold mergeLoop
    rw [hmax]
    dsimp only
    rw [hp, hm]
    dsimp only
    rw [← List.range'_succ, hci]
    dsimp only
    have e1 : wtot (List.replicate don.length (-1) ++ (c :: rest).map fun c => c.1) [don.length] = some c.1 := by
      simp [wtot]
    have e2 : wsum (List.replicate don.length (-1) ++ (c :: rest).map fun c => c.1) (ofComps cs).ms [don.length] =
        some (c.1 • c.2.1) := by
      simp only [wsum, hw, hm, add_zero]
    have e3 : wsum (List.replicate don.length (-1) ++ (c :: rest).map fun c => c.1) (ofComps cs).ps [don.length] =
        some (c.1 • c.2.2) := by
      simp only [wsum, hw, hp, add_zero]
    rw [e1, e2, e3]
    dsimp only
    rw [if_neg hc.ne', smul_smul, smul_smul, inv_mul_cancel₀ hc.ne', one_smul, one_smul]
    have e4 : ((List.range' don.length (rest.length + 1)).filter fun x => decide (x ∉ [don.length])) =
        List.range' (don ++ [c]).length rest.length := by
      rw [List.range'_succ, List.filter_cons, if_neg (by simp), List.filter_eq_self.2]
      · simp
      · intro i hi
        rw [List.mem_range'_1] at hi
        simp only [List.mem_singleton, decide_eq_true_eq]
        omega
    have e5 : mark (List.replicate don.length (-1) ++ (c :: rest).map fun c => c.1) [don.length] =
        List.replicate (don ++ [c]).length (-1) ++ rest.map fun c => c.1 := by
      simp only [mark, List.foldl_cons, List.foldl_nil]
      rw [List.set_append_right _ _ (by simp)]
      simp [List.replicate_succ', List.append_assoc]
    rw [e4, e5]
    have e6 : ({ ws := (ofComps don).ws ++ [c.1], ms := (ofComps don).ms ++ [c.2.1], ps := (ofComps don).ps ++ [c.2.2] } :
        Mix K V P) = ofComps (don ++ [c]) := by simp [ofComps]
    rw [e6]
    exact ih

/-- A settled list is not changed by merging. -/
theorem settled_merge (quad : P → V → K) (pr : Params K) (hthr : 0 ≤ pr.mergeThreshold) (hq : ∀ p, quad p 0 = 0)
    (cs : List (K × V × P)) (hpos : ∀ c ∈ cs, 0 < c.1) (hs : Settled quad pr.mergeThreshold cs) :
    merge quad pr (ofComps cs) = .ok (ofComps cs) := by
  have := settled_loop quad pr.mergeThreshold hthr hq cs hpos hs cs [] (by simp)
  unfold merge
  have hl : (ofComps cs).ms.length = cs.length := by simp [ofComps]
  rw [hl, List.range_eq_range']
  simpa [ofComps] using this

/-! ### If merging keeps the number of components, the result is settled -/

theorem grouping_single {quad : P → V → K} {thr : K} {cs : List (K × V × P)} {rem gs}
    (h : Grouping quad thr cs rem gs) (hlen : rem.length ≤ gs.length) :
    gs = gs.flatten.map (fun i => [i]) ∧
    gs.flatten.Pairwise (fun i j => cw cs j ≤ cw cs i ∧ thr < quad (cp cs i) (cm cs j - cm cs i)) := by
  induction h with
  | nil => simp
  | @cons rem g gs hg hgs ih =>
    obtain ⟨jj, hj, hmax, hgr⟩ := hg.leader
    have hperm := (Grouping.cons hg hgs).perm
    have hperm' := hgs.perm
    have hle : gs.length ≤ gs.flatten.length := by
      have := hgs.nonempty
      clear ih hg hgs hlen hperm hperm'
      induction gs with
      | nil => simp
      | cons a gs ih2 =>
        rw [List.flatten_cons, List.length_append, List.length_cons]
        have h1 := ih2 fun g' hg' => this g' (List.mem_cons_of_mem _ hg')
        have : 0 < a.length := List.length_pos_iff.2 (this a List.mem_cons_self)
        omega
    have h1 : g.length + gs.flatten.length = rem.length := by
      rw [← hperm.length_eq, List.flatten_cons, List.length_append]
    have hg0 : 0 < g.length := List.length_pos_of_mem hj
    rw [List.length_cons] at hlen
    have hg1 : g.length = 1 := by omega
    obtain ⟨a, rfl⟩ := List.length_eq_one_iff.1 hg1
    rw [List.mem_singleton] at hj
    subst hj
    obtain ⟨i1, i2⟩ := ih (by rw [← hperm'.length_eq]; omega)
    refine ⟨?_, ?_⟩
    · rw [List.flatten_cons, List.singleton_append, List.map_cons, ← i1]
    · rw [List.flatten_cons, List.singleton_append, List.pairwise_cons]
      refine ⟨?_, i2⟩
      intro j hjm
      have hjr := hperm'.mem_iff.1 hjm
      rw [List.mem_filter] at hjr
      refine ⟨hmax j hjr.1, ?_⟩
      by_contra hc
      rw [not_lt] at hc
      have : j ∈ [jj] := by
        rw [hgr, List.mem_filter]
        exact ⟨hjr.1, decide_eq_true hc⟩
      simp only [decide_eq_true_eq] at hjr
      exact hjr.2 this

theorem mergedComp_single {cs : List (K × V × P)} {i : ℕ} (h : cw cs i ≠ 0) : mergedComp cs [i] = Phd.comp cs i := by
  simp [mergedComp, gw, gm, gp, Phd.comp, smul_smul, inv_mul_cancel₀ h]

/-- Merging components of positive weight: never more components; if as many as before, they are the same ones in an
order that merging leaves alone. -/
theorem merge_settles (quad : P → V → K) (pr : Params K) (hthr : 0 ≤ pr.mergeThreshold) (hq : ∀ p, quad p 0 = 0)
    (cs : List (K × V × P)) (hpos : ∀ c ∈ cs, 0 < c.1) :
    ∃ cs', merge quad pr (ofComps cs) = .ok (ofComps cs') ∧ (∀ c ∈ cs', 0 < c.1) ∧ cs'.length ≤ cs.length ∧
      (cs'.length = cs.length → cs'.Perm cs ∧ merge quad pr (ofComps cs') = .ok (ofComps cs')) := by
  obtain ⟨gs, hg, hm⟩ := merge_spec quad pr hthr hq cs fun c hc => (hpos c hc).le
  have hperm := hg.perm
  have hne := hg.nonempty
  have hgw : ∀ g ∈ gs, 0 < gw cs g := by
    intro g hgm
    refine gw_pos hpos (hne g hgm) ?_
    intro i hi
    have := hperm.mem_iff.1 (List.mem_flatten.2 ⟨g, hgm, hi⟩)
    exact List.mem_range.1 this
  rw [if_neg] at hm
  · refine ⟨_, hm, ?_, ?_, ?_⟩
    · intro c hc
      obtain ⟨g, hgm, rfl⟩ := List.mem_map.1 hc
      exact hgw g hgm
    · rw [List.length_map]
      exact groups_length hperm hne
    · intro hl
      rw [List.length_map] at hl
      obtain ⟨h1, h2⟩ := grouping_single hg (by rw [List.length_range, hl])
      have hcw : ∀ i ∈ gs.flatten, cw cs i ≠ 0 := by
        intro i hi
        have := List.mem_range.1 (hperm.mem_iff.1 hi)
        unfold cw
        rw [List.getElem?_eq_getElem this]
        exact (hpos _ (List.getElem_mem _)).ne'
      have h3 : gs.map (mergedComp cs) = gs.flatten.map (Phd.comp cs) := by
        conv_lhs => rw [h1]
        rw [List.map_map]
        apply List.map_congr_left
        intro i hi
        exact mergedComp_single (hcw i hi)
      rw [h3]
      have hp : (gs.flatten.map (Phd.comp cs)).Perm cs := by
        have := hperm.map (Phd.comp cs)
        rwa [map_comp_range] at this
      refine ⟨hp, settled_merge quad pr hthr hq _ (fun c hc => hpos c (hp.mem_iff.1 hc)) ?_⟩
      unfold Settled
      rw [List.pairwise_map]
      exact h2
  · rintro ⟨g, hgm, h0⟩
    exact (hgw g hgm).ne' h0

theorem cap_settles {argsort : List K → List ℕ} (pr : Params K) (cs : List (K × V × P))
    (ha : ∀ ws, IsArgsort ws (argsort ws)) (hpos : ∀ c ∈ cs, 0 < c.1) :
    ∃ cs', cap argsort pr (ofComps cs) = .ok (ofComps cs') ∧ (∀ c ∈ cs', 0 < c.1) ∧ cs'.length ≤ cs.length ∧
      (cs'.length = cs.length → cs' = cs) := by
  by_cases hgt : pr.maxGauss < cs.length
  · have hne : cs ≠ [] := by
      rintro rfl
      simp at hgt
    have hmass : ∀ l : List (K × V × P), l ≠ [] → (∀ c ∈ l, 0 < c.1) → 0 < mass l := by
      intro l hl hp
      unfold mass
      refine List.sum_pos _ ?_ (by simpa using hl)
      intro x hx
      obtain ⟨y, hy, rfl⟩ := List.mem_map.1 hx
      exact hp y hy
    rcases Nat.eq_zero_or_pos pr.maxGauss with h0 | hmg
    · rcases cap_zero (argsort := argsort) pr cs h0 with h1 | h1
      · exact ⟨cs, h1, hpos, le_rfl, fun _ => rfl⟩
      · exfalso
        have hd : delAll (ofComps cs) (sortDesc (dropEnd (argsort (ofComps cs).ws) pr.maxGauss)) = .ok (ofComps cs) := by
          unfold dropEnd
          rw [if_pos h0]
          rfl
        unfold cap at h1
        rw [if_pos (by simpa [ofComps] using hgt), hd] at h1
        dsimp only at h1
        rw [if_neg] at h1
        · exact (nomatch h1)
        · rintro ⟨_, hz⟩
          exact (hmass cs hne hpos).ne' hz
    · obtain ⟨S, _, _, hl, _, hc⟩ := cap_ofComps pr cs (ha _) hgt hmg
      have hkp : ∀ c ∈ keep S cs, 0 < c.1 := fun c hc => hpos c ((keep_sublist S cs).mem hc)
      have hk0 : keep S cs ≠ [] := by
        intro h
        rw [h] at hl
        simp at hl
        omega
      have hkm := hmass _ hk0 hkp
      rw [if_neg hkm.ne'] at hc
      refine ⟨_, hc, ?_, by rw [List.length_map, hl]; omega, ?_⟩
      · intro c hcm
        obtain ⟨q, hq, rfl⟩ := List.mem_map.1 hcm
        exact mul_pos (hkp q hq) (div_pos (hmass cs hne hpos) hkm)
      · intro h
        rw [List.length_map, hl] at h
        omega
  · refine ⟨cs, ?_, hpos, le_rfl, fun _ => rfl⟩
    unfold cap
    rw [if_neg]
    simpa [ofComps] using hgt

variable [FloorRing K]

/-- One `cleanup` of components of positive weight. -/
theorem cleanup_settles (env : Env K V P Z) (hq : ∀ p, env.quad p 0 = 0) (ha : ∀ ws, IsArgsort ws (env.argsort ws))
    (pr : Params K) (hthr : 0 ≤ pr.mergeThreshold) (bp bm bc : Bool) (cs : List (K × V × P))
    (hpos : ∀ c ∈ cs, 0 < c.1) (sts : List (List V × List P)) :
    ∃ cs', cleanup env pr bp bm bc false ⟨ofComps cs, sts⟩ = .ok ⟨ofComps cs', sts⟩ ∧ (∀ c ∈ cs', 0 < c.1) ∧
      cs'.length ≤ cs.length ∧
      (cs'.length = cs.length → cleanup env pr bp bm bc false ⟨ofComps cs', sts⟩ = .ok ⟨ofComps cs', sts⟩) := by
  have h1 : ∃ cs1, optStep bp (prune pr) (ofComps cs) = .ok (ofComps cs1) ∧ (∀ c ∈ cs1, 0 < c.1) ∧
      cs1.length ≤ cs.length ∧ (cs1.length = cs.length → ∀ l : List (K × V × P), l.Perm cs1 →
        optStep bp (prune pr) (ofComps l) = .ok (ofComps l)) := by
    cases bp with
    | false => exact ⟨cs, rfl, hpos, le_rfl, fun _ _ _ => rfl⟩
    | true =>
      refine ⟨_, prune_ofComps pr cs, fun c hc => hpos c (List.mem_filter.1 hc).1, List.length_filter_le _ _, ?_⟩
      intro _ l hl
      refine pprune_again pr ?_
      intro c hc
      exact of_decide_eq_true (List.mem_filter.1 (hl.mem_iff.1 hc)).2
  obtain ⟨cs1, e1, p1, l1, k1⟩ := h1
  have h2 : ∃ cs2, optStep bm (merge env.quad pr) (ofComps cs1) = .ok (ofComps cs2) ∧ (∀ c ∈ cs2, 0 < c.1) ∧
      cs2.length ≤ cs1.length ∧ (cs2.length = cs1.length → cs2.Perm cs1 ∧
        optStep bm (merge env.quad pr) (ofComps cs2) = .ok (ofComps cs2)) := by
    cases bm with
    | false => exact ⟨cs1, rfl, p1, le_rfl, fun _ => ⟨List.Perm.refl _, rfl⟩⟩
    | true => exact merge_settles env.quad pr hthr hq cs1 p1
  obtain ⟨cs2, e2, p2, l2, k2⟩ := h2
  have h3 : ∃ cs3, optStep bc (cap env.argsort pr) (ofComps cs2) = .ok (ofComps cs3) ∧ (∀ c ∈ cs3, 0 < c.1) ∧
      cs3.length ≤ cs2.length ∧ (cs3.length = cs2.length → cs3 = cs2) := by
    cases bc with
    | false => exact ⟨cs2, rfl, p2, le_rfl, fun _ => rfl⟩
    | true => exact cap_settles pr cs2 ha p2
  obtain ⟨cs3, e3, p3, l3, k3⟩ := h3
  refine ⟨cs3, ?_, p3, by omega, ?_⟩
  · unfold cleanup
    simp only [e1, e2, e3]
    simp
  · intro hl
    obtain rfl := k3 (by omega)
    obtain ⟨q1, q2⟩ := k2 (by omega)
    have q3 := k1 (by omega) _ q1
    unfold cleanup
    simp only [q3, q2, e3]
    simp

/-- **C141.** Cleaning up again and again settles: for a density of `n` components with positive weights there is a state
that is reached after `n + 1` clean-ups (any combination of pruning, merging and capping, no extraction) at the latest, with
at most `n` components, and that no further `cleanup` changes. No call fails. -/
theorem C141_settles (env : Env K V P Z) (hq : ∀ p, env.quad p 0 = 0) (ha : ∀ ws, IsArgsort ws (env.argsort ws))
    (pr : Params K) (hthr : 0 ≤ pr.mergeThreshold) (bp bm bc : Bool) (s : PState K V P) (hal : Aligned s.mix)
    (hpos : ∀ w ∈ s.mix.ws, 0 < w) :
    ∃ s', s'.mix.ws.length ≤ s.mix.ws.length ∧ ∀ k : ℕ, s.mix.ws.length < k →
      run env pr s (List.replicate k (.cleanup bp bm bc false)) = .ok s' := by
  obtain ⟨cs, hcs⟩ := (aligned_iff _).1 hal
  obtain ⟨mix, sts⟩ := s
  simp only at hcs
  subst hcs
  have hp0 : ∀ c ∈ cs, 0 < c.1 := fun c hc => hpos _ (List.mem_map_of_mem hc)
  have key : ∀ (n : ℕ) (cs : List (K × V × P)), cs.length ≤ n → (∀ c ∈ cs, 0 < c.1) →
      ∃ cs', cs'.length ≤ cs.length ∧ ∀ k : ℕ, n < k →
        run env pr ⟨ofComps cs, sts⟩ (List.replicate k (.cleanup bp bm bc false)) = .ok ⟨ofComps cs', sts⟩ := by
    have stay : ∀ cs : List (K × V × P),
        cleanup env pr bp bm bc false ⟨ofComps cs, sts⟩ = .ok ⟨ofComps cs, sts⟩ → ∀ k : ℕ,
        run env pr ⟨ofComps cs, sts⟩ (List.replicate k (.cleanup bp bm bc false)) = .ok ⟨ofComps cs, sts⟩ := by
      intro cs h k
      induction k with
      | zero => rfl
      | succ k ih =>
        rw [List.replicate_succ]
        simp only [run, step, h]
        exact ih
    intro n
    induction n with
    | zero =>
      intro cs hl hp
      obtain ⟨cs', h1, h2, h3, h4⟩ := cleanup_settles env hq ha pr hthr bp bm bc cs hp sts
      have := h4 (by omega)
      refine ⟨cs', h3, ?_⟩
      intro k hk
      obtain ⟨k, rfl⟩ : ∃ j, k = j + 1 := ⟨k - 1, by omega⟩
      rw [List.replicate_succ]
      simp only [run, step, h1]
      exact stay cs' this k
    | succ n ih =>
      intro cs hl hp
      obtain ⟨cs', h1, h2, h3, h4⟩ := cleanup_settles env hq ha pr hthr bp bm bc cs hp sts
      rcases Nat.lt_or_ge cs'.length cs.length with hlt | hge
      · obtain ⟨cs'', h5, h6⟩ := ih cs' (by omega) h2
        refine ⟨cs'', by omega, ?_⟩
        intro k hk
        obtain ⟨k, rfl⟩ : ∃ j, k = j + 1 := ⟨k - 1, by omega⟩
        rw [List.replicate_succ]
        simp only [run, step, h1]
        exact h6 k (by omega)
      · have := h4 (by omega)
        refine ⟨cs', h3, ?_⟩
        intro k hk
        obtain ⟨k, rfl⟩ : ∃ j, k = j + 1 := ⟨k - 1, by omega⟩
        rw [List.replicate_succ]
        simp only [run, step, h1]
        exact stay cs' this k
  obtain ⟨cs', h1, h2⟩ := key cs.length cs le_rfl hp0
  exact ⟨⟨ofComps cs', sts⟩, by simpa [ofComps] using h1, fun k hk => h2 k (by simpa [ofComps] using hk)⟩

/-- The example of `C139_refuted`: the density settles after two clean-ups, not after one. -/
example : (run exEnv exParams ⟨⟨[2, 2, 1], [0, 2, 3], [1, 1, 1]⟩, []⟩ [.cleanup true true true false]).toOption.map
      (fun s => s.mix.ms) = some [1, 3] ∧
    ∀ k ∈ [2, 3, 4], (run exEnv exParams ⟨⟨[2, 2, 1], [0, 2, 3], [1, 1, 1]⟩, []⟩
      (List.replicate k (.cleanup true true true false))).toOption.map (fun s => s.mix.ms) = some [7 / 5] := by
  decide +kernel

/-! ### The CPHD filter -/

section cphd

variable {V P Z : Type*} [AddCommGroup V] [Module ℝ V] [AddCommGroup P] [Module ℝ P]

/-- Without extraction, `cleanup` of the CPHD filter is that of the PHD filter. -/
theorem cphd_cleanup_mix (env : Env ℝ V P Z) (pr : Params ℝ) (bp bm bc : Bool) (s : Cphd.CState V P) {p : PState ℝ V P}
    (h : cleanup env pr bp bm bc false ⟨s.mix, []⟩ = .ok p) :
    Cphd.cleanup env pr bp bm bc false s = .ok { s with mix := p.mix } := by
  unfold cleanup at h
  dsimp only at h
  unfold Cphd.cleanup
  cases h1 : optStep bp (prune pr) s.mix with
  | error e => rw [h1] at h; exact (nomatch h)
  | ok m1 =>
    rw [h1] at h
    dsimp only [Cphd.liftE] at h ⊢
    cases h2 : optStep bm (merge env.quad pr) m1 with
    | error e => rw [h2] at h; exact (nomatch h)
    | ok m2 =>
      rw [h2] at h
      dsimp only at h ⊢
      cases h3 : optStep bc (cap env.argsort pr) m2 with
      | error e => rw [h3] at h; exact (nomatch h)
      | ok m3 =>
        rw [h3] at h
        dsimp only at h ⊢
        rw [if_neg (by simp)] at h ⊢
        obtain rfl := Except.ok.inj h
        rfl

/-- **C141, CPHD filter.** The same holds for the CPHD filter; the cardinality distribution is not touched. -/
theorem C141_cphd_settles (env : Env ℝ V P Z) (hq : ∀ p, env.quad p 0 = 0) (ha : ∀ ws, IsArgsort ws (env.argsort ws))
    (esf : List ℝ → List ℝ) (pr : Params ℝ) (hthr : 0 ≤ pr.mergeThreshold) (bp bm bc : Bool) (s : Cphd.CState V P)
    (hal : Aligned s.mix) (hpos : ∀ w ∈ s.mix.ws, 0 < w) :
    ∃ m', m'.ws.length ≤ s.mix.ws.length ∧ ∀ k : ℕ, s.mix.ws.length < k →
      Cphd.run env esf pr s (List.replicate k (.cleanup bp bm bc false)) = .ok { s with mix := m' } := by
  obtain ⟨s', h1, h2⟩ := C141_settles env hq ha pr hthr bp bm bc ⟨s.mix, []⟩ hal hpos
  have key : ∀ (k : ℕ) (p : PState ℝ V P) (c : Cphd.CState V P),
      run env pr ⟨c.mix, []⟩ (List.replicate k (.cleanup bp bm bc false)) = .ok p →
      Cphd.run env esf pr c (List.replicate k (.cleanup bp bm bc false)) = .ok { c with mix := p.mix } := by
    intro k
    induction k with
    | zero =>
      intro p c h
      obtain rfl := Except.ok.inj h
      rfl
    | succ k ih =>
      intro p c h
      rw [List.replicate_succ] at h ⊢
      unfold run at h
      cases hc : step env pr ⟨c.mix, []⟩ (.cleanup bp bm bc false) with
      | error e => rw [hc] at h; exact (nomatch h)
      | ok q =>
        rw [hc] at h
        dsimp only at h
        have hq' : q.states = [] := by
          unfold step cleanup at hc
          dsimp only at hc
          cases h1 : optStep bp (prune pr) c.mix with
          | error e => rw [h1] at hc; exact (nomatch hc)
          | ok m1 =>
            rw [h1] at hc
            dsimp only at hc
            cases h2 : optStep bm (merge env.quad pr) m1 with
            | error e => rw [h2] at hc; exact (nomatch hc)
            | ok m2 =>
              rw [h2] at hc
              dsimp only at hc
              cases h3 : optStep bc (cap env.argsort pr) m2 with
              | error e => rw [h3] at hc; exact (nomatch hc)
              | ok m3 =>
                rw [h3] at hc
                dsimp only at hc
                rw [if_neg (by simp)] at hc
                obtain rfl := Except.ok.inj hc
                rfl
        obtain ⟨qm, qs⟩ := q
        simp only at hq'
        subst hq'
        have e := cphd_cleanup_mix env pr bp bm bc c hc
        simp only [Cphd.run, Cphd.step, e]
        exact ih p { c with mix := qm } h
  exact ⟨s'.mix, h1, fun k hk => key k s' s (h2 k hk)⟩

end cphd

end Gasur.Props
