import Verif.Props.GlmbCoord

/-!
# Property C140: the units of the measurements

In other units of the measurement space all densities on it (likelihoods and clutter density) are multiplied by a factor.
-/

set_option linter.unusedSectionVars false

namespace Gasur.Props

open Gasur.Glmb Gasur.Spec

variable {K τ F S C Z : Type*} [Field K] [LinearOrder K] [IsStrictOrderedRing K] [FloorRing K]

/-- The inner filter in other units: all likelihoods are multiplied by `c`. -/
def inUnits (c : K) (env : Env K τ F S C Z) : Env K τ F S C Z :=
  { env with corF := fun z f s w => (env.corF z f s w).map fun r => (r.1, r.2.1, r.2.2.1, c * r.2.2.2) }

/-- The parameters in other units: the clutter density is multiplied by `c`. -/
def paramsInUnits (c : K) (pr : Params K) : Params K := { pr with clutterDen := c * pr.clutterDen }

/-- The parameters with another value of the small constant. -/
def withEps (pr : Params K) (e : K) : Params K := { pr with eps := e }

theorem units_traverse (c : K) (env : Env K τ F S C Z) (z : Z) (l : List (F × S × K)) :
    traverseE (fun x : F × S × K => optE ((inUnits c env).corF z x.1 x.2.1 x.2.2)) l =
      (traverseE (fun x : F × S × K => optE (env.corF z x.1 x.2.1 x.2.2)) l).map
        (List.map fun r => (r.1, r.2.1, r.2.2.1, c * r.2.2.2)) := by
  have := traverseE_nat (f := fun x : F × S × K => optE (env.corF z x.1 x.2.1 x.2.2))
    (f' := fun x : F × S × K => optE ((inUnits c env).corF z x.1 x.2.1 x.2.2)) (g := id)
    (h := fun r => (r.1, r.2.1, r.2.2.1, c * r.2.2.2)) l fun a _ => by
      simp only [id, inUnits]
      cases env.corF z a.1 a.2.1 a.2.2 <;> rfl
  rwa [List.map_id] at this

theorem units_sum {c : K} (hc : 0 < c) (e : K) (rs : List (F × S × C × K)) :
    ((rs.map fun r => (r.1, r.2.1, r.2.2.1, c * r.2.2.2)).map fun r => r.2.2.2 + e).sum =
      c * (rs.map fun r => r.2.2.2 + e / c).sum := by
  induction rs with
  | nil => simp
  | cons r rs ih =>
    simp only [List.map_cons, List.sum_cons, ih]
    have : c ≠ 0 := hc.ne'
    field_simp

/-- What one track and one measurement give: the same entry, and the likelihood in the other units. -/
theorem units_entry {c : K} (hc : 0 < c) (env : Env K τ F S C Z) (pr : Params K) (z : Z) (e : Entry K τ F S C) :
    correctEntry (inUnits c env) (paramsInUnits c pr) z e =
      (correctEntry env (withEps pr (pr.eps / c)) z e).map fun x => (x.1, c * x.2) := by
  unfold correctEntry
  cases e.sHist.getLast? with
  | none => rfl
  | some s =>
    cases e.wHist.getLast? with
    | none => rfl
    | some w =>
      dsimp only
      by_cases hl : e.fStates.length = s.length ∧ s.length = w.length ∧ e.cHist ≠ []
      · rw [if_pos hl, if_pos hl, units_traverse]
        cases traverseE (fun x : F × S × K => optE (env.corF z x.1 x.2.1 x.2.2)) (e.fStates.zip (s.zip w)) with
        | error u => simp [Except.map]
        | ok rs =>
          dsimp only [Except.map]
          rw [show (paramsInUnits c pr).eps = pr.eps from rfl, units_sum hc,
            show (withEps pr (pr.eps / c)).eps = pr.eps / c from rfl]
          by_cases h0 : rs ≠ [] ∧ (rs.map fun r => r.2.2.2 + pr.eps / c).sum = 0
          · rw [if_pos h0, if_pos ⟨by simpa using h0.1, by rw [h0.2, mul_zero]⟩]
          · rw [if_neg h0, if_neg]
            · simp only [List.map_map, Function.comp_def]
              congr 6
              refine List.map_congr_left fun r _ => ?_
              have : c ≠ 0 := hc.ne'
              rw [show c * r.2.2.2 + pr.eps = c * (r.2.2.2 + pr.eps / c) by field_simp, mul_div_mul_left _ _ this]
            · rintro ⟨h1, h2⟩
              exact h0 ⟨by simpa using h1, (mul_eq_zero.1 h2).resolve_left hc.ne'⟩
      · rw [if_neg hl, if_neg hl]
        rfl

/-- The track can be updated with every measurement: it has a component, the inner filter always answers, and its likelihoods
are not negative. -/
def Answers (env : Env K τ F S C Z) (e : Entry K τ F S C) : Prop :=
  e.fStates ≠ [] ∧ ∀ f ∈ e.fStates, ∀ (z : Z) (s : S) (w : K), ∃ r, env.corF z f s w = some r ∧ 0 ≤ r.2.2.2

theorem units_pos {env : Env K τ F S C Z} {pr : Params K} (heps : 0 < pr.eps) {z : Z} {e : Entry K τ F S C} (ha : Answers env e)
    {x : Option (Entry K τ F S C) × K} (h : correctEntry env pr z e = .ok x) : 0 < x.2 := by
  unfold correctEntry at h
  cases hs : e.sHist.getLast? with
  | none => rw [hs] at h; exact (nomatch h)
  | some s =>
    cases hw : e.wHist.getLast? with
    | none => rw [hs, hw] at h; exact (nomatch h)
    | some w =>
      rw [hs, hw] at h
      dsimp only at h
      by_cases hl : e.fStates.length = s.length ∧ s.length = w.length ∧ e.cHist ≠ []
      · rw [if_pos hl] at h
        have hm : ∀ a ∈ e.fStates.zip (s.zip w), ∃ r, env.corF z a.1 a.2.1 a.2.2 = some r ∧ 0 ≤ r.2.2.2 := by
          intro a hm
          exact ha.2 a.1 (List.of_mem_zip hm).1 z _ _
        have hne : e.fStates.zip (s.zip w) ≠ [] := by
          intro h0
          have := congrArg List.length h0
          rw [List.length_zip, List.length_zip, ← hl.2.1, Nat.min_self, ← hl.1, Nat.min_self] at this
          exact ha.1 (List.length_eq_zero_iff.1 this)
        cases ht : traverseE (fun x : F × S × K => optE (env.corF z x.1 x.2.1 x.2.2)) (e.fStates.zip (s.zip w)) with
        | error u =>
          exfalso
          obtain ⟨r, hr⟩ := traverseE_total (fun x : F × S × K => optE (env.corF z x.1 x.2.1 x.2.2)) (e.fStates.zip (s.zip w))
            fun a hm' => by
              obtain ⟨r, hr, _⟩ := hm a hm'
              exact ⟨r, by rw [hr]; rfl⟩
          rw [hr] at ht
          exact (nomatch ht)
        | ok rs =>
          rw [ht] at h
          dsimp only at h
          have hf := (traverseE_ok _ _ _).1 ht
          have hrs : rs ≠ [] := by
            intro h0
            rw [h0] at hf
            exact hne (List.forall₂_nil_right_iff.1 hf)
          split at h
          · exact (nomatch h)
          · obtain rfl := Except.ok.inj h
            refine List.sum_pos _ ?_ (by simpa using hrs)
            intro y hy
            obtain ⟨r, hr, rfl⟩ := List.mem_map.1 hy
            obtain ⟨i, hi⟩ := List.mem_iff_getElem?.1 hr
            obtain ⟨hi1, hi2⟩ := List.getElem?_eq_some_iff.1 hi
            have hq := (List.forall₂_iff_get.1 hf).2 i (by rw [(List.forall₂_iff_get.1 hf).1]; exact hi1) hi1
            simp only [List.get_eq_getElem, hi2] at hq
            obtain ⟨r', h1, h2⟩ := hm _ (List.getElem_mem (l := e.fStates.zip (s.zip w)) (n := i)
              (by rw [(List.forall₂_iff_get.1 hf).1]; exact hi1))
            rw [h1] at hq
            obtain rfl : r' = r := Except.ok.inj hq
            linarith
      · rw [if_neg hl] at h
        exact (nomatch h)

/-- An entry of a block in other units. -/
def unitCell (c : K) (x : Option (Entry K τ F S C) × K) : Option (Entry K τ F S C) × K := (x.1, c * x.2)

theorem units_block {c : K} (hc : 0 < c) (env : Env K τ F S C Z) (pr : Params K) (tab : List (Entry K τ F S C)) (ze : Z × ℕ) :
    corBlock (inUnits c env) (paramsInUnits c pr) tab ze =
      (corBlock env (withEps pr (pr.eps / c)) tab ze).map (List.map (unitCell c)) := by
  unfold corBlock
  have := traverseE_nat (f := correctEntry env (withEps pr (pr.eps / c)) ze.1)
    (f' := correctEntry (inUnits c env) (paramsInUnits c pr) ze.1) (g := id) (h := unitCell c) tab
    fun e _ => units_entry hc env pr ze.1 e
  rw [List.map_id] at this
  rw [this]
  cases traverseE (correctEntry env (withEps pr (pr.eps / c)) ze.1) tab with
  | error u => rfl
  | ok l =>
    simp only [Except.map, List.map_map]
    rfl

theorem units_blocks {c : K} (hc : 0 < c) (env : Env K τ F S C Z) (pr : Params K) (tab : List (Entry K τ F S C)) (meas : List Z) :
    corBlocks (inUnits c env) (paramsInUnits c pr) tab meas =
      (corBlocks env (withEps pr (pr.eps / c)) tab meas).map (List.map (List.map (unitCell c))) := by
  unfold corBlocks
  have := traverseE_nat (f := corBlock env (withEps pr (pr.eps / c)) tab)
    (f' := corBlock (inUnits c env) (paramsInUnits c pr) tab) (g := id) (h := List.map (unitCell c)) meas.zipIdx
    fun e _ => units_block hc env pr tab e
  rwa [List.map_id] at this

theorem units_blocks_pos {env : Env K τ F S C Z} {pr : Params K} (heps : 0 < pr.eps) {tab : List (Entry K τ F S C)}
    (ha : ∀ e ∈ tab, Answers env e) {meas : List Z} {blocks : List (List (Option (Entry K τ F S C) × K))}
    (h : corBlocks env pr tab meas = .ok blocks) : ∀ b ∈ blocks, ∀ x ∈ b, 0 < x.2 := by
  intro b hb x hx
  obtain ⟨ze, _, h1⟩ := forall₂_mem_right ((traverseE_ok _ _ _).1 h) hb
  unfold corBlock at h1
  cases ht : traverseE (correctEntry env pr ze.1) tab with
  | error u => rw [ht] at h1; exact (nomatch h1)
  | ok l =>
    rw [ht] at h1
    obtain rfl := Except.ok.inj h1
    obtain ⟨y, hy, rfl⟩ := List.mem_map.1 hx
    obtain ⟨e, he, h2⟩ := forall₂_mem_right ((traverseE_ok _ _ _).1 ht) hy
    exact (units_pos heps (ha e he) h2 : 0 < y.2)

theorem units_cost {c : K} (hc : 0 < c) (env : Env K τ F S C Z) (pr : Params K) (e' : K)
    (hκ : 0 < pr.clutterRate * pr.clutterDen) (te : ℕ × Entry K τ F S C)
    (hpd : 0 < env.pdet te.2 ∧ env.pdet te.2 ≤ 1) (b : List (Option (Entry K τ F S C) × K)) (hb : ∀ x ∈ b, 0 < x.2) :
    blockCost (inUnits c env) (paramsInUnits c pr) te (b.map (unitCell c)) = blockCost env (withEps pr e') te b := by
  unfold blockCost
  rw [getE_nat]
  cases hx : getE b te.1 with
  | error u => rfl
  | ok x =>
    have hx0 : 0 < x.2 := hb x (List.mem_of_getElem? (getE_ok.1 hx))
    dsimp only [Except.map]
    unfold costEntry
    simp only [show (inUnits c env).pdet = env.pdet from rfl, unitCell,
      show (paramsInUnits c pr).fmax = pr.fmax from rfl, show (withEps pr e').fmax = pr.fmax from rfl,
      show (withEps pr e').clutterRate = pr.clutterRate from rfl, show (withEps pr e').clutterDen = pr.clutterDen from rfl,
      show (paramsInUnits c pr).clutterRate = pr.clutterRate from rfl,
      show (paramsInUnits c pr).clutterDen = c * pr.clutterDen from rfl]
    by_cases h1 : 1 - env.pdet te.2 = 0
    · rw [if_pos h1, if_pos h1, if_pos (mul_pos hpd.1 (mul_pos hc hx0)), if_pos (mul_pos hpd.1 hx0)]
    · rw [if_neg h1, if_neg h1]
      have h2 : 0 < 1 - env.pdet te.2 := lt_of_le_of_ne (by linarith [hpd.2]) (Ne.symm h1)
      have h3 : env.pdet te.2 / (1 - env.pdet te.2) * (c * x.2) / (pr.clutterRate * (c * pr.clutterDen)) =
          env.pdet te.2 / (1 - env.pdet te.2) * x.2 / (pr.clutterRate * pr.clutterDen) := by
        rw [show env.pdet te.2 / (1 - env.pdet te.2) * (c * x.2) = c * (env.pdet te.2 / (1 - env.pdet te.2) * x.2) by ring,
          show pr.clutterRate * (c * pr.clutterDen) = c * (pr.clutterRate * pr.clutterDen) by ring, mul_div_mul_left _ _ hc.ne']
      have h4 : 0 < env.pdet te.2 / (1 - env.pdet te.2) * x.2 / (pr.clutterRate * pr.clutterDen) :=
        div_pos (mul_pos (div_pos hpd.1 h2) hx0) hκ
      rw [h3, if_neg (not_le.2 h4), if_neg (not_le.2 h4)]

/-- A hypothesis whose weight is multiplied by a factor. -/
def scaleHyp (a : K) (h : Hyp K) : Hyp K := { h with prob := a * h.prob }

theorem units_one {c : K} (hc : 0 < c) (env : Env K τ F S C Z) (pr : Params K) (e' : K) (hκ : 0 < pr.clutterRate * pr.clutterDen)
    (tab : List (Entry K τ F S C)) (hpd : ∀ e ∈ tab, 0 < env.pdet e ∧ env.pdet e ≤ 1)
    (blocks : List (List (Option (Entry K τ F S C) × K))) (hb : ∀ b ∈ blocks, ∀ x ∈ b, 0 < x.2) (ss : K) (h : Hyp K) :
    corOne (inUnits c env) (paramsInUnits c pr) tab (blocks.map (List.map (unitCell c))) ss h =
      (corOne env (withEps pr e') tab blocks ss h).map (List.map (scaleHyp (c ^ blocks.length))) := by
  unfold corOne
  cases ht : traverseE (getE tab) h.tracks with
  | error u => rfl
  | ok ents =>
    dsimp only
    have hents : ∀ e ∈ ents, e ∈ tab := by
      intro e he
      obtain ⟨i, _, h1⟩ := forall₂_mem_right ((traverseE_ok _ _ _).1 ht) he
      exact List.mem_of_getElem? (getE_ok.1 h1)
    by_cases hbl : blocks = []
    · rw [if_pos hbl, if_pos (by rw [hbl]; rfl)]
      simp only [Except.map, scaleHyp, hbl, List.length_nil, pow_zero, one_mul, List.map_cons, List.map_nil]
      rfl
    · rw [if_neg hbl, if_neg (by simpa using hbl)]
      have hκ' : ¬ (pr.clutterRate * (c * pr.clutterDen) ≤ 0) := by
        rw [show pr.clutterRate * (c * pr.clutterDen) = c * (pr.clutterRate * pr.clutterDen) by ring]
        exact not_le.2 (mul_pos hc hκ)
      rw [if_neg (show ¬ (paramsInUnits c pr).clutterRate * (paramsInUnits c pr).clutterDen ≤ 0 from hκ'),
        if_neg (show ¬ (withEps pr e').clutterRate * (withEps pr e').clutterDen ≤ 0 from not_le.2 hκ)]
      have hbase : (inUnits c env).num.expNeg (paramsInUnits c pr).clutterRate *
          ((paramsInUnits c pr).clutterRate * (paramsInUnits c pr).clutterDen) ^ (blocks.map (List.map (unitCell c))).length =
          c ^ blocks.length * (env.num.expNeg (withEps pr e').clutterRate *
            ((withEps pr e').clutterRate * (withEps pr e').clutterDen) ^ blocks.length) := by
        rw [List.length_map]
        show env.num.expNeg pr.clutterRate * (pr.clutterRate * (c * pr.clutterDen)) ^ blocks.length =
          c ^ blocks.length * (env.num.expNeg pr.clutterRate * (pr.clutterRate * pr.clutterDen) ^ blocks.length)
        rw [show pr.clutterRate * (c * pr.clutterDen) = c * (pr.clutterRate * pr.clutterDen) by ring, mul_pow]
        ring
      rw [hbase]
      by_cases h0 : h.tracks = []
      · rw [if_pos h0, if_pos h0]
        simp [Except.map, scaleHyp, mul_assoc]
      · rw [if_neg h0, if_neg h0]
        have hrows : costRows (inUnits c env) (paramsInUnits c pr) (blocks.map (List.map (unitCell c))) h.tracks ents =
            costRows env (withEps pr e') blocks h.tracks ents := by
          unfold costRows
          have := traverseE_same (f := fun te => traverseE (blockCost env (withEps pr e') te) blocks)
            (f' := fun te => traverseE (blockCost (inUnits c env) (paramsInUnits c pr) te) (blocks.map (List.map (unitCell c))))
            (g := id) (h.tracks.zip ents) fun te hte => traverseE_same blocks fun b hbm =>
              units_cost hc env pr e' hκ te (hpd _ (hents _ (List.of_mem_zip hte).2)) b (hb b hbm)
          rwa [List.map_id] at this
        rw [hrows]
        cases costRows env (withEps pr e') blocks h.tracks ents with
        | error u => rfl
        | ok rows =>
          dsimp only
          have hsh : share (inUnits c env) (paramsInUnits c pr).reqUpd h.prob ss = share env (withEps pr e').reqUpd h.prob ss := rfl
          rw [hsh]
          cases share env (withEps pr e').reqUpd h.prob ss with
          | error u => rfl
          | ok m =>
            dsimp only
            rw [List.length_map]
            have hcm : costMat (inUnits c env) rows h.tracks.length blocks.length = costMat env rows h.tracks.length blocks.length :=
              rfl
            rw [hcm]
            cases Murty.murty (costMat env rows h.tracks.length blocks.length) m with
            | error u => rfl
            | ok as =>
              simp only [Except.map, List.map_map, Function.comp_def, scaleHyp]
              refine congrArg Except.ok (List.map_congr_left fun a _ => ?_)
              simp only [Hyp.mk.injEq, and_true]
              show _ * (ents.map fun e => 1 - env.pdet e).prod * h.prob * env.num.expNeg a.2 = _
              ring

theorem units_norm {a : K} (ha : 0 < a) (l : List (Hyp K)) : normHyps (l.map (scaleHyp a)) = normHyps l := by
  have hs : ((l.map (scaleHyp a)).map fun h => h.prob).sum = a * (l.map fun h => h.prob).sum := by
    induction l with
    | nil => simp
    | cons h l ih =>
      simp only [List.map_cons, List.sum_cons, ih, scaleHyp]
      ring
  unfold normHyps
  rw [hs]
  by_cases h0 : l ≠ [] ∧ (l.map fun h => h.prob).sum = 0
  · rw [if_pos h0, if_pos ⟨by simpa using h0.1, by rw [h0.2, mul_zero]⟩]
  · rw [if_neg h0, if_neg]
    · rw [List.map_map]
      refine congrArg Except.ok (List.map_congr_left fun h _ => ?_)
      simp only [Function.comp, scaleHyp, mul_div_mul_left _ _ ha.ne']
    · rintro ⟨h1, h2⟩
      exact h0 ⟨by simpa using h1, (mul_eq_zero.1 h2).resolve_left ha.ne'⟩

theorem units_upTab (c : K) (tab : List (Entry K τ F S C)) (blocks : List (List (Option (Entry K τ F S C) × K))) :
    upTab tab (blocks.map (List.map (unitCell c))) = upTab tab blocks := by
  unfold upTab
  rw [List.flatMap_map]
  congr 1
  refine List.flatMap_congr fun b _ => ?_
  rw [List.map_map]
  rfl

/-- **C140, partial.** Let all likelihoods and the clutter density be multiplied by `c > 0`, because the measurements are
given in other units. For every state and all measurements, if every track has a component and a detection probability in
`(0, 1]` and the inner filter always answers with a likelihood that is not negative: `correct` has the same outcome
(exception, tracks, hypotheses, probabilities) as in the old units with the small constant `eps`, which it adds to
each likelihood, divided by `c`. So the units matter only through this constant.
*Missing:* that the constant does not matter; it does, see `C140_refuted`. -/
theorem C140_units_partial (env : Env K τ F S C Z) (pr : Params K) (heps : 0 < pr.eps) {c : K} (hc : 0 < c)
    (hκ : 0 < pr.clutterRate * pr.clutterDen) (meas : List Z) (st : St K τ F S C)
    (htab : ∀ e ∈ st.tab, Answers env e ∧ 0 < env.pdet e ∧ env.pdet e ≤ 1) :
    correct (inUnits c env) (paramsInUnits c pr) meas st = correct env (withEps pr (pr.eps / c)) meas st := by
  unfold correct
  rw [units_blocks hc]
  cases hb : corBlocks env (withEps pr (pr.eps / c)) st.tab meas with
  | error u => rfl
  | ok blocks =>
    dsimp only [Except.map]
    have hpos := units_blocks_pos (show 0 < (withEps pr (pr.eps / c)).eps from div_pos heps hc) (fun e he => (htab e he).1) hb
    have hh : corHyps (inUnits c env) (paramsInUnits c pr) st.tab (blocks.map (List.map (unitCell c))) st.hyps =
        corHyps env (withEps pr (pr.eps / c)) st.tab blocks st.hyps := by
      unfold corHyps
      have := traverseE_nat (f := corOne env (withEps pr (pr.eps / c)) st.tab blocks (sumSqrt env st.hyps))
        (f' := corOne (inUnits c env) (paramsInUnits c pr) st.tab (blocks.map (List.map (unitCell c))) (sumSqrt (inUnits c env) st.hyps))
        (g := id) (h := List.map (scaleHyp (c ^ blocks.length))) st.hyps fun x _ =>
          units_one hc env pr (pr.eps / c) hκ st.tab (fun e he => (htab e he).2) blocks hpos _ x
      rw [List.map_id] at this
      rw [this]
      cases traverseE (corOne env (withEps pr (pr.eps / c)) st.tab blocks (sumSqrt env st.hyps)) st.hyps with
      | error u => rfl
      | ok ls =>
        dsimp only [Except.map]
        rw [← List.map_flatten, units_norm (pow_pos hc _)]
    rw [hh, units_upTab]

/-- An environment over the rationals: the likelihood of a component is 1 if the measurement is near it, and 0 if not. -/
def exUnitEnv : Env ℚ ℕ Unit ℚ Unit ℚ :=
  { exTrackEnv with corF := fun z _ s _ => some ((), s, (), if |z - s| ≤ 1 then 1 else 0) }

/-- One new track with two components at 0 and 10, and one measurement at 0, in the units `c`. -/
def exUnitOps (c : ℚ) : List (Op ℚ ℕ Unit ℚ Unit ℚ) :=
  [.predict (inUnits c exUnitEnv) 0 [⟨[(), ()], [1 / 2, 1 / 2], [0, 10], [(), ()], 9 / 10⟩], .correct (inUnits c exUnitEnv) [0]]

/-- The weights of the components of all tracks that were detected. -/
def detectedWeights (r : Except GErr (St ℚ ℕ Unit ℚ Unit)) : Option (List (List (List ℚ))) :=
  r.toOption.map fun st => (st.tab.filter fun e => decide (e.mHist = [some 0])).map fun e => e.wHist

/-- **C140 is false of this code.** In one unit system the components of the detected track get the weights 1001/1002 and
1/1002 (with `eps = 1/1000`), in units with all densities multiplied by 1/1000 the weights 2/3 and 1/3. -/
theorem C140_refuted :
    detectedWeights (run (paramsInUnits 1 exTrackPr) init (exUnitOps 1)) = some [[[1001 / 1002, 1 / 1002]]] ∧
    detectedWeights (run (paramsInUnits (1 / 1000) exTrackPr) init (exUnitOps (1 / 1000))) = some [[[2 / 3, 1 / 3]]] := by
  decide +kernel

/-- The hypotheses of `C140_units_partial` hold in this example after the prediction. -/
example : ∃ st, run exTrackPr init [.predict exUnitEnv 0 [⟨[(), ()], [1 / 2, 1 / 2], [0, 10], [(), ()], 9 / 10⟩]] = .ok st ∧
    st.hyps ≠ [] ∧ st.tab ≠ [] ∧ (0 : ℚ) < exTrackPr.eps ∧ (0 : ℚ) < exTrackPr.clutterRate * exTrackPr.clutterDen ∧
    ∀ e ∈ st.tab, Answers exUnitEnv e ∧ 0 < exUnitEnv.pdet e ∧ exUnitEnv.pdet e ≤ 1 := by
  have h1 : (run exTrackPr init [.predict exUnitEnv 0 [⟨[(), ()], [1 / 2, 1 / 2], [0, 10], [(), ()], 9 / 10⟩]]).toOption.map
      (fun st => decide (st.hyps.map (fun h => h.tracks) ≠ []) && decide (st.tab.map (fun e => e.fStates) = [[(), ()]])) =
      some true := by decide +kernel
  cases hr : run exTrackPr init [.predict exUnitEnv 0 [⟨[(), ()], [1 / 2, 1 / 2], [0, 10], [(), ()], 9 / 10⟩]] with
  | error e => rw [hr] at h1; exact (nomatch h1)
  | ok st =>
    rw [hr] at h1
    have h2 := Option.some.inj h1
    rw [Bool.and_eq_true, decide_eq_true_eq, decide_eq_true_eq] at h2
    refine ⟨st, rfl, by simpa using h2.1, ?_, by decide +kernel, by decide +kernel, ?_⟩
    · intro h0
      rw [h0] at h2
      exact (nomatch h2.2)
    · intro e he
      have h3 : e.fStates ∈ st.tab.map fun e => e.fStates := List.mem_map_of_mem he
      rw [h2.2, List.mem_singleton] at h3
      refine ⟨⟨by rw [h3]; simp, fun f _ z s w => ⟨_, rfl, ?_⟩⟩, by norm_num [exUnitEnv, exTrackEnv],
        by norm_num [exUnitEnv, exTrackEnv]⟩
      show (0 : ℚ) ≤ if |z - s| ≤ 1 then 1 else 0
      split <;> norm_num

end Gasur.Props
