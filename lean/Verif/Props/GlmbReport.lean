import Verif.Props.GlmbTrack
import Verif.Proofs.JglmbBayes
import Verif.Props.GlmbExtract
import Verif.Props.GlmbHist

/-!
# Property C117: everything the GLMB filter reports is the best estimate of a single-object track
-/

set_option linter.unusedSectionVars false
set_option synthInstance.maxSize 2000
set_option synthInstance.maxHeartbeats 400000

namespace Gasur.Props

open Gasur.Glmb Gasur.Spec

variable {K τ F S C Z : Type*} [Field K] [LinearOrder K] [IsStrictOrderedRing K] [FloorRing K]
  [DecidableEq τ]

/-- `s` and `c` are state and covariance of a component of largest weight of the track `l`, `k` time steps after its
birth. -/
def BestAt (l : Life K τ F S C) (k : ℕ) (s : S) (c : C) : Prop :=
  ∃ comps x, (l.past ++ [l.now])[k]? = some comps ∧ x ∈ comps ∧ x.state = s ∧ x.cov = c ∧
    ∀ y ∈ comps, y.weight ≤ x.weight

/-- The reported history `x` shows the track `l`. -/
structure Shows (x : Ext τ S C) (l : Life K τ F S C) : Prop where
  label : x.label = l.label
  born : x.tIdx = l.born
  states : x.states.length = l.past.length + 1
  covs : x.covs.length = l.past.length + 1
  best : ∀ (k : ℕ) (s : S) (c : C), x.states[k]? = some s → x.covs[k]? = some c → BestAt l k s c

theorem mkExt_shows {e : Entry K τ F S C} {x : Ext τ S C} {l : Life K τ F S C} (hs : Stores e l)
    (h : mkExt e = .ok x) : Shows x l := by
  obtain ⟨h1, _, h3, h4, h5, _, h7⟩ := mkExt_ok h
  have hlen : x.states.length = l.past.length + 1 := by rw [h5, hs.states]; simp
  refine ⟨h1.trans hs.label, h3.trans hs.born, hlen, h4 ▸ hlen, ?_⟩
  intro k s c hk hc
  obtain ⟨ws, ss, cs, i, w, c', k1, k2, k3, k4, k5, k6, k7, k8⟩ := h7 k s hk
  rw [hc, Option.some.injEq] at k8
  subst k8
  rw [hs.weights, List.getElem?_map, Option.map_eq_some_iff] at k1
  rw [hs.states, List.getElem?_map, Option.map_eq_some_iff] at k2
  rw [hs.covs, List.getElem?_map, Option.map_eq_some_iff] at k3
  obtain ⟨comps, g1, rfl⟩ := k1
  obtain ⟨comps', g2, rfl⟩ := k2
  obtain ⟨comps'', g3, rfl⟩ := k3
  rw [g1, Option.some.injEq] at g2 g3
  subst g2
  subst g3
  rw [List.getElem?_map, Option.map_eq_some_iff] at k4 k6 k7
  obtain ⟨y, y1, rfl⟩ := k4
  obtain ⟨y', y2, rfl⟩ := k6
  obtain ⟨y'', y3, rfl⟩ := k7
  rw [y1, Option.some.injEq] at y2 y3
  subst y2
  subst y3
  exact ⟨comps, y, g1, List.mem_of_getElem? y1, rfl, rfl, fun v hv => k5 _ (List.mem_map.2 ⟨v, hv, rfl⟩)⟩

/-- Every reported history shows a track that the filter had after some of the calls. -/
def ExtLives (pr : Params K) (ops : List (Op K τ F S C Z)) (ext : List (Ext τ S C)) : Prop :=
  ∀ x ∈ ext, ∃ pre l, pre <+: ops ∧ Lives pr pre l ∧ Shows x l

theorem ExtLives.mono {pr : Params K} {ops : List (Op K τ F S C Z)} {ext : List (Ext τ S C)} (h : ExtLives pr ops ext)
    (o : Op K τ F S C Z) : ExtLives pr (ops ++ [o]) ext := by
  intro x hx
  obtain ⟨pre, l, h1, h2, h3⟩ := h x hx
  exact ⟨pre, l, h1.trans (List.prefix_append _ _), h2, h3⟩

theorem extract_lives {pr : Params K} {ops : List (Op K τ F S C Z)} {st st' : St K τ F S C} {u c : Bool} {o}
    (hl : ∀ e ∈ st.tab, ∃ l, Lives pr ops l ∧ Stores e l) (he : ExtLives pr ops st.ext)
    (h : extract u c st = .ok (st', o)) : ExtLives pr ops st'.ext := by
  obtain ⟨n, _, ⟨_, _, rfl⟩ | ⟨_, idx, ext, r, _, _, hext, _, rfl⟩⟩ := extract_ok h
  · exact he
  · cases u with
    | true =>
      rw [if_pos rfl] at hext
      obtain ⟨hyp, ents, news, old, h1, h2, h3, rfl, h4, h5⟩ := updateExt_ok hext
      intro x hx
      rcases List.mem_append.1 hx with hx | hx
      · exact he x (h4.subset hx)
      · obtain ⟨e, hee, hxe⟩ := forall₂_mem_right h3 hx
        obtain ⟨i, _, hi⟩ := forall₂_mem_right h2 hee
        obtain ⟨l, hl1, hl2⟩ := hl e (List.mem_of_getElem? hi)
        exact ⟨ops, l, List.prefix_refl _, hl1, mkExt_shows hl2 hxe⟩
    | false =>
      simp only [Bool.false_eq_true, if_false, Except.ok.injEq] at hext
      subst hext
      exact he

theorem step_extLives {pr : Params K} (heps : 0 < pr.eps) {ops : List (Op K τ F S C Z)} {st st' : St K τ F S C}
    (o : Op K τ F S C Z) (hb : ∀ b ∈ birthsOf o, BirthOk b) (hI : LifeInv pr ops st)
    (he : ExtLives pr ops st.ext) (h : step pr st o = .ok st') : ExtLives pr (ops ++ [o]) st'.ext := by
  have hL := step_life heps o hb hI h
  cases o with
  | predict env t births =>
    obtain ⟨_, _, _, _, h3⟩ := predict_tab h
    rw [h3]
    exact he.mono _
  | correct env meas =>
    obtain ⟨_, _, _, _, _, h3⟩ := correct_ok h
    rw [h3]
    exact he.mono _
  | cleanup env bp bc be u c =>
    obtain ⟨s2, k1, k2, k3, ⟨_, rfl⟩ | ⟨_, o, k4⟩⟩ := cleanup_pre h
    · rw [k2]
      exact he.mono _
    · refine extract_lives ?_ ?_ k4
      · have := hL.lives
        rwa [(extract_frame k4).1] at this
      · rw [k2]
        exact he.mono _
  | extract u c =>
    simp only [step] at h
    split at h
    · exact (nomatch h)
    · rename_i s o h1
      obtain rfl := Except.ok.inj h
      refine extract_lives ?_ (he.mono _) h1
      have := hL.lives
      rwa [(extract_frame h1).1] at this

theorem run_extLives {pr : Params K} (heps : 0 < pr.eps) : ∀ (ops pre : List (Op K τ F S C Z))
    (st st' : St K τ F S C), (∀ o ∈ ops, ∀ b ∈ birthsOf o, BirthOk b) → LifeInv pr pre st →
    ExtLives pr pre st.ext → run pr st ops = .ok st' → ExtLives pr (pre ++ ops) st'.ext
  | [], pre, st, st', _, hI, he, h => by
    simp only [run, Except.ok.injEq] at h
    subst h
    simpa using he
  | o :: os, pre, st, st', hb, hI, he, h => by
    unfold run at h
    split at h
    · exact (nomatch h)
    · rename_i s hs
      have := run_extLives heps os (pre ++ [o]) s st' (fun x hx => hb x (List.mem_cons_of_mem _ hx))
        (step_life heps o (hb o List.mem_cons_self) hI hs)
        (step_extLives heps o (hb o List.mem_cons_self) hI he hs) h
      simpa using this

theorem filterMap3_get {α β γ δ : Type*} (f : α → Option β) (g : α → Option γ) (h : α → Option δ) :
    ∀ (l : List α), (∀ a ∈ l, (f a).isSome = (g a).isSome ∧ (f a).isSome = (h a).isSome) →
      ∀ (i : ℕ) (b : β) (c : γ) (d : δ), (l.filterMap f)[i]? = some b → (l.filterMap g)[i]? = some c →
        (l.filterMap h)[i]? = some d → ∃ a ∈ l, f a = some b ∧ g a = some c ∧ h a = some d
  | [], _, i, b, c, d, h1, _, _ => by simp at h1
  | a :: l, hs, i, b, c, d, h1, h2, h3 => by
    have ih := filterMap3_get f g h l fun x hx => hs x (List.mem_cons_of_mem _ hx)
    obtain ⟨e1, e2⟩ := hs a List.mem_cons_self
    rw [List.filterMap_cons] at h1 h2 h3
    cases hf : f a with
    | none =>
      have hg : g a = none := by rw [hf] at e1; simpa using e1.symm
      have hh : h a = none := by rw [hf] at e2; simpa using e2.symm
      simp only [hf, hg, hh] at h1 h2 h3
      obtain ⟨x, hx, q⟩ := ih i b c d h1 h2 h3
      exact ⟨x, List.mem_cons_of_mem _ hx, q⟩
    | some b' =>
      obtain ⟨c', hg⟩ : ∃ c', g a = some c' := Option.isSome_iff_exists.1 (by rw [← e1, hf]; rfl)
      obtain ⟨d', hh⟩ : ∃ d', h a = some d' := Option.isSome_iff_exists.1 (by rw [← e2, hf]; rfl)
      simp only [hf, hg, hh] at h1 h2 h3
      cases i with
      | zero =>
        simp only [List.getElem?_cons_zero, Option.some.injEq] at h1 h2 h3
        exact ⟨a, List.mem_cons_self, by rw [h1.symm]; exact hf, by rw [h2.symm]; exact hg, by rw [h3.symm]; exact hh⟩
      | succ i =>
        simp only [List.getElem?_cons_succ] at h1 h2 h3
        obtain ⟨x, hx, q⟩ := ih i b c d h1 h2 h3
        exact ⟨x, List.mem_cons_of_mem _ hx, q⟩

theorem filterMap3_mem {α β γ δ : Type*} (f : α → Option β) (g : α → Option γ) (h : α → Option δ) :
    ∀ (l : List α), (∀ a ∈ l, (f a).isSome = (g a).isSome ∧ (f a).isSome = (h a).isSome) →
      ∀ (a : α) (b : β) (c : γ) (d : δ), a ∈ l → f a = some b → g a = some c → h a = some d →
        ∃ i : ℕ, (l.filterMap f)[i]? = some b ∧ (l.filterMap g)[i]? = some c ∧ (l.filterMap h)[i]? = some d
  | [], _, a, b, c, d, ha, _, _, _ => by simp at ha
  | a' :: l, hs, a, b, c, d, ha, h1, h2, h3 => by
    obtain ⟨e1, e2⟩ := hs a' List.mem_cons_self
    rcases List.mem_cons.1 ha with rfl | ha
    · exact ⟨0, by rw [List.filterMap_cons_some h1]; rfl, by rw [List.filterMap_cons_some h2]; rfl,
        by rw [List.filterMap_cons_some h3]; rfl⟩
    · obtain ⟨i, q1, q2, q3⟩ := filterMap3_mem f g h l (fun x hx => hs x (List.mem_cons_of_mem _ hx)) a b c d ha h1 h2 h3
      cases hf : f a' with
      | none =>
        have hg : g a' = none := by rw [hf] at e1; simpa using e1.symm
        have hh : h a' = none := by rw [hf] at e2; simpa using e2.symm
        exact ⟨i, by rw [List.filterMap_cons_none hf]; exact q1, by rw [List.filterMap_cons_none hg]; exact q2,
          by rw [List.filterMap_cons_none hh]; exact q3⟩
      | some b' =>
        obtain ⟨c', hg⟩ : ∃ c', g a' = some c' := Option.isSome_iff_exists.1 (by rw [← e1, hf]; rfl)
        obtain ⟨d', hh⟩ : ∃ d', h a' = some d' := Option.isSome_iff_exists.1 (by rw [← e2, hf]; rfl)
        exact ⟨i + 1, by rw [List.filterMap_cons_some hf]; exact q1, by rw [List.filterMap_cons_some hg]; exact q2,
          by rw [List.filterMap_cons_some hh]; exact q3⟩

theorem run_snoc {pr : Params K} (last : Op K τ F S C Z) {st : St K τ F S C} : ∀ (ops : List (Op K τ F S C Z))
    (s0 : St K τ F S C), run pr s0 (ops ++ [last]) = .ok st →
    ∃ s1, run pr s0 ops = .ok s1 ∧ step pr s1 last = .ok st
  | [], s0, h => by
    simp only [List.nil_append, run] at h
    cases hs : step pr s0 last with
    | error e => rw [hs] at h; simp at h
    | ok s =>
      rw [hs] at h
      simp only [Except.ok.injEq] at h
      exact ⟨s0, rfl, by rw [hs, h]⟩
  | o :: os, s0, h => by
    simp only [List.cons_append, run] at h ⊢
    cases hs : step pr s0 o with
    | error e => rw [hs] at h; simp at h
    | ok s =>
      rw [hs] at h
      exact run_snoc last os s h

theorem colAt_some {X : Type*} {b : ℕ} {l : List X} {t : ℕ} {x : X} :
    colAt b l t = some x ↔ b ≤ t ∧ l[t - b]? = some x := by
  unfold colAt
  split
  · rename_i h
    simp [h]
  · rename_i h
    simp [h]

theorem colAt_isSome {X Y : Type*} (b : ℕ) (l : List X) (l' : List Y) (t : ℕ) (h : l.length = l'.length) :
    (colAt b l t).isSome = (colAt b l' t).isSome := by
  unfold colAt
  split
  · rw [Bool.eq_iff_iff]
    simp only [isSome_getElem?, decide_eq_true_eq]
    rw [h]
  · rfl

/-- What an extraction reports, if the stored histories show tracks that satisfy `P`. -/
theorem report_core {u c : Bool} {s2 st : St K τ F S C} {o} (hx : extract u c s2 = .ok (st, o)) (hE' : ExtInv st)
    {P : Life K τ F S C → Prop} (hEL : ∀ x ∈ st.ext, ∃ l, P l ∧ Shows x l) :
    ∃ H : List (Life K τ F S C), (H.map fun l => l.label).Nodup ∧
      (∀ l ∈ H, P l) ∧
      (∀ (t i : ℕ) (ss : List S) (ls : List (τ × ℕ)) (cs : List C) (s : S) (lab : τ × ℕ) (cov : C),
        st.states[t]? = some ss → st.labels[t]? = some ls → st.covs[t]? = some cs →
        ss[i]? = some s → ls[i]? = some lab → cs[i]? = some cov →
        ∃ l ∈ H, l.label = lab ∧ l.born ≤ t ∧ BestAt l (t - l.born) s cov) ∧
      ∀ l ∈ H, ∀ k : ℕ, k ≤ l.past.length → ∃ (i : ℕ) (ss : List S) (ls : List (τ × ℕ)) (cs : List C) (s : S) (cov : C),
        st.states[l.born + k]? = some ss ∧ st.labels[l.born + k]? = some ls ∧ st.covs[l.born + k]? = some cs ∧
        ss[i]? = some s ∧ ls[i]? = some l.label ∧ cs[i]? = some cov ∧ BestAt l k s cov := by
  have hblank : st.states = List.replicate st.cntr [] → 
      ∃ H : List (Life K τ F S C), (H.map fun l => l.label).Nodup ∧
      (∀ l ∈ H, P l) ∧
      (∀ (t i : ℕ) (ss : List S) (ls : List (τ × ℕ)) (cs : List C) (s : S) (lab : τ × ℕ) (cov : C),
        st.states[t]? = some ss → st.labels[t]? = some ls → st.covs[t]? = some cs →
        ss[i]? = some s → ls[i]? = some lab → cs[i]? = some cov →
        ∃ l ∈ H, l.label = lab ∧ l.born ≤ t ∧ BestAt l (t - l.born) s cov) ∧
      ∀ l ∈ H, ∀ k : ℕ, k ≤ l.past.length → ∃ (i : ℕ) (ss : List S) (ls : List (τ × ℕ)) (cs : List C) (s : S) (cov : C),
        st.states[l.born + k]? = some ss ∧ st.labels[l.born + k]? = some ls ∧ st.covs[l.born + k]? = some cs ∧
        ss[i]? = some s ∧ ls[i]? = some l.label ∧ cs[i]? = some cov ∧ BestAt l k s cov := by
    intro hs
    refine ⟨[], by simp, by simp, ?_, by simp⟩
    intro t i ss ls cs s lab cov h1 _ _ h4
    rw [hs, List.getElem?_replicate] at h1
    split at h1
    · obtain rfl := Option.some.inj h1
      simp at h4
    · simp at h1
  obtain ⟨n, _, ⟨_, _, hst⟩ | ⟨_, idx, ext, r, _, _, hext, hrep, hst⟩⟩ := extract_ok hx
  · exact hblank (by rw [hst])
  cases c with
  | false =>
    simp only [Bool.false_eq_true, if_false, Except.ok.injEq] at hrep
    subst hrep
    exact hblank (by rw [hst])
  | true =>
    rw [if_pos rfl] at hrep
    have he : st.ext = ext := by rw [hst]
    have hlen : ∀ e ∈ ext, e.states.length = e.covs.length := he ▸ hE'.len
    have hnd : (ext.map fun e => e.label).Nodup := he ▸ hE'.nodup
    rw [he] at hEL
    obtain ⟨H, hH⟩ := Gasur.Jglmb.exists_forall₂ (R := fun (x : Ext τ S C) (l : Life K τ F S C) =>
      P l ∧ Shows x l) ext (by
        intro x hx
        obtain ⟨l, h1, h2⟩ := hEL x hx
        exact ⟨l, h1, h2⟩)
    have hrng := report_range _ _ _ _ hrep
    obtain ⟨_, hcol⟩ := report_spec _ _ _ _ hrep hlen
    have hc : st.cntr = s2.cntr := by rw [hst]
    have e1 : st.states = r.1 := by rw [hst]
    have e2 : st.labels = r.2.1 := by rw [hst]
    have e3 : st.covs = r.2.2 := by rw [hst]
    rw [e1, e2, e3]
    have hcons : ∀ t, ∀ e ∈ ext, (colAt e.tIdx e.states t).isSome =
        ((colAt e.tIdx e.states t).map fun _ => e.label).isSome ∧
        (colAt e.tIdx e.states t).isSome = (colAt e.tIdx e.covs t).isSome := fun t e hee =>
      ⟨by simp, colAt_isSome _ _ _ _ (hlen e hee)⟩
    refine ⟨H, ?_, ?_, ?_, ?_⟩
    · have : (H.map fun l => l.label) = ext.map fun e => e.label := by
        clear hcol hrep hext hst hE' hlen hnd he hrng hcons hEL
        induction hH with
        | nil => rfl
        | cons h1 _ ih => rw [List.map_cons, List.map_cons, ih, h1.2.label]
      rw [this]
      exact hnd
    · intro l hl
      obtain ⟨x, _, hx⟩ := forall₂_mem_right hH hl
      exact hx.1
    · intro t i ss ls cs s lab cov h1 h2 h3 h4 h5 h6
      obtain ⟨g1, g2, g3⟩ := hcol t
      rw [h1] at g1
      rw [h2] at g2
      rw [h3] at g3
      rw [List.getElem?_replicate] at g1 g2 g3
      split at g1
      · rename_i ht
        simp only [if_pos ht, Option.map_some, List.nil_append, Option.some.injEq] at g1 g2 g3
        subst g1 g2 g3
        obtain ⟨e, hee, q1, q2, q3⟩ := filterMap3_get _ _ _ ext (hcons t) i s lab cov h4 h5 h6
        obtain ⟨l, hl, _, hsh⟩ := forall₂_mem_left hH hee
        rw [q1] at q2
        obtain ⟨b1, b2⟩ := colAt_some.1 q1
        obtain ⟨_, b3⟩ := colAt_some.1 q3
        refine ⟨l, hl, ?_, hsh.born ▸ b1, ?_⟩
        · rw [← hsh.label]
          simpa using q2
        · rw [hsh.born] at b2 b3
          exact hsh.best _ _ _ b2 b3
      · simp at g1
    · intro l hl k hk
      obtain ⟨e, hee, _, hsh⟩ := forall₂_mem_right hH hl
      have k1 : k < e.states.length := by rw [hsh.states]; omega
      have k2 : k < e.covs.length := by rw [hsh.covs]; omega
      have ht := hrng e hee k k1 k2
      rw [hsh.born] at ht
      obtain ⟨g1, g2, g3⟩ := hcol (l.born + k)
      rw [List.getElem?_replicate, if_pos ht] at g1 g2 g3
      simp only [Option.map_some, List.nil_append] at g1 g2 g3
      have q1 : colAt e.tIdx e.states (l.born + k) = some e.states[k] :=
        colAt_some.2 ⟨by rw [hsh.born]; omega, by rw [hsh.born, Nat.add_sub_cancel_left]; simp [k1]⟩
      have q3 : colAt e.tIdx e.covs (l.born + k) = some e.covs[k] :=
        colAt_some.2 ⟨by rw [hsh.born]; omega, by rw [hsh.born, Nat.add_sub_cancel_left]; simp [k2]⟩
      obtain ⟨i, p1, p2, p3⟩ := filterMap3_mem _ _ _ ext (hcons (l.born + k)) e _ e.label _ hee q1 (by rw [q1]; rfl) q3
      exact ⟨i, _, _, _, _, _, g1, g2, g3, p1, by rw [p2, hsh.label], p3,
        hsh.best _ _ _ (List.getElem?_eq_getElem k1) (List.getElem?_eq_getElem k2)⟩

/-- C117: after any calls with distinct birth labels that end with an extraction, there are single-object tracks `H`
with distinct labels, each a track of the filter after some of the calls, such that what the filter reports at
position `i` of time step `t` (state, label, covariance) is the best estimate of one of these tracks `t - born`
steps after its birth, and every one of these tracks is reported at every time step it has. -/
theorem C117_reported_tracks (pr : Params K) (heps : 0 < pr.eps) (ops : List (Op K τ F S C Z))
    (hdist : (ops.flatMap Op.labels).Nodup) (hb : ∀ o ∈ ops, ∀ b ∈ birthsOf o, BirthOk b)
    (last : Op K τ F S C Z) (u c : Bool)
    (hlast : last = .extract u c ∨ ∃ env bp bc, last = .cleanup env bp bc true u c)
    (st : St K τ F S C) (h : run pr init (ops ++ [last]) = .ok st) :
    ∃ H : List (Life K τ F S C), (H.map fun l => l.label).Nodup ∧
      (∀ l ∈ H, ∃ pre, pre <+: ops ++ [last] ∧ Lives pr pre l) ∧
      (∀ (t i : ℕ) (ss : List S) (ls : List (τ × ℕ)) (cs : List C) (s : S) (lab : τ × ℕ) (cov : C),
        st.states[t]? = some ss → st.labels[t]? = some ls → st.covs[t]? = some cs →
        ss[i]? = some s → ls[i]? = some lab → cs[i]? = some cov →
        ∃ l ∈ H, l.label = lab ∧ l.born ≤ t ∧ BestAt l (t - l.born) s cov) ∧
      ∀ l ∈ H, ∀ k : ℕ, k ≤ l.past.length → ∃ (i : ℕ) (ss : List S) (ls : List (τ × ℕ)) (cs : List C) (s : S) (cov : C),
        st.states[l.born + k]? = some ss ∧ st.labels[l.born + k]? = some ls ∧ st.covs[l.born + k]? = some cs ∧
        ss[i]? = some s ∧ ls[i]? = some l.label ∧ cs[i]? = some cov ∧ BestAt l k s cov := by
  have hE' : ExtInv st ∧ ∃ s2 o, extract u c s2 = .ok (st, o) := by
    obtain ⟨s1, hr, hs⟩ := run_snoc last ops init h
    obtain ⟨⟨past, hL⟩, hE⟩ := run_ext heps ops [] init s1 init_lab init_ext hdist (by simp) hr
    rcases hlast with rfl | ⟨env, bp, bc, rfl⟩
    · simp only [step] at hs
      cases hx : extract u c s1 with
      | error e => rw [hx] at hs; simp at hs
      | ok r =>
        obtain ⟨s, o⟩ := r
        rw [hx] at hs
        simp only [Except.ok.injEq] at hs
        subst hs
        exact ⟨extract_inv hL hE hx, s1, o, hx⟩
    · simp only [step] at hs
      obtain ⟨s2, k1, k2, k3, ⟨hf, _⟩ | ⟨_, o, k4⟩⟩ := cleanup_pre hs
      · simp at hf
      · exact ⟨extract_inv (k1.lab hL) ⟨by rw [k2]; exact hE.len, by rw [k2]; exact hE.nodup⟩ k4, s2, o, k4⟩
  obtain ⟨hE', s2, o, hx⟩ := hE'
  have hbl : ∀ o ∈ ops ++ [last], ∀ b ∈ birthsOf o, BirthOk b := by
    intro o ho
    rcases List.mem_append.1 ho with ho | ho
    · exact hb o ho
    · obtain rfl := List.mem_singleton.1 ho
      intro b hb'
      rcases hlast with rfl | ⟨env, bp, bc, rfl⟩ <;> simp [birthsOf] at hb'
  have hEL := run_extLives heps (ops ++ [last]) [] init st hbl ⟨init_idx, rfl, by simp [init]⟩
    (by simp [ExtLives, init]) h
  rw [List.nil_append] at hEL
  refine report_core hx hE' (P := fun l => ∃ pre, pre <+: ops ++ [last] ∧ Lives pr pre l) ?_
  intro x hx
  obtain ⟨pre, l, h1, h2, h3⟩ := hEL x hx
  exact ⟨l, ⟨pre, h1, h2⟩, h3⟩

/-- Non-vacuity: the hypotheses hold for `exTrackOps` followed by `cleanup` with extraction; the report then contains a
state of the first birth term at both time steps and one of the second birth term at the second. -/
example : (0 : ℚ) < exTrackPr.eps ∧ (∀ o ∈ exTrackOps, ∀ b ∈ birthsOf o, BirthOk b) ∧
    (exTrackOps.flatMap Op.labels).Nodup ∧
    ∃ st, run exTrackPr init (exTrackOps ++ [.cleanup exTrackEnv true true true true true]) = .ok st ∧
      st.labels = [[(0, 0)], [(1, 0), (0, 0)]] ∧ st.states = [[2], [8, 3]] := by
  refine ⟨by decide +kernel, ?_, by decide, ?_⟩
  · intro o ho b hb
    simp only [exTrackOps, List.mem_cons, List.not_mem_nil, or_false] at ho
    rcases ho with rfl | rfl | rfl | rfl | rfl <;> simp only [birthsOf, List.mem_singleton, List.not_mem_nil] at hb <;>
      subst hb <;> exact ⟨rfl, rfl, rfl⟩
  · have : (run exTrackPr init (exTrackOps ++ [.cleanup exTrackEnv true true true true true])).toOption.any
        (fun st => st.labels == [[(0, 0)], [(1, 0), (0, 0)]] && st.states == [[2], [8, 3]]) = true := by
      decide +kernel
    cases hr : run exTrackPr init (exTrackOps ++ [.cleanup exTrackEnv true true true true true]) with
    | error e => rw [hr] at this; simp [Except.toOption] at this
    | ok st =>
      rw [hr] at this
      simp only [Except.toOption, Option.any_some, Bool.and_eq_true, beq_iff_eq] at this
      exact ⟨st, rfl, this.1, this.2⟩

end Gasur.Props
