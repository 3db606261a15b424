import Verif.Model.Snapshot
import Verif.Proofs.GlmbMain
import Verif.Spec.Phd

/-! The store model refines the value model, and what a saved state restores. -/

set_option linter.unusedSectionVars false
set_option linter.unusedSimpArgs false

namespace Gasur.Snapshot

open Gasur.Glmb Gasur.Spec

variable {K τ F S C Z : Type*} [Field K] [LinearOrder K] [IsStrictOrderedRing K] [FloorRing K]
  [DecidableEq τ]

/-- The filter's references are pairwise different existing objects. -/
structure HInv (s : HSt K τ F S C Z) : Prop where
  nodup : s.refs.Nodup
  lt : ∀ r ∈ s.refs, r < s.next

theorem store_notMem (mem : ℕ → Hyp K) : ∀ (rs : List ℕ) (hs : List (Hyp K)) (a : ℕ), a ∉ rs →
    store mem rs hs a = mem a
  | [], hs, a, _ => by simp [store]
  | r :: rs, [], a, _ => by simp [store]
  | r :: rs, h :: hs, a, ha => by
    have h' : a ≠ r ∧ a ∉ rs := by simpa using ha
    rw [store, Function.update_of_ne h'.1, store_notMem mem rs hs a h'.2]

theorem map_store (mem : ℕ → Hyp K) : ∀ (rs : List ℕ) (hs : List (Hyp K)), rs.Nodup →
    rs.length = hs.length → rs.map (store mem rs hs) = hs
  | [], [], _, _ => rfl
  | r :: rs, h :: hs, hn, hl => by
    have hn' := List.nodup_cons.1 hn
    rw [List.map_cons]
    congr 1
    · rw [store, Function.update_self]
    · rw [← map_store mem rs hs hn'.2 (by simpa using hl)]
      refine List.map_congr_left fun a ha => ?_
      have : a ≠ r := fun h => hn'.1 (h ▸ ha)
      rw [store, Function.update_of_ne this]
      rw [map_store mem rs hs hn'.2 (by simpa using hl)]
  | [], _ :: _, _, hl => by simp at hl
  | _ :: _, [], _, hl => by simp at hl

theorem read_inPlace (s : HSt K τ F S C Z) (refs : List ℕ) (st : St K τ F S C) (hn : refs.Nodup)
    (hl : refs.length = st.hyps.length) : (inPlace s refs st).read = st := by
  unfold HSt.read inPlace
  simp only
  rw [map_store _ _ _ hn hl]

theorem read_alloc (s : HSt K τ F S C Z) (st : St K τ F S C) : (alloc s st).read = st := by
  unfold HSt.read alloc
  simp only
  have : (List.range' s.next st.hyps.length).map
      (fun a => if s.next ≤ a then (st.hyps[a - s.next]?).getD (s.mem a) else s.mem a) = st.hyps := by
    apply List.ext_getElem
    · simp
    · intro i h1 h2
      simp [List.getElem?_eq_getElem h2]
  rw [this]

theorem inv_alloc (s : HSt K τ F S C Z) (st : St K τ F S C) : HInv (alloc s st) :=
  ⟨List.nodup_range', by intro r hr; simp only [alloc, List.mem_range'_1] at hr ⊢; omega⟩

/-- Normalisation keeps the number of hypotheses. -/
theorem normHyps_length {hyps hs : List (Hyp K)} (h : normHyps hyps = .ok hs) :
    hs.length = hyps.length := by
  have := congrArg List.length (normHyps_tracks h)
  simpa using this

/-- Without measurements `correct` keeps every hypothesis. -/
theorem correct_nil_length {env : Env K τ F S C Z} {pr : Params K} {st st' : St K τ F S C}
    (h : correct env pr [] st = .ok st') : st'.hyps.length = st.hyps.length := by
  obtain ⟨blocks, hs, hb, hh, hcl, _⟩ := correct_ok h
  have hb0 : blocks = [] := by
    have : corBlocks env pr st.tab ([] : List Z) = .ok [] := rfl
    rw [this] at hb
    simpa using hb.symm
  subst hb0
  have hlen : hs.length = st.hyps.length := by
    unfold corHyps at hh
    split at hh
    · simp at hh
    · rename_i ls hls
      rw [normHyps_length hh]
      have hf := (traverseE_ok _ _ _).1 hls
      have h1 : ∀ l ∈ ls, l.length = 1 := by
        intro l hl
        obtain ⟨x, _, hx⟩ := forall₂_mem_right hf hl
        unfold corOne at hx
        split at hx
        · simp at hx
        · simp only [if_true, Except.ok.injEq] at hx
          rw [← hx]; rfl
      rw [List.length_flatten, hf.length_eq]
      have : ls.map List.length = ls.map fun _ => 1 := List.map_congr_left h1
      rw [this]
      simp
  obtain ⟨hr, _, _, _, hy⟩ := cleanUpd_ok hcl
  rw [hy, List.length_map, ← hlen]
  congr 1
  rw [List.filter_eq_self]
  intro x hx
  rw [List.all_eq_true]
  intro i hi
  have hlt := hr x hx i hi
  simp only [decide_eq_true_eq]
  rw [mem_usedInds]
  refine ⟨?_, x, hx, hi⟩
  simp only [upTab, List.flatMap_nil, List.append_nil, List.length_map] at hlt ⊢
  exact ⟨_, by rw [List.getElem?_map, List.getElem?_eq_getElem hlt]; rfl⟩

/-- Picking from a list of references and then reading is picking from the list of values. -/
theorem traverse_map (mem : ℕ → Hyp K) (refs : List ℕ) : ∀ idx : List ℕ,
    traverseE (getE (refs.map mem)) idx = (traverseE (getE refs) idx).map fun l => l.map mem
  | [] => rfl
  | i :: idx => by
    rw [traverseE, traverseE]
    cases hi : refs[i]? with
    | none => simp [getE, hi, Except.map]
    | some r =>
      have h1 : getE (refs.map mem) i = .ok (mem r) := by simp [getE, hi]
      have h2 : getE refs i = .ok r := by simp [getE, hi]
      rw [h1, h2]
      simp only
      rw [traverse_map mem refs idx]
      cases traverseE (getE refs) idx <;> simp [Except.map]

/-- What a call needs from the environment. -/
def OpOK : Op K τ F S C Z → Prop
  | .cleanup env _ _ _ _ _ => ∀ ws : List K, IsArgsort ws (env.argsort ws)
  | _ => True

/-- `Except.map read`. -/
def readE (r : Except GErr (HSt K τ F S C Z)) : Except GErr (St K τ F S C) := r.map HSt.read

theorem hPrune_refines {pr : Params K} {s : HSt K τ F S C Z} (hI : HInv s) :
    readE (hPrune pr s) = prune pr s.read ∧ ∀ s', hPrune pr s = .ok s' → HInv s' := by
  unfold hPrune
  cases h : prune pr s.read with
  | error e => simp [readE, Except.map]
  | ok st =>
    have hn : (s.refs.filter fun r => decide (pr.pruneThreshold < (s.mem r).prob)).Nodup :=
      hI.nodup.filter _
    have hl : (s.refs.filter fun r => decide (pr.pruneThreshold < (s.mem r).prob)).length =
        st.hyps.length := by
      obtain ⟨hs, hn, rfl⟩ := prune_ok h
      simp only
      rw [normHyps_length hn]
      simp only [HSt.read, List.filter_map, List.length_map]
      rfl
    refine ⟨?_, ?_⟩
    · simp only [readE, Except.map, read_inPlace s _ st hn hl]
    · intro s' hs'
      simp only [Except.ok.injEq] at hs'
      subst hs'
      exact ⟨hn, fun r hr => hI.lt r (List.mem_filter.1 hr).1⟩

theorem hCap_refines {env : Env K τ F S C Z} (ha : ∀ ws : List K, IsArgsort ws (env.argsort ws))
    {pr : Params K} {s : HSt K τ F S C Z} (hI : HInv s) :
    readE (hCap env pr s) = cap env pr s.read ∧ ∀ s', hCap env pr s = .ok s' → HInv s' := by
  unfold hCap
  by_cases hm : pr.maxHyps < s.refs.length
  · rw [if_pos hm]
    set idx := ((env.argsort (s.refs.map fun r => (s.mem r).prob)).reverse).take pr.maxHyps with hidx
    have hcap : cap env pr s.read = (match traverseE (getE s.read.hyps) idx with
        | .error e => .error e
        | .ok kept => match normHyps kept with
          | .error e => .error e
          | .ok hs => .ok { s.read with hyps := hs, card := calcCard hs }) := by
      unfold cap
      rw [if_pos (by simpa [HSt.read] using hm), hidx]
      simp only [HSt.read, List.map_map]
      rfl
    rw [hcap]
    have htr : traverseE (getE s.read.hyps) idx =
        (traverseE (getE s.refs) idx).map fun l => l.map s.mem := traverse_map _ _ _
    rw [htr]
    cases hk : traverseE (getE s.refs) idx with
    | error e => simp [readE, Except.map]
    | ok kept =>
      have hforall := ((traverseE_ok _ _ _).1 hk).imp fun _ _ h => getE_ok.1 h
      have hnd : kept.Nodup := by
        refine pick_nodup hI.nodup hforall ?_
        rw [hidx]
        refine List.Nodup.sublist (List.take_sublist _ _) ?_
        rw [List.nodup_reverse]
        exact (ha _).1.nodup_iff.2 List.nodup_range
      simp only [Except.map]
      cases hn : normHyps (kept.map s.mem) with
      | error e => simp [readE, Except.map]
      | ok hs =>
        simp only [readE, Except.map]
        refine ⟨?_, ?_⟩
        · rw [read_inPlace s kept _ hnd]
          have := normHyps_length hn
          simpa using this.symm
        · intro s' hs'
          simp only [Except.ok.injEq] at hs'
          subst hs'
          exact ⟨hnd, fun r hr => hI.lt r (pick_subset hforall hr)⟩
  · rw [if_neg hm]
    have : cap env pr s.read = .ok s.read := by
      unfold cap
      rw [if_neg (by simpa [HSt.read] using hm)]
    rw [this]
    exact ⟨rfl, fun s' hs' => by cases hs'; exact hI⟩

theorem hExtract_refines {u c : Bool} {s : HSt K τ F S C Z} (hI : HInv s) :
    readE (hExtract u c s) = (extract u c s.read).map Prod.fst ∧
      ∀ s', hExtract u c s = .ok s' → HInv s' := by
  unfold hExtract
  cases h : extract u c s.read with
  | error e => simp [readE, Except.map]
  | ok p =>
    obtain ⟨st, o⟩ := p
    have hf := (extract_frame h).2.1
    simp only [readE, Except.map, Except.ok.injEq, HSt.read] at hf ⊢
    refine ⟨by rw [← hf], fun s' hs' => ?_⟩
    subst hs'
    exact ⟨hI.nodup, hI.lt⟩

theorem hPredict_refines {env : Env K τ F S C Z} {pr : Params K} {lab : τ} {births : List (Birth K F S C)}
    {s : HSt K τ F S C Z} :
    readE (hPredict env pr lab births s) = predict env pr lab births s.read ∧
      ∀ s', hPredict env pr lab births s = .ok s' → HInv s' := by
  unfold hPredict
  cases h : predict env pr lab births s.read with
  | error e => simp [readE, Except.map]
  | ok st =>
    simp only [readE, Except.map, read_alloc, true_and, Except.ok.injEq]
    rintro s' rfl
    exact inv_alloc _ _

theorem hCorrect_refines {env : Env K τ F S C Z} {pr : Params K} {sm : Bool} {meas : List Z}
    {s : HSt K τ F S C Z} (hI : HInv s) :
    readE (hCorrect env pr sm meas s) = correct env pr meas s.read ∧
      ∀ s', hCorrect env pr sm meas s = .ok s' → HInv s' := by
  unfold hCorrect
  simp only
  set s1 : HSt K τ F S C Z := if sm then
    { s with lists := Function.update s.lists s.measRef (s.lists s.measRef ++ [meas]) } else s with hs1
  have e1 : s1.read = s.read := by rw [hs1]; split <;> rfl
  have e2 : s1.refs = s.refs := by rw [hs1]; split <;> rfl
  have e3 : s1.next = s.next := by rw [hs1]; split <;> rfl
  rw [e1]
  cases h : correct env pr meas s.read with
  | error e => simp [readE, Except.map]
  | ok st =>
    simp only [readE, Except.map, Except.ok.injEq]
    cases meas with
    | nil =>
      simp only [List.isEmpty_nil, if_true]
      refine ⟨read_inPlace _ _ _ (e2 ▸ hI.nodup) ?_, ?_⟩
      · rw [e2, correct_nil_length h]; simp [HSt.read]
      · rintro s' rfl
        exact ⟨e2 ▸ hI.nodup, fun r hr => by
          show r < s1.next
          rw [e3]
          exact hI.lt r (e2 ▸ hr)⟩
    | cons z zs =>
      simp only [List.isEmpty_cons, Bool.false_eq_true, if_false, read_alloc, true_and]
      rintro s' rfl
      exact inv_alloc _ _

theorem hCleanup_refines {env : Env K τ F S C Z} (ha : ∀ ws : List K, IsArgsort ws (env.argsort ws))
    {pr : Params K} {bp bc be u c : Bool} {s : HSt K τ F S C Z} (hI : HInv s) :
    readE (hCleanup env pr bp bc be u c s) = cleanup env pr bp bc be u c s.read ∧
      ∀ s', hCleanup env pr bp bc be u c s = .ok s' → HInv s' := by
  unfold hCleanup cleanup
  simp only
  set s0 : HSt K τ F S C Z := { s with rest := { s.rest with cntr := s.rest.cntr + 1 } } with hs0
  have hI0 : HInv s0 := ⟨hI.nodup, hI.lt⟩
  have hr0 : s0.read = { s.read with cntr := s.read.cntr + 1 } := rfl
  have h1 : readE (if bp then hPrune pr s0 else .ok s0) =
      (if bp then prune pr s0.read else .ok s0.read) ∧
      ∀ s', (if bp then hPrune pr s0 else .ok s0) = .ok s' → HInv s' := by
    cases bp
    · exact ⟨rfl, fun s' hs' => by cases hs'; exact hI0⟩
    · exact hPrune_refines hI0
  rw [← hr0, ← h1.1]
  cases hp : (if bp then hPrune pr s0 else .ok s0) with
  | error e => simp [readE, Except.map]
  | ok s1 =>
    have hI1 := h1.2 s1 hp
    simp only [readE, Except.map]
    have h2 : readE (if bc then hCap env pr s1 else .ok s1) =
        (if bc then cap env pr s1.read else .ok s1.read) ∧
        ∀ s', (if bc then hCap env pr s1 else .ok s1) = .ok s' → HInv s' := by
      cases bc
      · exact ⟨rfl, fun s' hs' => by cases hs'; exact hI1⟩
      · exact hCap_refines ha hI1
    rw [← h2.1]
    cases hc : (if bc then hCap env pr s1 else .ok s1) with
    | error e => simp [readE, Except.map]
    | ok s2 =>
      have hI2 := h2.2 s2 hc
      simp only [readE, Except.map]
      cases be
      · exact ⟨rfl, fun s' hs' => by cases hs'; exact hI2⟩
      · simp only [if_true]
        have h3 := hExtract_refines (u := u) (c := c) hI2
        refine ⟨?_, h3.2⟩
        refine Eq.trans (b := readE (hExtract u c s2)) ?_ ?_
        · cases hExtract u c s2 <;> rfl
        · rw [h3.1]
          cases extract u c s2.read <;> rfl

/-- The store model refines the value model, one call. -/
theorem hStep_refines {pr : Params K} {sm : Bool} {s : HSt K τ F S C Z} (hI : HInv s)
    (o : Op K τ F S C Z) (ho : OpOK o) :
    readE (hStep pr sm s o) = step pr s.read o ∧ ∀ s', hStep pr sm s o = .ok s' → HInv s' := by
  cases o with
  | predict env lab births => exact hPredict_refines
  | correct env meas => exact hCorrect_refines hI
  | cleanup env bp bc be u c => exact hCleanup_refines ho hI
  | extract u c =>
    have := hExtract_refines (u := u) (c := c) hI
    refine ⟨?_, this.2⟩
    show readE (hExtract u c s) = _
    rw [this.1]
    simp only [step]
    cases extract u c s.read <;> rfl

/-- The store model refines the value model. -/
theorem hRun_refines {pr : Params K} {sm : Bool} : ∀ (ops : List (Op K τ F S C Z)) {s : HSt K τ F S C Z},
    HInv s → (∀ o ∈ ops, OpOK o) →
    readE (hRun pr sm s ops) = run pr s.read ops ∧ ∀ s', hRun pr sm s ops = .ok s' → HInv s'
  | [], s, hI, _ => ⟨rfl, fun s' hs' => by cases hs'; exact hI⟩
  | o :: ops, s, hI, hops => by
    have h1 := hStep_refines (pr := pr) (sm := sm) hI o (hops o (by simp))
    rw [hRun, run, ← h1.1]
    cases h : hStep pr sm s o with
    | error e => simp [readE, Except.map]
    | ok s1 =>
      simp only [readE, Except.map]
      exact hRun_refines ops (h1.2 s1 h) fun x hx => hops x (by simp [hx])

theorem inv_init : HInv (hInit : HSt K τ F S C Z) := ⟨by simp [hInit], by simp [hInit]⟩

theorem read_init : (hInit : HSt K τ F S C Z).read = init := rfl

/-! ### Separation -/

/-- The objects below `b` are those of `s0`, and the filter does not refer to them. -/
structure Sep (b : ℕ) (s0 s : HSt K τ F S C Z) : Prop where
  le : b ≤ s.next
  mem : ∀ a < b, s.mem a = s0.mem a
  refs : ∀ r ∈ s.refs, b ≤ r

theorem sep_alloc {b : ℕ} {s0 s : HSt K τ F S C Z} (hb : b ≤ s.next) (hm : ∀ a < b, s.mem a = s0.mem a)
    (st : St K τ F S C) : Sep b s0 (alloc s st) := by
  refine ⟨?_, ?_, ?_⟩
  · simp only [alloc]; omega
  · intro a ha
    simp only [alloc]
    rw [if_neg (by omega)]
    exact hm a ha
  · intro r hr
    simp only [alloc, List.mem_range'_1] at hr
    omega

theorem sep_inPlace {b : ℕ} {s0 s : HSt K τ F S C Z} (h : Sep b s0 s) {refs : List ℕ}
    (hr : ∀ r ∈ refs, r ∈ s.refs) (st : St K τ F S C) : Sep b s0 (inPlace s refs st) := by
  refine ⟨h.le, ?_, fun r hr' => h.refs r (hr r hr')⟩
  intro a ha
  simp only [inPlace]
  rw [store_notMem _ _ _ _ fun hc => absurd (h.refs a (hr a hc)) (by omega)]
  exact h.mem a ha

theorem sep_prune {b : ℕ} {s0 s s' : HSt K τ F S C Z} {pr : Params K} (h : Sep b s0 s)
    (hs : hPrune pr s = .ok s') : Sep b s0 s' := by
  unfold hPrune at hs
  split at hs
  · simp at hs
  · simp only [Except.ok.injEq] at hs
    subst hs
    exact sep_inPlace h (fun r hr => (List.mem_filter.1 hr).1) _

theorem sep_cap {b : ℕ} {s0 s s' : HSt K τ F S C Z} {env : Env K τ F S C Z} {pr : Params K}
    (h : Sep b s0 s) (hs : hCap env pr s = .ok s') : Sep b s0 s' := by
  unfold hCap at hs
  split at hs
  · split at hs
    · simp at hs
    · rename_i kept hk
      split at hs
      · simp at hs
      · simp only [Except.ok.injEq] at hs
        subst hs
        exact sep_inPlace h (fun r hr => pick_subset (((traverseE_ok _ _ _).1 hk).imp fun _ _ h => getE_ok.1 h) hr) _
  · simp only [Except.ok.injEq] at hs
    exact hs ▸ h

theorem extract_same {u c : Bool} {s s' : HSt K τ F S C Z} (hs : hExtract u c s = .ok s') :
    s'.mem = s.mem ∧ s'.next = s.next ∧ s'.refs = s.refs ∧ s'.lists = s.lists ∧ s'.measRef = s.measRef := by
  unfold hExtract at hs
  split at hs
  · simp at hs
  · simp only [Except.ok.injEq] at hs
    subst hs
    exact ⟨rfl, rfl, rfl, rfl, rfl⟩

theorem sep_extract {b : ℕ} {s0 s s' : HSt K τ F S C Z} {u c : Bool}
    (h : Sep b s0 s) (hs : hExtract u c s = .ok s') : Sep b s0 s' := by
  obtain ⟨h1, h2, h3, _⟩ := extract_same hs
  exact ⟨h2 ▸ h.le, by rw [h1]; exact h.mem, by rw [h3]; exact h.refs⟩

theorem sep_cleanup {b : ℕ} {s0 s s' : HSt K τ F S C Z} {env : Env K τ F S C Z} {pr : Params K}
    {bp bc be u c : Bool} (h : Sep b s0 s) (hs : hCleanup env pr bp bc be u c s = .ok s') :
    Sep b s0 s' := by
  unfold hCleanup at hs
  simp only at hs
  split at hs
  · simp at hs
  · rename_i s1 h1
    have k1 : Sep b s0 s1 := by
      have h0 : Sep b s0 { s with rest := { s.rest with cntr := s.rest.cntr + 1 } } :=
        ⟨h.le, h.mem, h.refs⟩
      split at h1
      · exact sep_prune h0 h1
      · cases h1; exact h0
    split at hs
    · simp at hs
    · rename_i s2 h2
      have k2 : Sep b s0 s2 := by
        split at h2
        · exact sep_cap k1 h2
        · cases h2; exact k1
      split at hs
      · exact sep_extract k2 hs
      · cases hs; exact k2

theorem correct_pre {b : ℕ} {s0 s : HSt K τ F S C Z} (sm : Bool) (meas : List Z)
    (hb : b ≤ s.next) (hm : ∀ a < b, s.mem a = s0.mem a) :
    let s1 : HSt K τ F S C Z := if sm then
      { s with lists := Function.update s.lists s.measRef (s.lists s.measRef ++ [meas]) } else s
    b ≤ s1.next ∧ (∀ a < b, s1.mem a = s0.mem a) ∧ s1.refs = s.refs := by
  simp only
  split <;> exact ⟨hb, hm, rfl⟩

theorem sep_step {b : ℕ} {s0 s s' : HSt K τ F S C Z} {pr : Params K} {sm : Bool} (h : Sep b s0 s)
    (o : Op K τ F S C Z) (hs : hStep pr sm s o = .ok s') : Sep b s0 s' := by
  cases o with
  | predict env lab births =>
    simp only [hStep, hPredict] at hs
    split at hs
    · simp at hs
    · simp only [Except.ok.injEq] at hs
      subst hs
      exact sep_alloc h.le h.mem _
  | correct env meas =>
    simp only [hStep, hCorrect] at hs
    obtain ⟨k1, k2, k3⟩ := correct_pre sm meas h.le h.mem
    split at hs
    · simp at hs
    · simp only [Except.ok.injEq] at hs
      subst hs
      split
      · exact sep_inPlace ⟨k1, k2, by rw [k3]; exact h.refs⟩ (fun r hr => hr) _
      · exact sep_alloc k1 k2 _
  | cleanup env bp bc be u c => exact sep_cleanup h hs
  | extract u c => exact sep_extract h hs

theorem sep_run {b : ℕ} {s0 : HSt K τ F S C Z} {pr : Params K} {sm : Bool} :
    ∀ (ops : List (Op K τ F S C Z)) {s s' : HSt K τ F S C Z}, Sep b s0 s → hRun pr sm s ops = .ok s' →
      Sep b s0 s'
  | [], s, s', h, hs => by cases hs; exact h
  | o :: ops, s, s', h, hs => by
    rw [hRun] at hs
    split at hs
    · simp at hs
    · rename_i s1 h1
      exact sep_run ops (sep_step h o h1) hs

/-- Without `save_measurements` the lists of measurements are not touched. -/
theorem lists_step {s s' : HSt K τ F S C Z} {pr : Params K} (o : Op K τ F S C Z)
    (hs : hStep pr false s o = .ok s') : s'.lists = s.lists ∧ s'.measRef = s.measRef := by
  cases o with
  | predict env lab births =>
    simp only [hStep, hPredict] at hs
    split at hs
    · simp at hs
    · simp only [Except.ok.injEq] at hs
      subst hs
      exact ⟨rfl, rfl⟩
  | correct env meas =>
    simp only [hStep, hCorrect, Bool.false_eq_true, if_false] at hs
    split at hs
    · simp at hs
    · simp only [Except.ok.injEq] at hs
      subst hs
      split <;> exact ⟨rfl, rfl⟩
  | cleanup env bp bc be u c =>
    simp only [hStep, hCleanup] at hs
    split at hs
    · simp at hs
    · rename_i s1 h1
      have k1 : s1.lists = s.lists ∧ s1.measRef = s.measRef := by
        split at h1
        · unfold hPrune at h1
          split at h1
          · simp at h1
          · simp only [Except.ok.injEq] at h1
            subst h1
            exact ⟨rfl, rfl⟩
        · cases h1; exact ⟨rfl, rfl⟩
      split at hs
      · simp at hs
      · rename_i s2 h2
        have k2 : s2.lists = s1.lists ∧ s2.measRef = s1.measRef := by
          split at h2
          · unfold hCap at h2
            split at h2
            · split at h2
              · simp at h2
              · split at h2
                · simp at h2
                · simp only [Except.ok.injEq] at h2
                  subst h2
                  exact ⟨rfl, rfl⟩
            · cases h2; exact ⟨rfl, rfl⟩
          · cases h2; exact ⟨rfl, rfl⟩
        split at hs
        · have := extract_same hs
          exact ⟨this.2.2.2.1.trans (k2.1.trans k1.1), this.2.2.2.2.trans (k2.2.trans k1.2)⟩
        · cases hs; exact ⟨k2.1.trans k1.1, k2.2.trans k1.2⟩
  | extract u c =>
    have := extract_same hs
    exact ⟨this.2.2.2.1, this.2.2.2.2⟩

theorem lists_run {pr : Params K} : ∀ (ops : List (Op K τ F S C Z)) {s s' : HSt K τ F S C Z},
    hRun pr false s ops = .ok s' → s'.lists = s.lists
  | [], s, s', hs => by cases hs; rfl
  | o :: ops, s, s', hs => by
    rw [hRun] at hs
    split at hs
    · simp at hs
    · rename_i s1 h1
      exact (lists_run ops hs).trans (lists_step o h1).1

end Gasur.Snapshot
