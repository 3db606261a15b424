import Verif.Props.GlmbHeap
import Verif.Spec.GlmbHeap

/-!
# Property C156: the GLMB filter and the arrays of the caller (calls)
-/

namespace Gasur.Props.GlmbHeap

open Gasur.Glmb Gasur.Spec Gasur.GlmbHeap

variable {K τ F S C Z : Type*}

/-- `x` does with references what `y` does with values. -/
structure Call (h : HF K τ F S C Z) (x : Except GErr (HF K τ F S C Z)) (y : Except GErr (St K τ F S C)) : Prop where
  err : ∀ e, x = .error e → y = .error e
  le : ∀ h', x = .ok h' → Le h.mem h'.mem
  val : ∀ h', x = .ok h' → y = .ok h'.read
  refs : ∀ h', x = .ok h' → ∀ P Q, Fresh h.mem h'.mem P Q → StIn P Q h.st → StIn P Q h'.st

theorem Call.error (h : HF K τ F S C Z) (e : GErr) : Call h (.error e) (.error e) :=
  ⟨fun e' h => by rw [Except.error.inj h], fun _ h => (nomatch h), fun _ h => (nomatch h), fun _ h => (nomatch h)⟩

theorem Call.mk' {h h' : HF K τ F S C Z} (le : Le h.mem h'.mem)
    (refs : ∀ P Q, Fresh h.mem h'.mem P Q → StIn P Q h.st → StIn P Q h'.st) : Call h (.ok h') (.ok h'.read) := by
  refine ⟨fun e h => (nomatch h), ?_, ?_, ?_⟩
  all_goals
    intro h'' e
    obtain rfl := Except.ok.inj e
  · exact le
  · rfl
  · exact refs

theorem traverse_pure {α β : Type*} (g : α → β) : ∀ l : List α, traverseE (fun a => (.ok (g a) : Except GErr β)) l = .ok (l.map g)
  | [] => rfl
  | a :: l => by
    unfold traverseE
    dsimp only
    rw [traverse_pure g l]
    rfl

theorem readEntry_birthTab (m : Mem S C Z) (lab : τ) (cntr : ℕ) (bs : List (Birth K F ℕ ℕ)) :
    (birthTab lab cntr bs).map (readEntry m) = birthTab lab cntr (bs.map (readBirth m)) := by
  unfold birthTab
  rw [List.zipIdx_map, List.map_map, List.map_map]
  rfl

theorem birthTab_in {P Q : ℕ → Prop} (lab : τ) (cntr : ℕ) {bs : List (Birth K F ℕ ℕ)} (h : ∀ b ∈ bs, BIn P Q b) :
    ∀ e ∈ birthTab lab cntr bs, EIn P Q e := by
  intro e he
  obtain ⟨⟨b, i⟩, hb, rfl⟩ := List.mem_map.1 he
  have hb' := h b (List.fst_mem_of_mem_zipIdx hb)
  refine ⟨fun l hl => ?_, fun l hl => ?_⟩
  · rw [List.mem_singleton.1 hl]
    exact hb'.s
  · rw [List.mem_singleton.1 hl]
    exact hb'.c

theorem StIn.le {m m' : Mem S C Z} {s : St K τ F ℕ ℕ} (h : StIn (Bnd m).1 (Bnd m).2 s) (hl : Le m m') :
    StIn (Bnd m').1 (Bnd m').2 s :=
  h.mono (fun a h => lt_of_lt_of_le (show a < m.ns from h) hl.ns) fun a h => lt_of_lt_of_le (show a < m.nc from h) hl.nc

theorem readSt_le {m m' : Mem S C Z} {s : St K τ F ℕ ℕ} (h : StIn (Bnd m).1 (Bnd m).2 s) (hl : Le m m') :
    readSt m' s = readSt m s := readSt_congr h (fun a ha => hl.s a ha) fun a ha => hl.c a ha

theorem readTab_le {m m' : Mem S C Z} {s : St K τ F ℕ ℕ} (h : StIn (Bnd m).1 (Bnd m).2 s) (hl : Le m m') :
    s.tab.map (readEntry m') = s.tab.map (readEntry m) :=
  List.map_congr_left fun e he => readEntry_congr (h.tab e he) (fun a ha => hl.s a ha) fun a ha => hl.c a ha

section field
variable [Field K] [LinearOrder K] [FloorRing K]

theorem hPredict_call (env : Env K τ F S C Z) (pr : Params K) (lab : τ) (births : List (Birth K F ℕ ℕ)) (h : HF K τ F S C Z)
    (hst : StIn (Bnd h.mem).1 (Bnd h.mem).2 h.st) (hb : ∀ b ∈ births, BIn (Bnd h.mem).1 (Bnd h.mem).2 b) :
    Call h (hPredict env pr lab births h) (predict env pr lab (births.map (readBirth h.mem)) h.read) := by
  have hB := thread_outcome (o := birthObj) (f := copyBirth) (g := fun b => .ok (readBirth h.mem b))
    (inp := fun _ _ _ => True) (fun _ _ _ _ _ h _ _ => h) births h.mem (fun _ _ => trivial)
    fun m0 b h0 hbm => copyBirth_outcome b h.mem m0 h0 (hb b hbm)
  rw [traverse_pure] at hB
  unfold hPredict predict
  cases hx : thread copyBirth h.mem births with
  | error e => exact (nomatch hB.err e hx)
  | ok mb =>
    obtain ⟨m1, bs⟩ := mb
    have hbs : births.map (readBirth h.mem) = bs.map (readBirth m1) := Except.ok.inj (hB.val _ _ hx)
    have hl1 := hB.le _ _ hx
    dsimp only
    rw [show (births.map (readBirth h.mem)).map (fun b => b.prob) = births.map fun b => b.prob by
      rw [List.map_map]; rfl]
    cases traverseE (logOdds env) (births.map fun b => b.prob) with
    | error e => exact Call.error _ _
    | ok costs =>
      dsimp only
      cases kList env pr costs pr.reqBirths with
      | error e => exact Call.error _ _
      | ok paths =>
        dsimp only
        cases birthHyps env (births.map (readBirth h.mem)) paths with
        | error e => exact Call.error _ _
        | ok bh =>
          dsimp only
          have hE := thread_outcome (o := entryObj) (f := hPredictEntry env)
            (g := fun e => predictEntry env (readEntry h.mem e)) (inp := fun e P Q => EIn P Q e)
            (fun _ _ _ _ _ h hP hQ => EIn.mono h hP hQ) h.st.tab m1 (hst.le hl1).tab
            fun m0 e h0 he => hPredictEntry_outcome env e h.mem m0 (hl1.trans h0) (hst.tab e he)
          rw [← traverseE_same (f' := predictEntry env) (g := readEntry h.mem) h.st.tab fun _ _ => rfl] at hE
          rw [show h.read.tab = h.st.tab.map (readEntry h.mem) from rfl]
          cases hy : thread (hPredictEntry env) m1 h.st.tab with
          | error e =>
            rw [hE.err e hy]
            exact Call.error _ _
          | ok mt =>
            obtain ⟨m2, survTab⟩ := mt
            have hl2 := hE.le _ _ hy
            have hl := hl1.trans hl2
            rw [hE.val _ _ hy]
            dsimp only
            rw [readTab_le hst hl, show h.read.hyps = h.st.hyps from rfl]
            cases survHyps env pr (h.st.tab.map (readEntry h.mem)) h.st.hyps with
            | error e => exact Call.error _ _
            | ok sh =>
              dsimp only
              rw [List.length_map]
              cases setPredHyps births.length bh sh with
              | error e => exact Call.error _ _
              | ok hs =>
                dsimp only
                have hbnd : ∀ b ∈ bs, BIn (Bnd m1).1 (Bnd m1).2 b :=
                  hB.bnd (fun _ _ _ _ _ => trivial) (fun _ _ => trivial) hx
                have hbs2 : bs.map (readBirth m1) = bs.map (readBirth m2) :=
                  (birthObj.list.stable (b := bs) hbnd hl2).symm
                have hval : ({ h.read with
                    tab := birthTab lab h.read.cntr (births.map (readBirth h.mem)) ++ entryObj.list.rd m2 survTab
                    card := calcCard sh
                    hyps := cleanPred hs } : St K τ F S C) = readSt m2 { h.st with
                      tab := birthTab lab h.st.cntr bs ++ survTab, card := calcCard sh, hyps := cleanPred hs } := by
                  have := readSt_le hst hl
                  show _ = ({ readSt m2 h.st with
                    tab := (birthTab lab h.st.cntr bs ++ survTab).map (readEntry m2), card := calcCard sh, hyps := cleanPred hs } :
                      St K τ F S C)
                  rw [this, List.map_append, readEntry_birthTab, hbs, hbs2]
                  rfl
                rw [hval]
                refine Call.mk' (h' := ⟨m2, _, h.meas⟩) hl fun P Q hfr hi => ⟨fun e he => ?_, hi.ext, hi.states, hi.covs⟩
                rcases List.mem_append.1 he with he | he
                · exact birthTab_in lab _ (hB.refs _ _ hx P Q (hfr.left hl2) fun _ _ => trivial) e he
                · exact hE.refs _ _ hy P Q (hfr.right hl1) hi.tab e he

theorem cleanUpd_in {P Q : ℕ → Prop} {tab : List (Option (Entry K τ F ℕ ℕ))} {hs : List (Hyp K)} {tab' : List (Entry K τ F ℕ ℕ)}
    {hs' : List (Hyp K)} (h : cleanUpd tab hs = .ok (tab', hs')) (ht : ∀ e, some e ∈ tab → EIn P Q e) :
    ∀ e ∈ tab', EIn P Q e := by
  unfold cleanUpd at h
  split at h
  · exact (nomatch h)
  · obtain ⟨rfl, -⟩ := Prod.mk.inj (Except.ok.inj h)
    intro e he
    obtain ⟨i, -, hi⟩ := List.mem_filterMap.1 he
    refine ht e ?_
    cases hg : tab[i]? with
    | none =>
      rw [hg] at hi
      exact (nomatch hi)
    | some o =>
      rw [hg] at hi
      rw [show o = some e from hi] at hg
      exact List.mem_of_getElem? hg

theorem readBlock_eq (m : Mem S C Z) : (readBlock m : List (Option (Entry K τ F ℕ ℕ) × K) → _) =
    mapBlock (look m : Coords τ F ℕ ℕ Z τ F S C Z) := by
  funext b
  unfold readBlock mapBlock
  rw [look_entry]

theorem hCorrect_call (env : Env K τ F S C Z) (pr : Params K) (saveMeas : Bool) (zs : List ℕ) (h : HF K τ F S C Z)
    (hst : StIn (Bnd h.mem).1 (Bnd h.mem).2 h.st) :
    Call h (hCorrect env pr saveMeas zs h) (correct env pr (zs.map h.mem.z) h.read) ∧
      ∀ h', hCorrect env pr saveMeas zs h = .ok h' → h'.meas =
        (if saveMeas then h.meas ++ [(newZ h.mem (zs.map h.mem.z)).2] else h.meas) ∧
        (saveMeas = true → Le (newZ h.mem (zs.map h.mem.z)).1 h'.mem) := by
  have hd : Le h.mem (if saveMeas then newZ h.mem (zs.map h.mem.z) else (h.mem, [])).1 := by
    cases saveMeas
    · exact Le.refl _
    · exact (newZ_ok _ h.mem).le
  have hN : saveMeas = true → (if saveMeas then newZ h.mem (zs.map h.mem.z) else (h.mem, [])) =
      newZ h.mem (zs.map h.mem.z) := fun h => if_pos h
  unfold hCorrect correct
  dsimp only
  have hM : (if saveMeas = true then h.meas ++ [(if saveMeas = true then newZ h.mem (zs.map h.mem.z) else (h.mem, [])).2]
      else h.meas) = if saveMeas = true then h.meas ++ [(newZ h.mem (zs.map h.mem.z)).2] else h.meas := by
    cases saveMeas <;> rfl
  rw [hM]
  generalize (if saveMeas then newZ h.mem (zs.map h.mem.z) else (h.mem, [])) = d at hd hN
  have hB := thread_outcome (o := corObj.list) (f := hCorBlock env pr h.st.tab)
    (g := corBlock env pr (h.st.tab.map (readEntry h.mem))) (inp := fun _ P Q => ∀ e ∈ h.st.tab, EIn P Q e)
    (fun _ _ _ _ _ h hP hQ e he => (h e he).mono hP hQ) (zs.map h.mem.z).zipIdx d.1 (fun _ _ => (hst.le hd).tab)
    fun m0 ze h0 _ => hCorBlock_outcome env pr h.st.tab ze h.mem m0 (hd.trans h0) hst.tab
  unfold corBlocks
  rw [show h.read.tab = h.st.tab.map (readEntry h.mem) from rfl]
  cases hx : thread (hCorBlock env pr h.st.tab) d.1 (zs.map h.mem.z).zipIdx with
  | error e =>
    rw [hB.err e hx]
    exact ⟨Call.error _ _, fun _ h => (nomatch h)⟩
  | ok mb =>
    obtain ⟨m1, blocks⟩ := mb
    have hl1 := hB.le _ _ hx
    have hl := hd.trans hl1
    rw [hB.val _ _ hx]
    dsimp only
    rw [readTab_le hst hl, show h.read.hyps = h.st.hyps from rfl,
      show blocks.map (readBlock m1) = corObj.list.list.rd m1 blocks from rfl]
    cases corHyps env pr (h.st.tab.map (readEntry h.mem)) (corObj.list.list.rd m1 blocks) h.st.hyps with
    | error e => exact ⟨Call.error _ _, fun _ h => (nomatch h)⟩
    | ok hs =>
      dsimp only
      have hup : upTab (h.st.tab.map (readEntry h.mem)) (corObj.list.list.rd m1 blocks) =
          (upTab h.st.tab blocks).map (Option.map (readEntry m1)) := by
        rw [← readTab_le hst hl, show corObj.list.list.rd m1 blocks = blocks.map (readBlock m1) from rfl, readBlock_eq,
          look_entry]
        exact upTab_nat _ _
      rw [hup, look_entry (Z := Z), cleanUpd_nat]
      cases hc : cleanUpd (upTab h.st.tab blocks) hs with
      | error e => exact ⟨Call.error _ _, fun _ h => (nomatch h)⟩
      | ok th =>
        obtain ⟨tab', hs'⟩ := th
        constructor
        · have hval : ({ h.read with tab := tab'.map (look m1 : Coords τ F ℕ ℕ Z τ F S C Z).entry, hyps := hs', card := calcCard hs } :
              St K τ F S C) = readSt m1 { h.st with tab := tab', hyps := hs', card := calcCard hs } := by
            show _ = ({ readSt m1 h.st with tab := tab'.map (readEntry m1), hyps := hs', card := calcCard hs } : St K τ F S C)
            rw [readSt_le hst hl, look_entry]
            rfl
          dsimp only [Except.map]
          rw [hval]
          refine Call.mk' (h' := ⟨m1, _, _⟩) hl fun P Q hfr hi => ⟨?_, hi.ext, hi.states, hi.covs⟩
          refine cleanUpd_in hc fun e he => ?_
          rcases List.mem_append.1 he with he | he
          · obtain ⟨e0, he0, h1⟩ := List.mem_map.1 he
            obtain rfl := Option.some.inj h1
            have := hi.tab e0 he0
            exact ⟨this.s, this.c⟩
          · obtain ⟨b, hb, he⟩ := List.mem_flatMap.1 he
            obtain ⟨x, hx', h1⟩ := List.mem_map.1 he
            exact hB.refs _ _ hx P Q (hfr.right hd) (fun _ _ => hi.tab) b hb x hx' e h1
        · intro h' e
          obtain rfl := Except.ok.inj e
          exact ⟨rfl, fun hs => hN hs ▸ hl1⟩

variable [DecidableEq τ]

theorem extract_in {P Q : ℕ → Prop} {s s' : St K τ F ℕ ℕ} {u c : Bool} {i : Option ℕ} (h : Glmb.extract u c s = .ok (s', i))
    (hs : StIn P Q s) : StIn P Q s' := by
  obtain ⟨s0, rfl⟩ := (st_lift (Z := Unit)).1 hs
  rw [extract_nat (m := (forget P Q : Coords τ F _ _ Unit τ F _ _ Unit)) (fun _ _ h => h)] at h
  cases hx : Glmb.extract u c s0 with
  | error e =>
    rw [hx] at h
    exact (nomatch h)
  | ok x =>
    rw [hx] at h
    obtain ⟨rfl, -⟩ := Prod.mk.inj (Except.ok.inj h)
    exact (st_lift (Z := Unit)).2 ⟨_, rfl⟩

theorem hExtract_call (u c : Bool) (h : HF K τ F S C Z) :
    Call h (match Glmb.extract u c h.st with
      | .error e => .error e
      | .ok (st, _) => .ok { h with st := st })
      (match Glmb.extract u c h.read with
      | .error e => .error e
      | .ok (st, _) => .ok st) := by
  rw [show h.read = (look h.mem : Coords τ F ℕ ℕ Z τ F S C Z).st h.st from congrFun (look_st h.mem) h.st,
    extract_nat (m := (look h.mem : Coords τ F ℕ ℕ Z τ F S C Z)) (fun _ _ h => h)]
  cases hx : Glmb.extract u c h.st with
  | error e => exact Call.error _ _
  | ok x =>
    obtain ⟨st, i⟩ := x
    show Call h (.ok { h with st := st }) (.ok ((look h.mem : Coords τ F ℕ ℕ Z τ F S C Z).st st))
    rw [← look_st]
    exact Call.mk' (h' := { h with st := st }) (Le.refl _) fun P Q _ hi => extract_in hx hi

/-- An inner filter for values that agrees with `refEnv`. -/
def valEnv (env : Env K τ F S C Z) (c0 : C) : Env K τ F S C Z :=
  { env with predF := fun f x => (f, x, c0), corF := fun _ _ _ _ => none, psurv := fun _ => 0, pdet := fun _ => 0 }

theorem cap_env {e e' : Env K τ F S C Z} (h : e.argsort = e'.argsort) (pr : Params K) (s : St K τ F S C) :
    Glmb.cap e pr s = Glmb.cap e' pr s := by
  unfold Glmb.cap
  rw [h]

theorem cleanup_env {e e' : Env K τ F S C Z} (h : e.argsort = e'.argsort) (pr : Params K) (bp bc be u c : Bool)
    (s : St K τ F S C) : Glmb.cleanup e pr bp bc be u c s = Glmb.cleanup e' pr bp bc be u c s := by
  unfold Glmb.cleanup
  simp only [cap_env h]

theorem refEnv_same (env : Env K τ F S C Z) (m : Mem S C Z) :
    (look m : Coords τ F ℕ ℕ Z τ F S C Z).SameFilter (refEnv env) (valEnv env (m.c 0)) :=
  ⟨rfl, rfl, rfl, fun _ _ => rfl, fun _ _ _ _ => rfl, fun _ => rfl, fun _ => rfl⟩

theorem prune_in {P Q : ℕ → Prop} {pr : Params K} {s s' : St K τ F ℕ ℕ} (h : Glmb.prune pr s = .ok s') (hs : StIn P Q s) :
    StIn P Q s' := by
  unfold Glmb.prune at h
  split at h
  · exact (nomatch h)
  · obtain rfl := Except.ok.inj h
    exact ⟨hs.tab, hs.ext, hs.states, hs.covs⟩

theorem cap_in {P Q : ℕ → Prop} {env : Env K τ F ℕ ℕ Z} {pr : Params K} {s s' : St K τ F ℕ ℕ} (h : Glmb.cap env pr s = .ok s')
    (hs : StIn P Q s) : StIn P Q s' := by
  unfold Glmb.cap at h
  split at h
  · split at h
    · exact (nomatch h)
    · split at h
      · exact (nomatch h)
      · obtain rfl := Except.ok.inj h
        exact ⟨hs.tab, hs.ext, hs.states, hs.covs⟩
  · obtain rfl := Except.ok.inj h
    exact hs

theorem cleanup_in {P Q : ℕ → Prop} {env : Env K τ F ℕ ℕ Z} {pr : Params K} {bp bc be u c : Bool} {s s' : St K τ F ℕ ℕ}
    (h : Glmb.cleanup env pr bp bc be u c s = .ok s') (hs : StIn P Q s) : StIn P Q s' := by
  have h0 : StIn P Q { s with cntr := s.cntr + 1 } := ⟨hs.tab, hs.ext, hs.states, hs.covs⟩
  unfold Glmb.cleanup at h
  split at h
  · exact (nomatch h)
  · rename_i s1 h1
    have g1 : StIn P Q s1 := by
      split at h1
      · exact prune_in h1 h0
      · obtain rfl := Except.ok.inj h1
        exact h0
    split at h
    · exact (nomatch h)
    · rename_i s2 h2
      have g2 : StIn P Q s2 := by
        split at h2
        · exact cap_in h2 g1
        · obtain rfl := Except.ok.inj h2
          exact g1
      split at h
      · split at h
        · exact (nomatch h)
        · rename_i s3 i h3
          obtain rfl := Except.ok.inj h
          exact extract_in h3 g2
      · obtain rfl := Except.ok.inj h
        exact g2

theorem hCleanup_call (env : Env K τ F S C Z) (pr : Params K) (bp bc be u c : Bool) (h : HF K τ F S C Z) :
    Call h (match Glmb.cleanup (refEnv env) pr bp bc be u c h.st with
      | .error e => .error e
      | .ok st => .ok { h with st := st }) (Glmb.cleanup env pr bp bc be u c h.read) := by
  rw [show h.read = (look h.mem : Coords τ F ℕ ℕ Z τ F S C Z).st h.st from congrFun (look_st h.mem) h.st,
    cleanup_env (show env.argsort = (valEnv env (h.mem.c 0)).argsort from rfl),
    cleanup_nat (m := (look h.mem : Coords τ F ℕ ℕ Z τ F S C Z)) (fun _ _ h => h) (refEnv_same env h.mem)]
  cases hx : Glmb.cleanup (refEnv env) pr bp bc be u c h.st with
  | error e => exact Call.error _ _
  | ok st =>
    show Call h (.ok { h with st := st }) (.ok ((look h.mem : Coords τ F ℕ ℕ Z τ F S C Z).st st))
    rw [← look_st]
    exact Call.mk' (h' := { h with st := st }) (Le.refl _) fun P Q _ hi => cleanup_in hx hi


theorem hStep_call (pr : Params K) (saveMeas : Bool) (o : HOp K τ F S C Z) (h : HF K τ F S C Z)
    (hst : StIn (Bnd h.mem).1 (Bnd h.mem).2 h.st) (ho : ArgsExist h.mem o) :
    Call h (hStep pr saveMeas h o) (Glmb.step pr h.read (o.read h.mem)) := by
  cases o with
  | predict env lab births => exact hPredict_call env pr lab births h hst fun b hb => ⟨(ho b hb).1, (ho b hb).2⟩
  | correct env zs => exact (hCorrect_call env pr saveMeas zs h hst).1
  | cleanup env bp bc be u c => exact hCleanup_call env pr bp bc be u c h
  | extract u c => exact hExtract_call u c h

end field

end Gasur.Props.GlmbHeap
