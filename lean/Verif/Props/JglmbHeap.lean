import Verif.Props.GlmbHeapRun
import Verif.Spec.JglmbHeap

/-!
# Property C157: the joint GLMB filter and the arrays of the caller (calls)
-/

namespace Gasur.Props.JglmbHeap

open Gasur.Glmb Gasur.Jglmb Gasur.Spec Gasur.GlmbHeap Gasur.JglmbHeap Gasur.Props.GlmbHeap

variable {K τ F S C Z : Type*}

/-! ### Copying tracks -/

theorem threadP_eq {α β : Type*} (f : Mem S C Z → α → Mem S C Z × β) : ∀ (l : List α) (m : Mem S C Z),
    thread (fun m a => .ok (f m a)) m l = .ok (threadP f m l)
  | [], _ => rfl
  | a :: l, m => by
    unfold thread threadP
    dsimp only
    rw [threadP_eq f l]

/-- Lists of state arrays. -/
def sObj : Obj S C Z (List ℕ) (List S) where
  rd m l := l.map m.s
  inn P _ l := ∀ a ∈ l, P a
  congr h hs _ := List.map_congr_left fun a ha => hs a (h a ha)
  mono h hP _ := fun a ha => hP a (h a ha)

/-- Lists of covariance arrays. -/
def cObj : Obj S C Z (List ℕ) (List C) where
  rd m l := l.map m.c
  inn _ Q l := ∀ a ∈ l, Q a
  congr h _ hc := List.map_congr_left fun a ha => hc a (h a ha)
  mono h _ hQ := fun a ha => hQ a (h a ha)

theorem copyS_outcome (l : List ℕ) (m0 m : Mem S C Z) (hl : Le m0 m) (hb : ∀ a ∈ l, a < m0.ns) :
    Outcome sObj m (fun _ _ => True) (.ok (newS m (l.map m.s))) (.ok (l.map m0.s)) := by
  have hS := newS_ok (l.map m.s) m
  refine ⟨fun e h => (nomatch h), ?_, ?_, ?_⟩
  all_goals
    intro m' b' h
    have h := Except.ok.inj h
    rw [h] at hS
  · exact hS.le
  · show Except.ok _ = Except.ok (b'.map m'.s)
    rw [hS.val, List.map_congr_left fun a ha => (hl.s a (hb a ha)).symm]
  · intro P Q hf _ a ha
    exact hf.s a (hS.rng a ha).1 (hS.rng a ha).2

theorem copyC_outcome (l : List ℕ) (m0 m : Mem S C Z) (hl : Le m0 m) (hb : ∀ a ∈ l, a < m0.nc) :
    Outcome cObj m (fun _ _ => True) (.ok (newC m (l.map m.c))) (.ok (l.map m0.c)) := by
  have hS := newC_ok (l.map m.c) m
  refine ⟨fun e h => (nomatch h), ?_, ?_, ?_⟩
  all_goals
    intro m' b' h
    have h := Except.ok.inj h
    rw [h] at hS
  · exact hS.le
  · show Except.ok _ = Except.ok (b'.map m'.c)
    rw [hS.val, List.map_congr_left fun a ha => (hl.c a (hb a ha)).symm]
  · intro P Q hf _ a ha
    exact hf.c a (hS.rng a ha).1 (hS.rng a ha).2

theorem copyEntry_outcome (e : Entry K τ F ℕ ℕ) (m0 m : Mem S C Z) (hl : Le m0 m) (he : EIn (Bnd m0).1 (Bnd m0).2 e) :
    Outcome entryObj m (fun _ _ => True) (.ok (copyEntry m e)) (.ok (readEntry m0 e)) := by
  have hA := thread_outcome (o := sObj) (f := fun m' l => .ok (newS m' (l.map m'.s))) (g := fun l => .ok (l.map m0.s))
    (inp := fun _ _ _ => True) (fun _ _ _ _ _ h _ _ => h) e.sHist m (fun _ _ => trivial)
    fun m1 l h1 hle => copyS_outcome l m0 m1 (hl.trans h1) (he.s l hle)
  rw [traverse_pure, threadP_eq] at hA
  set a := threadP (fun m' l => newS m' (l.map m'.s)) m e.sHist with ha
  have hlA : Le m a.1 := hA.le a.1 a.2 rfl
  have hB := thread_outcome (o := cObj) (f := fun m' l => .ok (newC m' (l.map m'.c))) (g := fun l => .ok (l.map m0.c))
    (inp := fun _ _ _ => True) (fun _ _ _ _ _ h _ _ => h) e.cHist a.1 (fun _ _ => trivial)
    fun m1 l h1 hle => copyC_outcome l m0 m1 (hl.trans (hlA.trans h1)) (he.c l hle)
  rw [traverse_pure, threadP_eq] at hB
  set b := threadP (fun m' l => newC m' (l.map m'.c)) a.1 e.cHist with hb
  have hlB : Le a.1 b.1 := hB.le b.1 b.2 rfl
  have hAin : sObj.list.inn (Bnd a.1).1 (Bnd a.1).2 a.2 := hA.bnd (fun _ _ _ _ _ => trivial) (fun _ _ => trivial) rfl
  refine ⟨fun e h => (nomatch h), ?_, ?_, ?_⟩
  all_goals
    intro m' e' h
    obtain ⟨rfl, rfl⟩ := Prod.mk.inj (Except.ok.inj h)
  · exact hlA.trans hlB
  · have h1 : e.sHist.map (fun l => l.map m0.s) = a.2.map fun l => l.map b.1.s := by
      rw [Except.ok.inj (hA.val a.1 a.2 rfl)]
      exact (sObj.list.stable (b := a.2) hAin hlB).symm
    have h2 : e.cHist.map (fun l => l.map m0.c) = b.2.map fun l => l.map b.1.c := Except.ok.inj (hB.val b.1 b.2 rfl)
    show Except.ok (readEntry m0 e) = Except.ok (readEntry b.1 { e with sHist := a.2, cHist := b.2 })
    unfold readEntry
    dsimp only
    rw [show e.sHist.map (List.map m0.s) = a.2.map (List.map b.1.s) from h1,
      show e.cHist.map (List.map m0.c) = b.2.map (List.map b.1.c) from h2]
  · intro P Q hf _
    exact ⟨hA.refs a.1 a.2 rfl P Q (hf.left hlB) fun _ _ => trivial, hB.refs b.1 b.2 rfl P Q (hf.right hlA) fun _ _ => trivial⟩

/-- Copying the track table. -/
theorem copyTab_ok (tab : List (Entry K τ F ℕ ℕ)) (m0 m : Mem S C Z) (hl : Le m0 m)
    (ht : ∀ e ∈ tab, EIn (Bnd m0).1 (Bnd m0).2 e) :
    Le m (threadP copyEntry m tab).1 ∧
      (threadP copyEntry m tab).2.map (readEntry (threadP copyEntry m tab).1) = tab.map (readEntry m0) ∧
      ∀ P Q, Fresh m (threadP copyEntry m tab).1 P Q → ∀ e ∈ (threadP copyEntry m tab).2, EIn P Q e := by
  have hA := thread_outcome (o := entryObj) (f := fun m' e => .ok (copyEntry m' e)) (g := fun e => .ok (readEntry m0 e))
    (inp := fun _ _ _ => True) (fun _ _ _ _ _ h _ _ => h) tab m (fun _ _ => trivial)
    fun m1 e h1 he => copyEntry_outcome e m0 m1 (hl.trans h1) (ht e he)
  rw [traverse_pure, threadP_eq] at hA
  exact ⟨hA.le _ _ rfl, (Except.ok.inj (hA.val _ _ rfl)).symm, fun P Q hf => hA.refs _ _ rfl P Q hf fun _ _ => trivial⟩

/-! ### Calls -/

/-- `x` does with references what `y` does with values. -/
structure JCall (h : JHF K τ F S C Z) (x : Except JErr (JHF K τ F S C Z)) (y : Except JErr (JSt K τ F S C)) : Prop where
  err : ∀ e, x = .error e → y = .error e
  le : ∀ h', x = .ok h' → Le h.mem h'.mem
  val : ∀ h', x = .ok h' → y = .ok h'.read
  refs : ∀ h', x = .ok h' → ∀ P Q, Fresh h.mem h'.mem P Q → StIn P Q h.st.g → StIn P Q h'.st.g

theorem JCall.error (h : JHF K τ F S C Z) (e : JErr) : JCall h (.error e) (.error e) :=
  ⟨fun e' h => by rw [Except.error.inj h], fun _ h => (nomatch h), fun _ h => (nomatch h), fun _ h => (nomatch h)⟩

theorem JCall.mk' {h h' : JHF K τ F S C Z} (le : Le h.mem h'.mem)
    (refs : ∀ P Q, Fresh h.mem h'.mem P Q → StIn P Q h.st.g → StIn P Q h'.st.g) : JCall h (.ok h') (.ok h'.read) := by
  refine ⟨fun e h => (nomatch h), ?_, ?_, ?_⟩
  all_goals
    intro h'' e
    obtain rfl := Except.ok.inj e
  · exact le
  · rfl
  · exact refs

section field
variable [Field K] [LinearOrder K]

theorem jhPredict_call (env : Env K τ F S C Z) (lab : τ) (births : List (Birth K F ℕ ℕ)) (h : JHF K τ F S C Z)
    (hst : StIn (Bnd h.mem).1 (Bnd h.mem).2 h.st.g) (hb : ∀ b ∈ births, BIn (Bnd h.mem).1 (Bnd h.mem).2 b) :
    JCall h (jhPredict env lab births h) (Jglmb.predict env lab (births.map (readBirth h.mem)) h.read) := by
  have hB := thread_outcome (o := birthObj) (f := copyBirth) (g := fun b => .ok (readBirth h.mem b))
    (inp := fun _ _ _ => True) (fun _ _ _ _ _ h _ _ => h) births h.mem (fun _ _ => trivial)
    fun m0 b h0 hbm => copyBirth_outcome b h.mem m0 h0 (hb b hbm)
  rw [traverse_pure] at hB
  unfold jhPredict Jglmb.predict
  rw [show (births.map (readBirth h.mem)).any (fun b => decide (b.prob = 1)) = births.any fun b => decide (b.prob = 1) by
    rw [List.any_map]; rfl]
  by_cases hp : births.any (fun b => decide (b.prob = 1)) = true
  · rw [if_pos hp, if_pos hp]
    exact JCall.error _ _
  rw [if_neg hp, if_neg hp]
  cases hx : thread copyBirth h.mem births with
  | error e => exact (nomatch hB.err e hx)
  | ok mb =>
    obtain ⟨m1, bs⟩ := mb
    have hbs : births.map (readBirth h.mem) = bs.map (readBirth m1) := Except.ok.inj (hB.val _ _ hx)
    have hl1 := hB.le _ _ hx
    dsimp only
    have hE := thread_outcome (o := entryObj) (f := hPredictEntry env)
      (g := fun e => predictEntry env (readEntry h.mem e)) (inp := fun e P Q => EIn P Q e)
      (fun _ _ _ _ _ h hP hQ => EIn.mono h hP hQ) h.st.g.tab m1 (hst.le hl1).tab
      fun m0 e h0 he => hPredictEntry_outcome env e h.mem m0 (hl1.trans h0) (hst.tab e he)
    rw [← traverseE_same (f' := predictEntry env) (g := readEntry h.mem) h.st.g.tab fun _ _ => rfl] at hE
    rw [show h.read.g.tab = h.st.g.tab.map (readEntry h.mem) from rfl]
    cases hy : thread (hPredictEntry env) m1 h.st.g.tab with
    | error e =>
      rw [hE.err e hy]
      exact JCall.error _ _
    | ok mt =>
      obtain ⟨m2, survTab⟩ := mt
      have hl2 := hE.le _ _ hy
      have hl := hl1.trans hl2
      rw [hE.val _ _ hy]
      dsimp only
      have hbnd : ∀ b ∈ bs, BIn (Bnd m1).1 (Bnd m1).2 b := hB.bnd (fun _ _ _ _ _ => trivial) (fun _ _ => trivial) hx
      have hbs2 : bs.map (readBirth m1) = bs.map (readBirth m2) := (birthObj.list.stable (b := bs) hbnd hl2).symm
      have hval : ({ h.read with g := { h.read.g with
            tab := birthTab lab h.read.g.cntr (births.map (readBirth h.mem)) ++ entryObj.list.rd m2 survTab } } : JSt K τ F S C) =
          ⟨readSt m2 { h.st.g with tab := birthTab lab h.st.g.cntr bs ++ survTab }, h.st.oldLen⟩ := by
        have := readSt_le hst hl
        show _ = (⟨{ readSt m2 h.st.g with tab := (birthTab lab h.st.g.cntr bs ++ survTab).map (readEntry m2) }, h.st.oldLen⟩ :
          JSt K τ F S C)
        rw [this, List.map_append, readEntry_birthTab, hbs, hbs2]
        rfl
      rw [hval]
      refine JCall.mk' (h' := ⟨m2, ⟨_, _⟩, h.meas⟩) hl fun P Q hfr hi => ⟨fun e he => ?_, hi.ext, hi.states, hi.covs⟩
      rcases List.mem_append.1 he with he | he
      · exact birthTab_in lab _ (hB.refs _ _ hx P Q (hfr.left hl2) fun _ _ => trivial) e he
      · exact hE.refs _ _ hy P Q (hfr.right hl1) hi.tab e he

variable [FloorRing K]

theorem jhCorrect_call (env : Env K τ F S C Z) (jp : JParams K) (births : List (Birth K F ℕ ℕ)) (draws : ℕ → ℕ → ℕ → K)
    (zs : List ℕ) (h : JHF K τ F S C Z) (hst : StIn (Bnd h.mem).1 (Bnd h.mem).2 h.st.g)
    (hb : ∀ b ∈ births, BIn (Bnd h.mem).1 (Bnd h.mem).2 b) :
    JCall h (jhCorrect env jp births draws zs h)
        (Jglmb.correct env jp (births.map (readBirth h.mem)) draws (zs.map h.mem.z) h.read) ∧
      ∀ h', jhCorrect env jp births draws zs h = .ok h' → h'.meas = h.meas ++ [(newZ h.mem (zs.map h.mem.z)).2] ∧
        Le (newZ h.mem (zs.map h.mem.z)).1 h'.mem := by
  have hd : Le h.mem (newZ h.mem (zs.map h.mem.z)).1 := (newZ_ok _ h.mem).le
  unfold jhCorrect Jglmb.correct
  dsimp only
  generalize newZ h.mem (zs.map h.mem.z) = d at hd ⊢
  obtain ⟨hlc, hcv, hcr⟩ := copyTab_ok h.st.g.tab h.mem d.1 hd hst.tab
  generalize threadP copyEntry d.1 h.st.g.tab = c at hlc hcv hcr ⊢
  have hB := thread_outcome (o := corObj.list) (f := hCorBlock env jp.base h.st.g.tab)
    (g := corBlock env jp.base (h.st.g.tab.map (readEntry h.mem))) (inp := fun _ P Q => ∀ e ∈ h.st.g.tab, EIn P Q e)
    (fun _ _ _ _ _ h hP hQ e he => (h e he).mono hP hQ) (zs.map h.mem.z).zipIdx c.1 (fun _ _ => (hst.le (hd.trans hlc)).tab)
    fun m0 ze h0 _ => hCorBlock_outcome env jp.base h.st.g.tab ze h.mem m0 ((hd.trans hlc).trans h0) hst.tab
  unfold corBlocks
  rw [show h.read.g.tab = h.st.g.tab.map (readEntry h.mem) from rfl]
  cases hx : thread (hCorBlock env jp.base h.st.g.tab) c.1 (zs.map h.mem.z).zipIdx with
  | error e =>
    rw [hB.err e hx]
    exact ⟨JCall.error _ _, fun _ h => (nomatch h)⟩
  | ok mb =>
    obtain ⟨m1, blocks⟩ := mb
    have hl1 := hB.le _ _ hx
    have hlc1 : Le d.1 m1 := hlc.trans hl1
    have hl := hd.trans hlc1
    rw [hB.val _ _ hx]
    dsimp only
    rw [List.length_map, List.length_map, show h.read.oldLen = h.st.oldLen from rfl]
    by_cases hs : births.length + h.st.oldLen ≠ h.st.g.tab.length
    · rw [if_pos hs, if_pos hs]
      exact ⟨JCall.error _ _, fun _ h => (nomatch h)⟩
    rw [if_neg hs, if_neg hs, show h.read.g.hyps = h.st.g.hyps from rfl,
      show blocks.map (readBlock m1) = corObj.list.list.rd m1 blocks from rfl,
      show births.map (readBirth m1) = births.map (readBirth h.mem) from birthObj.list.stable (b := births) hb hl]
    cases traverseE (fun (hn : Hyp K × ℕ) => corOne env jp (births.map (readBirth h.mem)) h.st.oldLen h.st.g.tab.length
          (corObj.list.list.rd m1 blocks) (sumSqrt env h.st.g.hyps) (draws hn.2) hn.1) h.st.g.hyps.zipIdx with
    | error e => exact ⟨JCall.error _ _, fun _ h => (nomatch h)⟩
    | ok ls =>
      dsimp only
      cases normHyps ls.flatten with
      | error e => exact ⟨JCall.error _ _, fun _ h => (nomatch h)⟩
      | ok hs =>
        dsimp only
        have hcin : ∀ e ∈ c.2, EIn (Bnd c.1).1 (Bnd c.1).2 e := hcr _ _ (fresh_bnd d.1 c.1)
        have hcv1 : c.2.map (readEntry m1) = h.st.g.tab.map (readEntry h.mem) := by
          rw [← hcv]
          exact entryObj.list.stable (b := c.2) hcin hl1
        have hup : upTab (h.st.g.tab.map (readEntry h.mem)) (corObj.list.list.rd m1 blocks) =
            (upTab c.2 blocks).map (Option.map (readEntry m1)) := by
          rw [← hcv1, show corObj.list.list.rd m1 blocks = blocks.map (readBlock m1) from rfl, readBlock_eq,
            look_entry]
          exact upTab_nat _ _
        rw [hup, look_entry (Z := Z), cleanUpd_nat]
        cases hc : cleanUpd (upTab c.2 blocks) (cleanPred hs) with
        | error e => exact ⟨JCall.error _ _, fun _ h => (nomatch h)⟩
        | ok th =>
          obtain ⟨tab', hs'⟩ := th
          constructor
          · dsimp only [Except.map]
            have hval : (⟨{ h.read.g with tab := tab'.map (look m1 : Coords τ F ℕ ℕ Z τ F S C Z).entry, hyps := hs',
                                          card := calcCard hs }, (tab'.map (look m1 : Coords τ F ℕ ℕ Z τ F S C Z).entry).length⟩ :
                JSt K τ F S C) = ⟨readSt m1 { h.st.g with tab := tab', hyps := hs', card := calcCard hs }, tab'.length⟩ := by
              show _ = (⟨{ readSt m1 h.st.g with tab := tab'.map (readEntry m1), hyps := hs', card := calcCard hs }, tab'.length⟩ :
                JSt K τ F S C)
              rw [readSt_le hst hl, look_entry, List.length_map]
              rfl
            rw [hval]
            refine JCall.mk' (h' := ⟨m1, ⟨_, _⟩, _⟩) hl fun P Q hfr hi => ⟨?_, hi.ext, hi.states, hi.covs⟩
            refine cleanUpd_in hc fun e he => ?_
            rcases List.mem_append.1 he with he | he
            · obtain ⟨e0, he0, h1⟩ := List.mem_map.1 he
              obtain rfl := Option.some.inj h1
              have := hcr P Q ((hfr.right hd).left hl1) e0 he0
              exact ⟨this.s, this.c⟩
            · obtain ⟨b, hb, he⟩ := List.mem_flatMap.1 he
              obtain ⟨x, hx', h1⟩ := List.mem_map.1 he
              exact hB.refs _ _ hx P Q (hfr.right (hd.trans hlc)) (fun _ _ => hi.tab) b hb x hx' e h1
          · intro h' e
            obtain rfl := Except.ok.inj e
            exact ⟨rfl, hlc1⟩

variable [DecidableEq τ]

/-- An inherited call. -/
def liftX (h : JHF K τ F S C Z) : Except GErr (HF K τ F S C Z) → Except JErr (JHF K τ F S C Z)
  | .error e => .error (.glmb e)
  | .ok h' => .ok { h with st := { h.st with g := h'.st } }

/-- An inherited call, with values. -/
def liftY (s : JSt K τ F S C) : Except GErr (St K τ F S C) → Except JErr (JSt K τ F S C)
  | .error e => .error (.glmb e)
  | .ok g => .ok { s with g := g }

omit [Field K] [LinearOrder K] [FloorRing K] [DecidableEq τ] in
theorem JCall.lift {h : JHF K τ F S C Z} {x : Except GErr (HF K τ F S C Z)} {y : Except GErr (St K τ F S C)}
    (hc : Call ⟨h.mem, h.st.g, h.meas⟩ x y) (hmem : ∀ h', x = .ok h' → h'.mem = h.mem) :
    JCall h (liftX h x) (liftY h.read y) := by
  cases x with
  | error e =>
    rw [hc.err e rfl]
    exact JCall.error _ _
  | ok h' =>
    rw [hc.val h' rfl]
    have hm := hmem h' rfl
    have e1 : h'.read = readSt h.mem h'.st := by
      unfold HF.read
      rw [hm]
    rw [e1]
    refine JCall.mk' (h' := { h with st := { h.st with g := h'.st } }) (Le.refl _) fun P Q hf hi => ?_
    refine hc.refs h' rfl P Q ?_ hi
    rw [hm]
    exact hf

theorem jhStep_call (jp : JParams K) (o : JHOp K τ F S C Z) (h : JHF K τ F S C Z)
    (hst : StIn (Bnd h.mem).1 (Bnd h.mem).2 h.st.g) (ho : JArgsExist h.mem o) :
    JCall h (jhStep jp h o) (Jglmb.step jp h.read (o.read h.mem)) := by
  cases o with
  | predict env lab births => exact jhPredict_call env lab births h hst fun b hb => ⟨(ho b hb).1, (ho b hb).2⟩
  | correct env births draws zs =>
    exact (jhCorrect_call env jp births draws zs h hst fun b hb => ⟨(ho.1 b hb).1, (ho.1 b hb).2⟩).1
  | cleanup env bp bc be u c =>
    have hc := hCleanup_call env jp.base bp bc be u c ⟨h.mem, h.st.g, h.meas⟩
    have := JCall.lift hc (by
      intro h' e
      split at e
      · exact (nomatch e)
      · obtain rfl := Except.ok.inj e
        rfl)
    convert this using 1
    · unfold jhStep
      dsimp only
      cases Glmb.cleanup (refEnv env) jp.base bp bc be u c h.st.g <;> rfl
    · unfold JHOp.read Jglmb.step
      dsimp only
      rw [show h.read.g = (HF.read ⟨h.mem, h.st.g, h.meas⟩ : St K τ F S C) from rfl]
      cases Glmb.cleanup env jp.base bp bc be u c (HF.read ⟨h.mem, h.st.g, h.meas⟩ : St K τ F S C) <;> rfl
  | extract u c =>
    have hc := hExtract_call u c ⟨h.mem, h.st.g, h.meas⟩
    have := JCall.lift hc (by
      intro h' e
      split at e
      · exact (nomatch e)
      · obtain rfl := Except.ok.inj e
        rfl)
    convert this using 1
    · unfold jhStep
      dsimp only
      cases Glmb.extract u c h.st.g <;> rfl
    · unfold JHOp.read Jglmb.step
      dsimp only
      rw [show h.read.g = (HF.read ⟨h.mem, h.st.g, h.meas⟩ : St K τ F S C) from rfl]
      cases Glmb.extract u c (HF.read ⟨h.mem, h.st.g, h.meas⟩ : St K τ F S C) <;> rfl

end field

end Gasur.Props.JglmbHeap
