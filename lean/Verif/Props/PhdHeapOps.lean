import Verif.Props.PhdHeap

/-!
# C155: every method of the PHD filter with references does what the method with values does
-/

namespace Gasur.Props.PhdHeap

open Gasur.Phd Gasur.Crash Gasur.PhdHeap

variable {K V P Z : Type*} [Field K] [LinearOrder K]
variable {c : Ctx} {bs : List (Mix K V P)} {s : HS K V P Z} {o : Obj K V P Z}

/-! ### predict -/

omit [Field K] [LinearOrder K] in
theorem zip_rel {h : List (Cell K V P Z)} : ∀ {rm rp : List ℕ} {ms : List V} {ps : List P},
    List.Forall₂ (fun r x => h[r]? = some (Cell.vec x)) rm ms → List.Forall₂ (fun r x => h[r]? = some (Cell.mat x)) rp ps →
    List.Forall₂ (fun r x => h[r.1]? = some (Cell.vec x.1) ∧ h[r.2]? = some (Cell.mat x.2)) (rm.zip rp) (ms.zip ps)
  | [], _, _, _, .nil, _ => by simp
  | _ :: _, [], _ :: _, _, .cons _ _, .nil => by simp
  | _ :: _, _ :: _, _ :: _, _ :: _, .cons h1 h2, .cons h3 h4 => by
    simp only [List.zip_cons_cons]
    exact .cons ⟨h1, h3⟩ (zip_rel h2 h4)

theorem sim_predAll (f : PFilt K V P Z) : ∀ {rs : List (ℕ × ℕ)} {xs : List (V × P)} {s : HS K V P Z}, Rep c bs s o →
    List.Forall₂ (fun r x => s.heap[r.1]? = some (Cell.vec x.1) ∧ s.heap[r.2]? = some (Cell.mat x.2)) rs xs →
    Sim c bs s o (hPredAll f rs) (eval (predAll f xs)) fun s' l r =>
      Rd s'.heap c.A Cell.vec (l.map Prod.fst) (r.map Prod.fst) ∧ Rd s'.heap c.A Cell.mat (l.map Prod.snd) (r.map Prod.snd)
  | _, _, s, hr, .nil => sim_done hr ⟨Rd.nil, Rd.nil⟩
  | r :: rs, x :: xs, s, hr, .cons h1 h2 => by
    unfold hPredAll
    refine sim_get h1.1 rfl (sim_get h1.2 rfl ?_)
    cases hf : f.fpred x.1 x.2 with
    | none =>
      have : predAll f (x :: xs) = .raised := by unfold predAll; rw [hf]
      rw [this]
      exact sim_fail hr
    | some q =>
      have : (eval (predAll f (x :: xs)) : M (Obj K V P Z) _) = andThen (eval (predAll f xs)) fun l => done (q :: l) := by
        funext o
        unfold andThen eval
        rw [predAll, hf]
        cases predAll f xs <;> rfl
      rw [this]
      refine sim_new hr fun s1 rp hr1 hF1 hc1 hA1 => ?_
      refine sim_new hr1 fun s2 rv hr2 hF2 hc2 hA2 => ?_
      have h2' := h2.imp fun r x (hx : _ ∧ _) =>
        And.intro ((hF1.trans hF2).arr r.1 (Cell.vec x.1) trivial hx.1) ((hF1.trans hF2).arr r.2 (Cell.mat x.2) trivial hx.2)
      refine sim_bind (sim_predAll f hr2 h2') fun s3 o3 a b hr3 hF3 hab => ?_
      exact sim_done hr3 ⟨hab.1.cons (hF3.arr _ (Cell.vec q.1) trivial hc2) hA2,
        hab.2.cons (hF3.arr _ (Cell.mat q.2) trivial (hF2.arr _ (Cell.mat q.2) trivial hc1)) hA1⟩

omit [Field K] [LinearOrder K] in
theorem head_birth (hr : Rep c bs s o) {n : ℕ} {b : HMix} {bl : List HMix} {v : Mix K V P} {vl : List (Mix K V P)}
    (h1 : s.births.drop n = b :: bl) (h2 : bs.drop n = v :: vl) : BirthOk s.heap c.A s.mix b v := by
  have := List.forall₂_drop n hr.births
  rw [h1, h2] at this
  cases this
  assumption

theorem sim_addBirths : ∀ (bl : List HMix) (vl : List (Mix K V P)) (n : ℕ) {s : HS K V P Z} {o : Obj K V P Z}, Rep c bs s o →
    s.births.drop n = bl → bs.drop n = vl →
    Sim c bs s o (hAddBirths bl) (addBirths vl) fun _ _ _ => True
  | [], [], _, s, o, hr, _, _ => sim_done hr trivial
  | [], v :: vl, n, s, o, hr, h1, h2 => by
    have := (List.forall₂_drop n hr.births).length_eq
    rw [h1, h2] at this
    simp at this
  | b :: bl, [], n, s, o, hr, h1, h2 => by
    have := (List.forall₂_drop n hr.births).length_eq
    rw [h1, h2] at this
    simp at this
  | b :: bl, v :: vl, n, s, o, hr, h1, h2 => by
    unfold hAddBirths addBirths
    refine sim_get (head_birth hr h1 h2).2.1 rfl (sim_look (sim_get hr.ws rfl ?_))
    refine sim_bind (R := fun _ _ _ => True) (y := setMix fun m => { m with ws := m.ws ++ v.ws }) (sim_putW hr (o.mix.ws ++ v.ws))
      fun s1 o1 _ _ hr1 hF1 _ => ?_
    have h11 : s1.births.drop n = b :: bl := by rw [hF1.births]; exact h1
    obtain ⟨⟨_, rb, hb, hb'⟩, _⟩ := (head_birth hr1 h11 h2).2.2.2.1
    obtain ⟨_, rm, hrm, hrm'⟩ := id hr1.ms
    refine sim_get hb rfl (sim_look (sim_get hrm rfl ?_))
    have hRd := Rd.append (mk := Cell.vec) hrm' hb'
    refine sim_bind (R := fun _ _ _ => True) (y := setMix fun m => { m with ms := m.ms ++ v.ms }) (sim_putM hr1 hRd.1 hRd.2)
      fun s2 o2 _ _ hr2 hF2 _ => ?_
    have h12 : s2.births.drop n = b :: bl := by rw [hF2.births]; exact h11
    obtain ⟨⟨_, rb, hb, hb'⟩, _⟩ := (head_birth hr2 h12 h2).2.2.2.2
    obtain ⟨_, rm, hrm, hrm'⟩ := id hr2.ps
    refine sim_get hb rfl (sim_look (sim_get hrm rfl ?_))
    have hRd := Rd.append (mk := Cell.mat) hrm' hb'
    refine sim_bind (R := fun _ _ _ => True) (y := setMix fun m => { m with ps := m.ps ++ v.ps }) (sim_putP hr2 hRd.1 hRd.2)
      fun s3 o3 _ _ hr3 hF3 _ => ?_
    refine sim_addBirths bl vl (n + 1) hr3 ?_ ?_
    · rw [hF3.births, ← List.drop_drop, h12]; rfl
    · rw [← List.drop_drop, h2]; rfl

omit [Field K] [LinearOrder K] in
theorem sim_newMix (hr : Rep c bs s o) (ws : List K) {rm rp : List ℕ} {ms : List V} {ps : List P}
    (hm : Rd s.heap c.A Cell.vec rm ms) (hp : Rd s.heap c.A Cell.mat rp ps) :
    Sim c bs s o (newMix ws rm rp) (setMix fun _ => ⟨ws, ms, ps⟩) fun _ _ _ => True := by
  have hr3 := rep_new (rep_new (rep_new hr (.nums ws)) (.refs rm)) (.refs rp)
  have hk : Kept s { s with
      heap := s.heap ++ [.nums ws] ++ [.refs rm] ++ [.refs rp],
      mix := ⟨s.heap.length, (s.heap ++ [Cell.nums (V := V) (P := P) (Z := Z) ws]).length,
        (s.heap ++ [Cell.nums (V := V) (P := P) (Z := Z) ws] ++ [Cell.refs rm]).length⟩ } := by
    refine ⟨by simp, fun i x hx h => ?_, fun i h _ _ _ => ?_, .inr le_rfl, .inr (by simp), .inr (by simp), rfl⟩
    · have := lt_of_get h
      simp only [List.append_assoc]
      rw [get_append_left this]
      exact h
    · simp only [List.append_assoc]
      exact get_append_left h
  refine ⟨hr.step hk ⟨ws, ms, ps⟩ ?_ ?_ ?_ ?_ rfl rfl, hk.toF hr (List.prefix_refl _) (List.prefix_refl _), trivial⟩
  · simp
  · refine ⟨c.hA _ (hr.len.trans (by simp)), rm, ?_, hm.1.imp fun r x hx => hk.arr r (Cell.vec x) trivial hx, hm.2⟩
    simp
  · refine ⟨c.hA _ (hr.len.trans (by simp)), rp, ?_, hp.1.imp fun r x hx => hk.arr r (Cell.mat x) trivial hx, hp.2⟩
    simp
  · simp

theorem sim_predict (pr : Params K) (f : PFilt K V P Z) (hr : Rep c bs s o) :
    Sim c bs s o (hPredict pr f) (cPredict pr f bs) fun _ _ _ => True := by
  unfold hPredict cPredict
  refine sim_mix hr fun rm rp hm hp => sim_lookR ?_
  refine sim_bind (sim_predAll f hr (zip_rel hm.1 hp.1)) fun s1 o1 l r hr1 hF1 hl => ?_
  refine sim_bind (sim_newMix hr1 _ hl.1 hl.2) fun s2 o2 _ _ hr2 hF2 _ => ?_
  exact sim_look (sim_addBirths s2.births bs 0 hr2 rfl rfl)

/-! ### correct -/

theorem sim_corJ (f : PFilt K V P Z) {rm rp : List ℕ} (m : Mix K V P) (detW : List K) (z : Z) : ∀ (js : List ℕ)
    {s : HS K V P Z}, Rep c bs s o → Rd s.heap c.A Cell.vec rm m.ms → Rd s.heap c.A Cell.mat rp m.ps →
    Sim c bs s o (hCorJ f rm rp detW z js) (eval (corJ f m detW z js)) fun s' y v =>
      Rd s'.heap c.A Cell.vec y.1 v.1 ∧ Rd s'.heap c.A Cell.mat y.2.1 v.2.1 ∧ y.2.2 = v.2.2
  | [], s, hr, _, _ => sim_done hr ⟨Rd.nil, Rd.nil, rfl⟩
  | j :: js, s, hr, hm, hp => by
    unfold hCorJ
    have hbad : ∀ {x : M (HS K V P Z) (List ℕ × List ℕ × List K)}, x = fail → corJ f m detW z (j :: js) = .raised →
        Sim c bs s o x (eval (corJ f m detW z (j :: js))) fun s' y v =>
        Rd s'.heap c.A Cell.vec y.1 v.1 ∧ Rd s'.heap c.A Cell.mat y.2.1 v.2.1 ∧ y.2.2 = v.2.2 := by
      intro x hx hy
      rw [hx, hy]
      exact sim_fail hr
    rcases hp.get j with ⟨h1, h2⟩ | ⟨r1, p, h1, h2, h3, _⟩
    · exact hbad (by rw [h1]) (by rw [corJ, h2])
    rcases hm.get j with ⟨h4, h5⟩ | ⟨r2, v, h4, h5, h6, _⟩
    · exact hbad (by rw [h1, h4]) (by rw [corJ, h2, h5])
    cases h7 : detW[j]? with
    | none => exact hbad (by rw [h1, h4]) (by rw [corJ, h2, h5, h7])
    | some dw =>
      rw [h1, h4]
      dsimp only
      refine sim_get h3 rfl (sim_get h6 rfl ?_)
      cases hf : f.fcor z v p with
      | none => exact hbad rfl (by rw [corJ, h2, h5, h7]; dsimp only; rw [hf])
      | some x =>
        have : (eval (corJ f m detW z (j :: js)) : M (Obj K V P Z) _) =
            andThen (eval (corJ f m detW z js)) fun y => done (x.1 :: y.1, x.2.2 :: y.2.1, (x.2.1 * dw) :: y.2.2) := by
          funext o
          unfold andThen eval
          rw [corJ, h2, h5, h7]
          dsimp only
          rw [hf]
          dsimp only
          cases corJ f m detW z js <;> rfl
        rw [this]
        refine sim_new hr fun s1 rv hr1 hF1 hc1 hA1 => ?_
        refine sim_new hr1 fun s2 rc hr2 hF2 hc2 hA2 => ?_
        refine sim_bind (sim_corJ f m detW z js hr2 (hm.mono (by intro _; trivial) (hF1.trans hF2))
          (hp.mono (by intro _; trivial) (hF1.trans hF2))) fun s3 o3 a b hr3 hF3 hab => ?_
        exact sim_done hr3 ⟨hab.1.cons (hF3.arr _ (Cell.vec x.1) trivial (hF2.arr _ (Cell.vec x.1) trivial hc1)) hA1,
          hab.2.1.cons (hF3.arr _ (Cell.mat x.2.2) trivial hc2) hA2, by rw [hab.2.2]⟩

theorem sim_corAll (pr : Params K) (f : PFilt K V P Z) {rm rp : List ℕ} (m : Mix K V P) : ∀ {rz : List ℕ} {zs : List Z}
    {s : HS K V P Z} {o : Obj K V P Z}, Rep c bs s o → Rd s.heap c.A Cell.vec rm m.ms → Rd s.heap c.A Cell.mat rp m.ps →
    List.Forall₂ (fun r x => s.heap[r]? = some (Cell.obs x)) rz zs →
    Sim c bs s o (hCorAll pr f m.ws rm rp rz) (eval (corAll pr f m zs)) fun s' y v =>
      y.1 = v.ws ∧ Rd s'.heap c.A Cell.vec y.2.1 v.ms ∧ Rd s'.heap c.A Cell.mat y.2.2 v.ps
  | _, _, s, o, hr, _, _, .nil => sim_done hr ⟨rfl, Rd.nil, Rd.nil⟩
  | r :: rz, z :: zs, s, o, hr, hm, hp, .cons h1 h2 => by
    unfold hCorAll
    refine sim_get h1 rfl ?_
    have : (eval (corAll pr f m (z :: zs)) : M (Obj K V P Z) _) =
        andThen (eval (corJ f m (m.ws.map fun x => pr.probDetection * x) z (List.range m.ms.length))) fun y =>
          match normalise pr y.2.2 with
          | .error _ => eval .nan
          | .ok ws' => andThen (eval (corAll pr f m zs)) fun g => done ⟨ws' ++ g.ws, y.1 ++ g.ms, y.2.1 ++ g.ps⟩ := by
      funext o
      unfold andThen eval
      rw [corAll]
      cases corJ f m (m.ws.map fun x => pr.probDetection * x) z (List.range m.ms.length) with
      | raised => rfl
      | nan => rfl
      | ok y =>
        obtain ⟨vs, cs, ws⟩ := y
        dsimp only
        cases normalise pr ws with
        | error e => rfl
        | ok ws' =>
          dsimp only
          cases corAll pr f m zs <;> rfl
    rw [this, hm.length]
    refine sim_bind (sim_corJ f m _ z _ hr hm hp) fun s1 o1 y v hr1 hF1 hyv => ?_
    rw [hyv.2.2]
    cases hn : normalise pr v.2.2 with
    | error e => exact sim_nan hr1
    | ok ws' =>
      dsimp only
      refine sim_bind (sim_corAll pr f m hr1 (hm.mono (by intro _; trivial) hF1) (hp.mono (by intro _; trivial) hF1)
        (h2.imp fun r x hx => hF1.arr r (Cell.obs x) trivial hx)) fun s2 o2 g w hr2 hF2 hg => ?_
      exact sim_done hr2 ⟨by rw [hg.1], (hyv.1.mono (by intro _; trivial) hF2).append hg.2.1,
        (hyv.2.1.mono (by intro _; trivial) hF2).append hg.2.2⟩

omit [Field K] [LinearOrder K] in
theorem rep_meas (hr : Rep c bs s o) {rs : List ℕ} {zs : List Z} (h : Rd s.heap c.A Cell.obs rs zs) :
    Rep c bs { s with heap := s.heap ++ [.refs rs], meas := s.meas ++ [s.heap.length] } { o with meas := o.meas ++ [zs] } ∧
    F c s { s with heap := s.heap ++ [.refs rs], meas := s.meas ++ [s.heap.length] } := by
  have h1 := rep_new hr (.refs rs)
  have hF : F c s { s with heap := s.heap ++ [.refs rs] } := (kept_new _).toF hr (List.prefix_refl _) (List.prefix_refl _)
  obtain ⟨_, rm, hrm, _⟩ := id hr.ms
  obtain ⟨_, rp, hrp, _⟩ := id hr.ps
  have := lt_of_get hrm
  have := lt_of_get hrp
  refine ⟨⟨h1.len, h1.Aw, h1.Ww, h1.Wm, h1.Wp, h1.ws, h1.ms, h1.ps, h1.ne, h1.births, h1.states, ?_⟩,
    ⟨hF.frame, hF.arr, rfl, List.prefix_refl _, List.prefix_append _ _⟩⟩
  refine List.rel_append h1.meas (.cons ⟨⟨c.hA _ hr.len, rs, new_self _ _, ?_, h.2⟩, ?_, ?_⟩ .nil)
  · exact h.1.imp fun r x hx => hF.arr r (Cell.obs x) trivial hx
  · dsimp only; omega
  · dsimp only; omega

theorem sim_correct (pr : Params K) (f : PFilt K V P Z) (hr : Rep c bs s o) {z : ℕ} {zr : List ℕ} {zs : List Z}
    (hz : s.heap[z]? = some (.refs zr)) (hzs : List.Forall₂ (fun r x => s.heap[r]? = some (Cell.obs x)) zr zs) :
    Sim c bs s o (hCorrect pr f z) (cCorrect pr f zs) fun _ _ _ => True := by
  unfold hCorrect
  refine sim_get hz rfl ?_
  obtain ⟨s1, l, e1, hr1, hF1, hl⟩ := copyAll_ok (sel := Cell.obs?) (fun _ => rfl) (by intro _; trivial) hr hzs
  refine sim_left e1 hF1 ?_
  obtain ⟨hr2, hF2⟩ := rep_meas hr1 hl
  generalize hs2 : ({ s1 with heap := s1.heap ++ [.refs l], meas := s1.meas ++ [s1.heap.length] } : HS K V P Z) = s2 at hr2 hF2
  have key : Sim c bs s2 { o with meas := o.meas ++ [zs] }
      (andThen lookMix fun x =>
        andThen (copyAll Cell.vec? Cell.vec x.2.1) fun cm =>
        andThen (copyAll Cell.mat? Cell.mat x.2.2) fun cp =>
        andThen (hCorAll pr f x.1 x.2.1 x.2.2 l) fun g =>
        andThen (newW (g.1 ++ x.1.map fun x => pr.probMiss * x)) fun _ =>
        andThen (newM (g.2.1 ++ cm)) fun _ =>
        newP (g.2.2 ++ cp))
      (andThen (look fun s => s.mix) fun m =>
        andThen (eval (corAll pr f m zs)) fun g =>
        andThen (setMix fun x => { x with ws := g.ws ++ m.ws.map fun x => pr.probMiss * x }) fun _ =>
        andThen (setMix fun x => { x with ms := g.ms ++ m.ms }) fun _ =>
        setMix fun x => { x with ps := g.ps ++ m.ps }) fun _ _ _ => True := by
    refine sim_mix hr2 fun rm rp hm hp => sim_lookR ?_
    obtain ⟨s3, cm, e3, hr3, hF3, hcm⟩ := copyAll_ok (sel := Cell.vec?) (fun _ => rfl) (by intro _; trivial) hr2 hm.1
    refine sim_left e3 hF3 ?_
    have hp3 := hp.mono (by intro _; trivial) hF3
    obtain ⟨s4, cp, e4, hr4, hF4, hcp⟩ := copyAll_ok (sel := Cell.mat?) (fun _ => rfl) (by intro _; trivial) hr3 hp3.1
    refine sim_left e4 hF4 ?_
    have hm4 := hm.mono (by intro _; trivial) (hF3.trans hF4)
    have hl4 := hl.mono (by intro _; trivial) (hF2.trans (hF3.trans hF4))
    refine sim_bind (sim_corAll pr f _ hr4 hm4 (hp3.mono (by intro _; trivial) hF4) hl4.1) fun s5 o5 g v hr5 hF5 hg => ?_
    dsimp only
    rw [hg.1]
    refine sim_bind (sim_newW hr5 _) fun s6 o6 _ _ hr6 hF6 _ => ?_
    have h6 := (hg.2.1.mono (by intro _; trivial) hF6).append (hcm.mono (by intro _; trivial) (hF4.trans (hF5.trans hF6)))
    refine sim_bind (sim_newM hr6 h6.1 h6.2) fun s7 o7 _ _ hr7 hF7 _ => ?_
    have h7 := (hg.2.2.mono (by intro _; trivial) (hF6.trans hF7)).append
      (hcp.mono (by intro _; trivial) (hF5.trans (hF6.trans hF7)))
    exact sim_newP hr7 h7.1 h7.2
  obtain ⟨k1, k2, k3⟩ := key
  subst hs2
  exact ⟨k1, hF2.trans k2, k3⟩

/-! ### Deleting components -/

omit [Field K] [LinearOrder K] in
theorem sim_del : ∀ (is : List ℕ) {s : HS K V P Z} {o : Obj K V P Z}, Rep c bs s o →
    Sim c bs s o (hDel is) (cDel is) fun _ _ _ => True
  | [], s, o, hr => sim_done hr trivial
  | i :: is, s, o, hr => by
    unfold hDel cDel
    obtain ⟨_, rm, hrm, hm⟩ := id hr.ms
    have hm : Rd s.heap c.A Cell.vec rm o.mix.ms := hm
    refine sim_look (sim_get hrm rfl ?_)
    refine sim_bind (R := fun _ _ _ => True) ?_ fun s1 o1 _ _ hr1 hF1 _ => ?_
    · unfold delOne
      refine sim_lookR ?_
      rw [hm.length]
      split
      · exact sim_putM hr (hm.eraseIdx i).1 (hm.eraseIdx i).2
      · exact sim_fail hr
    refine sim_look (sim_get hr1.ws rfl ?_)
    refine sim_bind (R := fun _ _ _ => True) ?_ fun s2 o2 _ _ hr2 hF2 _ => ?_
    · unfold delOne
      refine sim_lookR ?_
      split
      · exact sim_putW hr1 _
      · exact sim_fail hr1
    obtain ⟨_, rp, hrp, hp⟩ := id hr2.ps
    have hp : Rd s2.heap c.A Cell.mat rp o2.mix.ps := hp
    refine sim_look (sim_get hrp rfl ?_)
    refine sim_bind (R := fun _ _ _ => True) ?_ fun s3 o3 _ _ hr3 hF3 _ => sim_del is hr3
    unfold delOne
    refine sim_lookR ?_
    rw [hp.length]
    split
    · exact sim_putP hr2 (hp.eraseIdx i).1 (hp.eraseIdx i).2
    · exact sim_fail hr2

theorem sim_prune (pr : Params K) (hr : Rep c bs s o) : Sim c bs s o (hPrune pr) (cPrune pr) fun _ _ _ => True :=
  sim_look (sim_get hr.ws rfl (sim_lookR (sim_del _ hr)))

theorem sim_cap (argsort : List K → List ℕ) (pr : Params K) (hr : Rep c bs s o) :
    Sim c bs s o (hCap argsort pr) (cCap argsort pr) fun _ _ _ => True := by
  unfold hCap cCap
  refine sim_look (sim_get hr.ws rfl (sim_lookR ?_))
  split
  · refine sim_bind (sim_del _ hr) fun s1 o1 _ _ hr1 hF1 _ => ?_
    refine sim_look (sim_get hr1.ws rfl (sim_lookR ?_))
    split
    · exact sim_nan hr1
    · exact sim_newW hr1 _
  · exact sim_done hr trivial

/-! ### extract_states -/

theorem extractLoop_rel [FloorRing K] {h : List (Cell K V P Z)} {A : ℕ → Prop} {rm rp : List ℕ} {m : Mix K V P}
    (hm : Rd h A Cell.vec rm m.ms) (hp : Rd h A Cell.mat rp m.ps) : ∀ js : List ℕ,
    (∃ e e', extractLoop (⟨m.ws, rm, rp⟩ : Mix K ℕ ℕ) js = .error e ∧ extractLoop m js = .error e') ∨
    ∃ y v, extractLoop (⟨m.ws, rm, rp⟩ : Mix K ℕ ℕ) js = .ok y ∧ extractLoop m js = .ok v ∧
      Rd h A Cell.vec y.1 v.1 ∧ Rd h A Cell.mat y.2 v.2
  | [] => .inr ⟨_, _, rfl, rfl, Rd.nil, Rd.nil⟩
  | j :: js => by
    unfold extractLoop
    dsimp only
    cases h1 : m.ws[j]? with
    | none => exact .inl ⟨_, _, rfl, rfl⟩
    | some w =>
      rcases hm.get j with ⟨h4, h5⟩ | ⟨r1, v, h4, h5, h6, hA⟩
      · rw [h4, h5]; exact .inl ⟨_, _, rfl, rfl⟩
      rcases hp.get j with ⟨h7, h8⟩ | ⟨r2, p, h7, h8, h9, hA2⟩
      · rw [h4, h5, h7, h8]; exact .inl ⟨_, _, rfl, rfl⟩
      rw [h4, h5, h7, h8]
      rcases extractLoop_rel hm hp js with ⟨e, e', i1, i2⟩ | ⟨y, x, i1, i2, i3, i4⟩
      · rw [i1, i2]; exact .inl ⟨_, _, rfl, rfl⟩
      · rw [i1, i2]
        exact .inr ⟨_, _, rfl, rfl, (Rd.replicate h6 hA _).append i3, (Rd.replicate h9 hA2 _).append i4⟩

omit [Field K] [LinearOrder K] in
theorem rep_states (hr : Rep c bs s o) {ra rb : List ℕ} {vs : List V} {ps : List P} (h1 : Rd s.heap c.A Cell.vec ra vs)
    (h2 : Rd s.heap c.A Cell.mat rb ps) (s' : HS K V P Z)
    (hs' : s' = { s with heap := s.heap ++ [.refs ra] ++ [.refs rb], states := s.states ++ [(s.heap.length,
      (s.heap ++ [Cell.refs (K := K) (V := V) (P := P) (Z := Z) ra]).length)] }) :
    Rep c bs s' { o with states := o.states ++ [(vs, ps)] } ∧ F c s s' := by
  have r1 := rep_new hr (.refs ra)
  have hF1 : F c s { s with heap := s.heap ++ [.refs ra] } := (kept_new _).toF hr (List.prefix_refl _) (List.prefix_refl _)
  have r2 := rep_new r1 (.refs rb)
  have hF2 : F c { s with heap := s.heap ++ [.refs ra] } { s with heap := s.heap ++ [.refs ra] ++ [.refs rb] } :=
    (kept_new _).toF r1 (List.prefix_refl _) (List.prefix_refl _)
  have hF := hF1.trans hF2
  obtain ⟨_, rm, hrm, _⟩ := id hr.ms
  obtain ⟨_, rp, hrp, _⟩ := id hr.ps
  have := lt_of_get hrm
  have := lt_of_get hrp
  subst hs'
  refine ⟨⟨r2.len, r2.Aw, r2.Ww, r2.Wm, r2.Wp, r2.ws, r2.ms, r2.ps, r2.ne, r2.births, ?_, r2.meas⟩,
    ⟨hF.frame, hF.arr, rfl, List.prefix_append _ _, List.prefix_refl _⟩⟩
  refine List.rel_append r2.states (.cons ⟨⟨⟨c.hA _ hr.len, ra, ?_, ?_, h1.2⟩, ?_, ?_⟩, ⟨⟨c.hA _ r1.len, rb, ?_, ?_, h2.2⟩, ?_, ?_⟩⟩ .nil)
  · simp
  · exact h1.1.imp fun r x hx => hF.arr r (Cell.vec x) trivial hx
  · dsimp only; omega
  · dsimp only; omega
  · simp
  · exact h2.1.imp fun r x hx => hF.arr r (Cell.mat x) trivial hx
  · simp; omega
  · simp; omega

theorem sim_extract [FloorRing K] (pr : Params K) (hr : Rep c bs s o) :
    Sim c bs s o (hExtract pr) (cExtract pr) fun _ _ _ => True := by
  unfold hExtract cExtract
  refine sim_mix hr fun rm rp hm hp => sim_lookR ?_
  unfold extract
  dsimp only
  rcases extractLoop_rel hm hp (whereIdx (fun w => decide (pr.extractThreshold ≤ w)) o.mix.ws) with
    ⟨e, e', i1, i2⟩ | ⟨y, x, i1, i2, i3, i4⟩
  · rw [i1, i2]; exact sim_fail hr
  · rw [i1, i2]
    obtain ⟨k1, k2⟩ := rep_states hr i3 i4 _ rfl
    exact ⟨k1, k2, trivial⟩

/-! ### _merge -/

section module
variable [AddCommGroup V] [Module K V] [AddCommGroup P] [Module K P]

theorem sim_mergeLoop (inv : P → Option (V → K)) (thr : K) : ∀ (fuel : ℕ) (is : List ℕ) {acc : List K × List ℕ × List ℕ}
    {accv : Mix K V P} {s : HS K V P Z} {o : Obj K V P Z}, Rep c bs s o →
    (acc.1 = accv.ws ∧ Rd s.heap c.A Cell.vec acc.2.1 accv.ms ∧ Rd s.heap c.A Cell.mat acc.2.2 accv.ps) →
    Sim c bs s o (hMergeLoop inv thr fuel is acc) (cMergeLoop inv thr fuel is accv) fun s' y v =>
      y.1 = v.ws ∧ Rd s'.heap c.A Cell.vec y.2.1 v.ms ∧ Rd s'.heap c.A Cell.mat y.2.2 v.ps
  | 0, [], _, _, s, o, hr, h => sim_done hr h
  | _ + 1, [], _, _, s, o, hr, h => sim_done hr h
  | 0, _ :: _, _, _, s, o, hr, h => sim_nan hr
  | fuel + 1, i :: is, acc, accv, s, o, hr, h => by
    unfold hMergeLoop cMergeLoop
    refine sim_mix hr fun rm rp hm hp => sim_lookR ?_
    refine sim_left (getAll_ok (sel := Cell.vec?) (fun _ => rfl) hm.1) (F.refl _ _) ?_
    refine sim_left (getAll_ok (sel := Cell.mat?) (fun _ => rfl) hp.1) (F.refl _ _) ?_
    dsimp only
    cases argmax o.mix.ws with
    | none => exact sim_fail hr
    | some jj =>
      dsimp only
      cases o.mix.ps[jj]? with
      | none => exact sim_fail hr
      | some p =>
        cases o.mix.ms[jj]? with
        | none => exact sim_fail hr
        | some mj =>
          dsimp only
          cases inv p with
          | none => exact sim_fail hr
          | some q =>
            dsimp only
            cases compInds (fun _ d => q d) thr o.mix.ms p mj (i :: is) with
            | none => exact sim_fail hr
            | some comp =>
              dsimp only
              cases wtot o.mix.ws comp with
              | none => exact sim_fail hr
              | some w =>
                cases wsum o.mix.ws o.mix.ms comp with
                | none => exact sim_fail hr
                | some sm =>
                  cases wsum o.mix.ws o.mix.ps comp with
                  | none => exact sim_fail hr
                  | some sp =>
                    dsimp only
                    split
                    · exact sim_nan hr
                    refine sim_new hr fun s1 rv hr1 hF1 hc1 hA1 => ?_
                    refine sim_new hr1 fun s2 rc hr2 hF2 hc2 hA2 => ?_
                    refine sim_look ?_
                    refine sim_bind (R := fun _ _ _ => True) (y := setMix fun x => { x with ws := mark x.ws comp }) (sim_putW hr2 (mark o.mix.ws comp))
                      fun s3 o3 _ _ hr3 hF3 _ => ?_
                    have hF := hF1.trans (hF2.trans hF3)
                    refine sim_mergeLoop inv thr fuel _ hr3 ⟨by rw [h.1], ?_, ?_⟩
                    · exact (h.2.1.mono (by intro _; trivial) hF).append (Rd.nil.cons
                        ((hF2.trans hF3).arr _ (Cell.vec (w⁻¹ • sm)) trivial hc1) hA1)
                    · exact (h.2.2.mono (by intro _; trivial) hF).append (Rd.nil.cons
                        (hF3.arr _ (Cell.mat (w⁻¹ • sp)) trivial hc2) hA2)

theorem sim_merge (inv : P → Option (V → K)) (pr : Params K) (hr : Rep c bs s o) :
    Sim c bs s o (hMerge inv pr) (cMerge inv pr) fun _ _ _ => True := by
  unfold hMerge cMerge
  refine sim_mix hr fun rm rp hm hp => sim_lookR ?_
  dsimp only
  rw [hm.length]
  refine sim_bind (sim_mergeLoop inv pr.mergeThreshold _ _ hr ⟨rfl, Rd.nil, Rd.nil⟩) fun s1 o1 g v hr1 hF1 hg => ?_
  rw [hg.1]
  have key : Sim c bs s1 o1 (andThen (newW v.ws) fun _ => andThen (newM g.2.1) fun _ => newP g.2.2)
      (andThen (setMix fun m => { m with ws := v.ws }) fun _ => andThen (setMix fun m => { m with ms := v.ms }) fun _ =>
        setMix fun m => { m with ps := v.ps }) fun _ _ _ => True := by
    refine sim_bind (sim_newW hr1 _) fun s2 o2 _ _ hr2 hF2 _ => ?_
    have h2 := hg.2.1.mono (by intro _; trivial) hF2
    refine sim_bind (sim_newM hr2 h2.1 h2.2) fun s3 o3 _ _ hr3 hF3 _ => ?_
    have h3 := hg.2.2.mono (by intro _; trivial) (hF2.trans hF3)
    exact sim_newP hr3 h3.1 h3.2
  exact key

theorem sim_when {b : Bool} {x : M (HS K V P Z) Unit} {y : M (Obj K V P Z) Unit} (hr : Rep c bs s o)
    (h : Sim c bs s o x y fun _ _ _ => True) : Sim c bs s o (when b x) (when b y) fun _ _ _ => True := by
  cases b
  · exact sim_done hr trivial
  · exact h

theorem sim_cleanup [FloorRing K] (inv : P → Option (V → K)) (argsort : List K → List ℕ) (pr : Params K) (bp bm bc be : Bool)
    (hr : Rep c bs s o) : Sim c bs s o (hCleanup inv argsort pr bp bm bc be) (cCleanup inv argsort pr bp bm bc be)
      fun _ _ _ => True := by
  unfold hCleanup cCleanup
  refine sim_bind (sim_when hr (sim_prune pr hr)) fun s1 o1 _ _ hr1 _ _ => ?_
  refine sim_bind (sim_when hr1 (sim_merge inv pr hr1)) fun s2 o2 _ _ hr2 _ _ => ?_
  refine sim_bind (sim_when hr2 (sim_cap argsort pr hr2)) fun s3 o3 _ _ hr3 _ _ => ?_
  exact sim_when hr3 (sim_extract pr hr3)

end module

end Gasur.Props.PhdHeap
