import Verif.Proofs.Elqr

/-!
# Lemmas about the rounds of the extended LQR guidance
-/

namespace Gasur.Elqr

open Matrix Gasur.Guidance Gasur.Spec

/-- What a round does not change in a plan. -/
structure Frame {n : ℕ} (g g' : Plan n) : Prop where
  means : g'.means.length = g.means.length
  ctrlInputs : g'.ctrlInputs = g.ctrlInputs
  ctrlInput : (g'.ctrlInput.map fun t => (t.cols, t.rows.length)) = g.ctrlInput.map fun t => (t.cols, t.rows.length)
  feedforward : g'.feedforward.length = g.feedforward.length
  feedback : g'.feedback.length = g.feedback.length
  ctcMat : g'.ctcMat.length = g.ctcMat.length
  ctcVec : g'.ctcVec.length = g.ctcVec.length
  ctgMat : g'.ctgMat.length = g.ctgMat.length
  ctgVec : g'.ctgVec.length = g.ctgVec.length
  cov : g'.cov = g.cov
  weight : g'.weight = g.weight
  dyn : g'.dyn = g.dyn
  invDyn : g'.invDyn = g.invDyn
  nom : g'.nom = g.nom

theorem Frame.refl {n : ℕ} (g : Plan n) : Frame g g := ⟨rfl, rfl, rfl, rfl, rfl, rfl, rfl, rfl, rfl, rfl, rfl, rfl, rfl, rfl⟩

theorem Frame.trans {n : ℕ} {a b c : Plan n} (h : Frame a b) (k : Frame b c) : Frame a c :=
  ⟨k.means.trans h.means, k.ctrlInputs.trans h.ctrlInputs, k.ctrlInput.trans h.ctrlInput, k.feedforward.trans h.feedforward,
   k.feedback.trans h.feedback, k.ctcMat.trans h.ctcMat, k.ctcVec.trans h.ctcVec, k.ctgMat.trans h.ctgMat,
   k.ctgVec.trans h.ctgVec, k.cov.trans h.cov, k.weight.trans h.weight, k.dyn.trans h.dyn, k.invDyn.trans h.invDyn,
   k.nom.trans h.nom⟩

theorem tabE_ok {n : ℕ} {g : Plan n} {t : Tab} : tabE g = .ok t ↔ g.ctrlInput = some t := by
  unfold tabE
  cases g.ctrlInput with
  | none => simp
  | some b => simp

theorem ctrlStep_ok {n : ℕ} {kk src : ℕ} {g g' : Plan n} (h : ctrlStep kk src g = .ok g') :
    ∃ (t : Tab) (u : List ℝ), g.ctrlInput = some t ∧ g' = { g with ctrlInput := some ⟨t.cols, t.rows.set kk u⟩ } := by
  unfold ctrlStep at h
  obtain ⟨fb, _, h⟩ := bind_ok.1 h
  obtain ⟨x, _, h⟩ := bind_ok.1 h
  obtain ⟨ff, _, h⟩ := bind_ok.1 h
  obtain ⟨t, ht, h⟩ := bind_ok.1 h
  obtain ⟨u, _, h⟩ := bind_ok.1 h
  obtain ⟨_, _, h⟩ := bind_ok.1 h
  exact ⟨t, u, tabE_ok.1 ht, (Except.ok.inj h).symm⟩

theorem ctrlStep_frame {n : ℕ} {kk src : ℕ} {g g' : Plan n} (h : ctrlStep kk src g = .ok g') : Frame g g' := by
  obtain ⟨t, u, h1, rfl⟩ := ctrlStep_ok h
  refine ⟨rfl, rfl, ?_, rfl, rfl, rfl, rfl, rfl, rfl, rfl, rfl, rfl, rfl, rfl⟩
  rw [h1]; simp

theorem fwdOne_ok {n : ℕ} {ext : Ext n} {kk : ℕ} {all xs : List (Vec n)} {ii : ℕ} {g g' : Plan n}
    (h : fwdOne ext kk all xs ii g = .ok g') : ∃ (i : PassIn n) (o : PassOut n), passIn kk kk all xs ii g = .ok i ∧
      ext.fwd i = .ok o ∧ g' = { g with
        feedback := g.feedback.set kk o.feedback, feedforward := g.feedforward.set kk o.feedforward,
        ctcMat := g.ctcMat.set (kk + 1) o.mat, ctcVec := g.ctcVec.set (kk + 1) o.vec, means := g.means.set (kk + 1) o.xHat } := by
  unfold fwdOne at h
  obtain ⟨i, h1, h⟩ := bind_ok.1 h
  obtain ⟨o, h2, h⟩ := bind_ok.1 h
  obtain ⟨_, _, h⟩ := bind_ok.1 h
  obtain ⟨_, _, h⟩ := bind_ok.1 h
  obtain ⟨_, _, h⟩ := bind_ok.1 h
  exact ⟨i, o, h1, h2, (Except.ok.inj h).symm⟩

theorem bwdOne_ok {n : ℕ} {ext : Ext n} {kk : ℕ} {all xs : List (Vec n)} {ii : ℕ} {g g' : Plan n}
    (h : bwdOne ext kk all xs ii g = .ok g') : ∃ (i : PassIn n) (o : PassOut n), passIn kk (kk + 1) all xs ii g = .ok i ∧
      ext.bwd i = .ok o ∧ kk < g.means.length ∧ g' = { g with
        feedback := g.feedback.set kk o.feedback, feedforward := g.feedforward.set kk o.feedforward,
        ctgMat := g.ctgMat.set kk o.mat, ctgVec := g.ctgVec.set kk o.vec, means := g.means.set kk o.xHat } := by
  unfold bwdOne at h
  obtain ⟨i, h1, h⟩ := bind_ok.1 h
  obtain ⟨o, h2, h⟩ := bind_ok.1 h
  obtain ⟨_, _, h⟩ := bind_ok.1 h
  obtain ⟨_, _, h⟩ := bind_ok.1 h
  obtain ⟨_, h3, h⟩ := bind_ok.1 h
  exact ⟨i, o, h1, h2, (List.getElem?_eq_some_iff.1 (getE_ok.1 h3)).1, (Except.ok.inj h).symm⟩

theorem fwdOne_frame {n : ℕ} {ext : Ext n} {kk : ℕ} {all xs : List (Vec n)} {ii : ℕ} {g g' : Plan n}
    (h : fwdOne ext kk all xs ii g = .ok g') : Frame g g' := by
  obtain ⟨i, o, _, _, rfl⟩ := fwdOne_ok h
  constructor <;> simp

theorem bwdOne_frame {n : ℕ} {ext : Ext n} {kk : ℕ} {all xs : List (Vec n)} {ii : ℕ} {g g' : Plan n}
    (h : bwdOne ext kk all xs ii g = .ok g') : Frame g g' := by
  obtain ⟨i, o, _, _, _, rfl⟩ := bwdOne_ok h
  constructor <;> simp

theorem finalOne_frame {n : ℕ} {ext : Ext n} {ts : List (Comp n)} {g g' : Plan n} (h : finalOne ext ts g = .ok g') :
    Frame g g' := by
  unfold finalOne at h
  obtain ⟨x, _, h⟩ := bind_ok.1 h
  obtain ⟨t, _, h⟩ := bind_ok.1 h
  obtain ⟨u, _, h⟩ := bind_ok.1 h
  obtain ⟨⟨m, v⟩, _, h⟩ := bind_ok.1 h
  obtain ⟨_, _, h⟩ := bind_ok.1 h
  obtain ⟨_, _, h⟩ := bind_ok.1 h
  obtain ⟨_, _, h⟩ := bind_ok.1 h
  obtain ⟨_, _, h⟩ := bind_ok.1 h
  obtain ⟨_, _, h⟩ := bind_ok.1 h
  obtain ⟨_, _, h⟩ := bind_ok.1 h
  obtain ⟨_, _, h⟩ := bind_ok.1 h
  obtain ⟨_, _, h⟩ := bind_ok.1 h
  obtain ⟨_, _, h⟩ := bind_ok.1 h
  have := Except.ok.inj h
  subst this
  constructor <;> simp [setLast]

theorem mapIdxE_ok {α β : Type} {f : ℕ → α → Except GErr β} : ∀ {i : ℕ} {as : List α} {bs : List β},
    mapIdxE f i as = .ok bs → bs.length = as.length ∧
      ∀ (k : ℕ) (a : α) (b : β), as[k]? = some a → bs[k]? = some b → f (i + k) a = .ok b := by
  intro i as
  induction as generalizing i with
  | nil =>
    intro bs h
    cases h
    exact ⟨rfl, fun k a b h => by simp at h⟩
  | cons a as ih =>
    intro bs h
    obtain ⟨b, h1, h⟩ := bind_ok.1 (show (f i a >>= fun b => mapIdxE f (i + 1) as >>= fun bs => .ok (b :: bs)) = .ok bs from h)
    obtain ⟨bs', h2, h⟩ := bind_ok.1 h
    cases h
    obtain ⟨e1, e2⟩ := ih h2
    refine ⟨by simp [e1], ?_⟩
    intro k a' b' h3 h4
    cases k with
    | zero =>
      simp only [List.getElem?_cons_zero, Option.some.injEq] at h3 h4
      subst h3; subst h4
      exact h1
    | succ k =>
      simp only [List.getElem?_cons_succ] at h3 h4
      have := e2 k a' b' h3 h4
      rw [← this]; congr 1; omega

/-- If a step fails for an element, the loop fails. -/
theorem mapIdxE_mem {α β : Type} {f : ℕ → α → Except GErr β} {i : ℕ} {as : List α} {bs : List β}
    (h : mapIdxE f i as = .ok bs) {a : α} (ha : a ∈ as) : ∃ k b, f (i + k) a = .ok b := by
  obtain ⟨e1, e2⟩ := mapIdxE_ok h
  obtain ⟨k, hk, rfl⟩ := List.getElem_of_mem ha
  exact ⟨k, bs[k]'(by omega), e2 k _ _ (List.getElem?_eq_getElem hk) (List.getElem?_eq_getElem (by omega))⟩

/-- Two lists of plans with the same frame. -/
def FrameL {n : ℕ} (gs gs' : List (Plan n)) : Prop := List.Forall₂ Frame gs gs'

theorem FrameL.refl {n : ℕ} (gs : List (Plan n)) : FrameL gs gs := by
  induction gs with
  | nil => exact .nil
  | cons g gs ih => exact .cons (Frame.refl g) ih

theorem FrameL.trans {n : ℕ} {a b c : List (Plan n)} (h : FrameL a b) (k : FrameL b c) : FrameL a c := by
  induction h generalizing c with
  | nil => exact k
  | cons h1 h2 ih =>
    cases k with
    | cons k1 k2 => exact .cons (h1.trans k1) (ih k2)

theorem FrameL.length {n : ℕ} {a b : List (Plan n)} (h : FrameL a b) : b.length = a.length := (List.Forall₂.length_eq h).symm

theorem FrameL.get {n : ℕ} {a b : List (Plan n)} (h : FrameL a b) {k : ℕ} {x y : Plan n} (hx : a[k]? = some x)
    (hy : b[k]? = some y) : Frame x y := by
  induction h generalizing k with
  | nil => simp at hx
  | cons h1 _ ih =>
    cases k with
    | zero =>
      simp only [List.getElem?_cons_zero, Option.some.injEq] at hx hy
      subst hx; subst hy; exact h1
    | succ k =>
      simp only [List.getElem?_cons_succ] at hx hy
      exact ih hx hy

theorem mapIdxE_frame {n : ℕ} {f : ℕ → Plan n → Except GErr (Plan n)} (hf : ∀ i g g', f i g = .ok g' → Frame g g') :
    ∀ {i : ℕ} {as bs : List (Plan n)}, mapIdxE f i as = .ok bs → FrameL as bs := by
  intro i as
  induction as generalizing i with
  | nil => intro bs h; cases h; exact .nil
  | cons a as ih =>
    intro bs h
    obtain ⟨b, h1, h⟩ := bind_ok.1 (show (f i a >>= fun b => mapIdxE f (i + 1) as >>= fun bs => .ok (b :: bs)) = .ok bs from h)
    obtain ⟨bs', h2, h⟩ := bind_ok.1 h
    cases h
    exact .cons (hf _ _ _ h1) (ih h2)

theorem loopE_inv {σ : Type} {f : ℕ → σ → Except GErr σ} (R : σ → σ → Prop) (hr : ∀ s, R s s)
    (ht : ∀ a b c, R a b → R b c → R a c) (hf : ∀ k s s', f k s = .ok s' → R s s') :
    ∀ {ks : List ℕ} {s s' : σ}, loopE f ks s = .ok s' → R s s' := by
  intro ks
  induction ks with
  | nil => intro s s' h; cases h; exact hr s
  | cons k ks ih =>
    intro s s' h
    obtain ⟨s1, h1, h⟩ := bind_ok.1 (show (f k s >>= fun s' => loopE f ks s') = .ok s' from h)
    exact ht _ _ _ (hf _ _ _ h1) (ih h)

theorem fwdStep_frame {n : ℕ} {ext : Ext n} {xs : List (Vec n)} {kk : ℕ} {gs gs' : List (Plan n)}
    (h : fwdStep ext xs kk gs = .ok gs') : FrameL gs gs' := by
  unfold fwdStep at h
  obtain ⟨cur, _, h⟩ := bind_ok.1 h
  obtain ⟨g1, h1, h⟩ := bind_ok.1 h
  exact (mapIdxE_frame (fun _ _ _ => ctrlStep_frame) h1).trans (mapIdxE_frame (fun _ _ _ => fwdOne_frame) h)

theorem bwdStep_frame {n : ℕ} {ext : Ext n} {xs : List (Vec n)} {kk : ℕ} {gs gs' : List (Plan n)}
    (h : bwdStep ext xs kk gs = .ok gs') : FrameL gs gs' := by
  unfold bwdStep at h
  obtain ⟨g1, h1, h⟩ := bind_ok.1 h
  obtain ⟨prev, _, h⟩ := bind_ok.1 h
  exact (mapIdxE_frame (fun _ _ _ => ctrlStep_frame) h1).trans (mapIdxE_frame (fun _ _ _ => bwdOne_frame) h)

/-- The parts of a round. -/
theorem round_ok {n : ℕ} {cf : Conf n} {gs gs' : List (Plan n)} {xs ys : List (Vec n)} {c : ℝ}
    (h : round cf gs xs = .ok (gs', ys, c)) : ∃ (g1 g2 : List (Plan n)) (m : ℕ) (c' f : ℝ),
      loopE (fwdStep cf.ext xs) (List.range (cf.horizon - 1)) gs = .ok g1 ∧
      mapIdxE (fun _ g => finalOne cf.ext cf.dens.targets g) 0 g1 = .ok g2 ∧
      loopE (bwdStep cf.ext xs) (List.range (cf.horizon - 1)).reverse g2 = .ok gs' ∧
      firstInputs gs' = .ok m ∧ realCost cf.dens m gs' (List.range (cf.horizon - 1)) xs 0 = .ok (ys, c') ∧
      finalCost cf.ext cf.dens.targets ys = .ok f ∧ c = c' + f := by
  unfold round at h
  obtain ⟨g1, h1, h⟩ := bind_ok.1 h
  obtain ⟨g2, h2, h⟩ := bind_ok.1 h
  obtain ⟨g3, h3, h⟩ := bind_ok.1 h
  obtain ⟨m, h4, h⟩ := bind_ok.1 h
  obtain ⟨⟨ys', c'⟩, h5, h⟩ := bind_ok.1 h
  obtain ⟨f, h6, h⟩ := bind_ok.1 h
  cases h
  exact ⟨g1, g2, m, c', f, h1, h2, h3, h4, h5, h6, rfl⟩

theorem round_frame {n : ℕ} {cf : Conf n} {gs gs' : List (Plan n)} {xs ys : List (Vec n)} {c : ℝ}
    (h : round cf gs xs = .ok (gs', ys, c)) : FrameL gs gs' := by
  obtain ⟨g1, g2, _, _, _, h1, h2, h3, _⟩ := round_ok h
  exact ((loopE_inv FrameL FrameL.refl (fun _ _ _ => FrameL.trans) (fun _ _ _ => fwdStep_frame) h1).trans
    (mapIdxE_frame (fun _ _ _ => finalOne_frame) h2)).trans
    (loopE_inv FrameL FrameL.refl (fun _ _ _ => FrameL.trans) (fun _ _ _ => bwdStep_frame) h3)

theorem iterLoop_succ {n : ℕ} (cf : Conf n) (t : ℕ) (old : Option ℝ) (gs : List (Plan n)) (xs : List (Vec n)) :
    iterLoop cf (t + 1) old gs xs = (round cf gs xs >>= fun r =>
      if converged cf.tol old r.2.2 then .ok r.1 else iterLoop cf t (some r.2.2) r.1 r.2.1) := rfl

theorem iterLoop_frame {n : ℕ} {cf : Conf n} : ∀ {t : ℕ} {old : Option ℝ} {gs gs' : List (Plan n)} {xs : List (Vec n)},
    iterLoop cf t old gs xs = .ok gs' → FrameL gs gs' := by
  intro t
  induction t with
  | zero => intro old gs gs' xs h; cases h; exact FrameL.refl _
  | succ t ih =>
    intro old gs gs' xs h
    rw [iterLoop_succ] at h
    obtain ⟨⟨g1, ys, c⟩, h1, h⟩ := bind_ok.1 h
    split at h
    · cases h; exact round_frame h1
    · exact (round_frame h1).trans (ih h)

/-- The two ways `iterate` can succeed. -/
theorem iterate_ok {n : ℕ} {cf : Conf n} {thr : Option ℝ} {est : Est n} {meas : List (Comp n)} {gs gs' : List (Plan n)}
    (h : iterate cf thr est meas gs = .ok gs') : (initPlans thr cf.horizon est meas gs).err = none ∧
      (((initPlans thr cf.horizon est meas gs).new = [] ∧ gs' = []) ∨
       ((initPlans thr cf.horizon est meas gs).new ≠ [] ∧ ∃ xs,
         mapIdxE (fun _ g => getE g.means 1) 0 (initPlans thr cf.horizon est meas gs).new = .ok xs ∧
         iterLoop cf cf.maxIters none (initPlans thr cf.horizon est meas gs).new xs = .ok gs')) := by
  unfold iterate at h
  dsimp only at h
  cases he : (initPlans thr cf.horizon est meas gs).err with
  | some e => rw [he] at h; exact (nomatch h)
  | none =>
    rw [he] at h
    refine ⟨rfl, ?_⟩
    dsimp only at h
    split at h
    · rename_i h0
      cases h
      exact Or.inl ⟨h0, rfl⟩
    · rename_i h0
      obtain ⟨xs, h1, h⟩ := bind_ok.1 h
      exact Or.inr ⟨h0, xs, h1, h⟩

theorem iterate_frame {n : ℕ} {cf : Conf n} {thr : Option ℝ} {est : Est n} {meas : List (Comp n)} {gs gs' : List (Plan n)}
    (h : iterate cf thr est meas gs = .ok gs') : FrameL (initPlans thr cf.horizon est meas gs).new gs' := by
  rcases (iterate_ok h).2 with ⟨h1, rfl⟩ | ⟨_, xs, _, h2⟩
  · rw [h1]; exact .nil
  · exact iterLoop_frame h2

end Gasur.Elqr
