import Verif.Model.Bfm
import Verif.Spec.Graph
import Mathlib.Tactic.Linarith
import Mathlib.Tactic.Ring
import Mathlib.Data.Fintype.Card

/-! Proofs for `bfm_shortest_path`. -/

set_option linter.unusedSectionVars false
set_option linter.unusedSimpArgs false

namespace Gasur.Bfm

open Gasur.Spec

variable {K : Type*} [CommRing K] [LinearOrder K] [IsStrictOrderedRing K] {n : ℕ}
variable {G : Fin n → Fin n → WithTop K} {eps : K} {r : Fin n}

/-! ### Walks -/

omit [IsStrictOrderedRing K] in
theorem walk_ne_nil {u v : Fin n} {l a} (h : Walk G eps u v l a) : l ≠ [] := by
  cases h <;> simp

omit [IsStrictOrderedRing K] in
theorem walk_split {u v : Fin n} {l a} (h : Walk G eps u v l a) : ∀ x ∈ l,
    ∃ l1 a1 l2 a2, Walk G eps u x l1 a1 ∧ l1 <+: l ∧ Walk G eps x v l2 a2 ∧ a1 + a2 = a := by
  induction h with
  | nil =>
    intro x hx
    rw [List.mem_singleton] at hx
    subst hx
    exact ⟨_, _, _, _, .nil, List.prefix_refl _, .nil, by simp⟩
  | @snoc v y l a w hw ha ih =>
    intro x hx
    rcases List.mem_append.1 hx with hx | hx
    · obtain ⟨l1, a1, l2, a2, h1, hp, h2, hs⟩ := ih x hx
      exact ⟨l1, a1, _, _, h1, hp.trans (List.prefix_append _ _), h2.snoc ha, by rw [← hs]; ring⟩
    · rw [List.mem_singleton] at hx
      subst hx
      exact ⟨_, _, _, _, hw.snoc ha, List.prefix_refl _, .nil, by simp⟩

theorem walk_simple (hn : NoNegCycle G eps r) {v : Fin n} {l a} (h : Walk G eps r v l a) :
    ∃ l' a', Walk G eps r v l' a' ∧ l'.Nodup ∧ a' ≤ a := by
  induction h with
  | nil => exact ⟨_, _, .nil, by simp, le_refl _⟩
  | @snoc v x l a w hw ha ih =>
    obtain ⟨l', a', h', hnd, hle⟩ := ih
    by_cases hx : x ∈ l'
    · obtain ⟨l1, a1, l2, a2, h1, hp, h2, hs⟩ := walk_split h' x hx
      have := hn x l1 a1 h1 _ _ (h2.snoc ha)
      exact ⟨l1, a1, h1, hp.sublist.nodup hnd, by linarith⟩
    · refine ⟨_, _, h'.snoc ha, ?_, by linarith⟩
      rw [List.nodup_append]
      refine ⟨hnd, by simp, ?_⟩
      intro y hy z hz
      rw [List.mem_singleton] at hz
      subst hz
      intro he
      subst he
      exact hx hy

theorem walk_short (hn : NoNegCycle G eps r) {v : Fin n} {l a} (h : Walk G eps r v l a) :
    ∃ l' a', Walk G eps r v l' a' ∧ l'.length ≤ n ∧ a' ≤ a := by
  obtain ⟨l', a', h1, h2, h3⟩ := walk_simple hn h
  refine ⟨l', a', h1, ?_, h3⟩
  have := List.Nodup.length_le_card h2
  simpa using this

/-! ### Predecessor trees -/

/-- `l` lists the predecessor chain from the root `r` to `v`. -/
inductive TP (p : Fin n → Fin n) (r : Fin n) : Fin n → List (Fin n) → Prop
  | root : TP p r r [r]
  | step {v l} : v ≠ r → TP p r (p v) l → TP p r v (l ++ [v])

theorem TP.unique {p : Fin n → Fin n} {v l l'} (h : TP p r v l) (h' : TP p r v l') : l = l' := by
  induction h generalizing l' with
  | root =>
    cases h' with
    | root => rfl
    | step hv _ => exact absurd rfl hv
  | step hv _ ih =>
    cases h' with
    | root => exact absurd rfl hv
    | step _ h2 => rw [ih h2]

theorem TP.prefix {p : Fin n → Fin n} {v l} (h : TP p r v l) : ∀ x ∈ l,
    ∃ l0, TP p r x l0 ∧ l0 <+: l := by
  induction h with
  | root =>
    intro x hx
    rw [List.mem_singleton] at hx
    subst hx
    exact ⟨_, .root, List.prefix_refl _⟩
  | @step v l hv h ih =>
    intro x hx
    rcases List.mem_append.1 hx with hx | hx
    · obtain ⟨l0, h0, hp⟩ := ih x hx
      exact ⟨l0, h0, hp.trans (List.prefix_append _ _)⟩
    · rw [List.mem_singleton] at hx
      subst hx
      exact ⟨_, .step hv h, List.prefix_refl _⟩

theorem TP.nodup {p : Fin n → Fin n} {v l} (h : TP p r v l) : l.Nodup := by
  induction h with
  | root => simp
  | @step v l hv h ih =>
    rw [List.nodup_append]
    refine ⟨ih, by simp, ?_⟩
    intro y hy z hz he
    rw [List.mem_singleton] at hz
    subst hz
    subst he
    obtain ⟨l0, h0, hp⟩ := h.prefix y hy
    have := (TP.step hv h).unique h0
    have h1 := hp.length_le
    rw [← this] at h1
    simp at h1

theorem TP.update_of_notMem {p : Fin n → Fin n} {v l} (h : TP p r v l) {x u : Fin n}
    (hx : x ∉ l) : TP (Function.update p x u) r v l := by
  induction h with
  | root => exact .root
  | @step v l hv h ih =>
    rw [List.mem_append, List.mem_singleton] at hx
    push Not at hx
    refine .step hv ?_
    rw [Function.update_of_ne (Ne.symm hx.2)]
    exact ih hx.1

theorem TP.update {p : Fin n → Fin n} {x u : Fin n} {lu} (hx : x ≠ r) (hu : TP p r u lu)
    (hxu : x ∉ lu) {v l} (h : TP p r v l) : ∃ l', TP (Function.update p x u) r v l' := by
  induction h with
  | root => exact ⟨_, .root⟩
  | @step v l hv h ih =>
    by_cases hvx : v = x
    · subst hvx
      refine ⟨lu ++ [v], .step hv ?_⟩
      rw [Function.update_self]
      exact hu.update_of_notMem hxu
    · obtain ⟨l', h'⟩ := ih
      refine ⟨l' ++ [v], .step hv ?_⟩
      rw [Function.update_of_ne hvx]
      exact h'

theorem walkBack_TP {p : Fin n → Fin n} {v l} (h : TP p r v l) :
    ∀ (fuel : ℕ) (path : List (Fin n)), l.length ≤ fuel →
      walkBack p r fuel v (v :: path) = some (l ++ path) := by
  induction h with
  | root =>
    intro fuel path hf
    cases fuel with
    | zero => simp at hf
    | succ k => simp [walkBack]
  | @step v l hv h ih =>
    intro fuel path hf
    cases fuel with
    | zero => simp at hf
    | succ k =>
      have := ih k (v :: path) (by simpa using hf)
      simp only [walkBack, if_neg hv]
      rw [this]
      simp

/-! ### Invariant of relaxation -/

/-- Soundness invariant. -/
structure Inv (G : Fin n → Fin n → WithTop K) (eps : K) (r : Fin n) (s : St K n) : Prop where
  sound : ∀ v (d : K), s.D v = d → ∃ l, Walk G eps r v l d
  root : s.D r ≤ 0
  parent : ∀ v (d : K), s.D v = d → v ≠ r →
    ∃ w du : K, Arc G eps (s.p v) v w ∧ s.D (s.p v) = du ∧ du + w ≤ d
  tree : ∀ v, s.D v ≠ ⊤ → ∃ l, TP s.p r v l

theorem Inv.chain {s : St K n} (hs : Inv G eps r s) {v l} (h : TP s.p r v l) :
    ∀ (d : K), s.D v = d → ∀ x ∈ l, ∃ (l' : List (Fin n)) (b dx : K),
      Walk G eps x v l' b ∧ s.D x = dx ∧ dx + b ≤ d := by
  induction h with
  | root =>
    intro d hd x hx
    rw [List.mem_singleton] at hx
    subst hx
    exact ⟨_, 0, d, .nil, hd, by simp⟩
  | @step v l hv h ih =>
    intro d hd x hx
    rcases List.mem_append.1 hx with hx | hx
    · obtain ⟨w, du, harc, hdu, hle⟩ := hs.parent v d hd hv
      obtain ⟨l', b, dx, hw, hdx, hle'⟩ := ih du hdu x hx
      exact ⟨_, _, dx, hw.snoc harc, hdx, by linarith⟩
    · rw [List.mem_singleton] at hx
      subst hx
      exact ⟨_, 0, d, .nil, hd, by simp⟩

theorem top_or (x : WithTop K) : x = ⊤ ∨ ∃ d : K, x = d := by
  cases x with
  | top => exact .inl rfl
  | coe d => exact .inr ⟨d, rfl⟩

theorem relax_lt {s : St K n} {u v : Fin n} (h : s.D u + G u v < s.D v) :
    ∃ du w : K, s.D u = du ∧ G u v = w := by
  rcases top_or (s.D u) with h1 | ⟨du, h1⟩
  · rw [h1, WithTop.top_add] at h
    exact absurd h not_top_lt
  · rcases top_or (G u v) with h2 | ⟨w, h2⟩
    · rw [h2, WithTop.add_top] at h
      exact absurd h not_top_lt
    · exact ⟨du, w, h1, h2⟩

theorem Inv.relax {s : St K n} (hn : NoNegCycle G eps r) (hs : Inv G eps r s) (a : Fin n × Fin n)
    (ha : isArc eps (G a.1 a.2) = true) : Inv G eps r (relax G s a) := by
  obtain ⟨u, v⟩ := a
  unfold Bfm.relax
  simp only
  split
  · rename_i hlt
    simp only at ha
    obtain ⟨du, w, hdu, hw⟩ := relax_lt hlt
    rw [hdu, hw] at hlt
    have harc : Arc G eps u v w := by
      refine ⟨hw, ?_⟩
      rw [hw] at ha
      simpa [isArc] using ha
    obtain ⟨lu, hwu⟩ := hs.sound u du hdu
    have hwv : Walk G eps r v (lu ++ [v]) (du + w) := hwu.snoc harc
    have hnew : s.D u + G u v = ((du + w : K) : WithTop K) := by rw [hdu, hw]; rfl
    have hvr : v ≠ r := by
      intro he
      subst he
      have h0 := hn v _ _ .nil _ _ hwv
      have h1 : ((du + w : K) : WithTop K) < ((0 : K) : WithTop K) := lt_of_lt_of_le hlt hs.root
      rw [WithTop.coe_lt_coe] at h1
      linarith
    obtain ⟨l, hl⟩ := hs.tree u (by rw [hdu]; simp)
    have hvl : v ∉ l := by
      intro hv
      obtain ⟨l', b, dv, hb, hdv, hle⟩ := hs.chain hl du hdu v hv
      have h0 := hn v _ _ hwv _ _ (hb.snoc harc)
      rw [hdv] at hlt
      have h1 : du + w < dv := by
        have : ((du + w : K) : WithTop K) < (dv : WithTop K) := hlt
        rwa [WithTop.coe_lt_coe] at this
      linarith
    have huv : u ≠ v := by
      intro he
      subst he
      apply hvl
      cases hl with
      | root => simp
      | step _ _ => simp
    rw [hnew]
    have hltv : ((du + w : K) : WithTop K) < s.D v := hlt
    constructor
    · intro x d hx
      simp only at hx
      by_cases hxv : x = v
      · subst hxv
        rw [Function.update_self, WithTop.coe_inj] at hx
        subst hx
        exact ⟨_, hwv⟩
      · rw [Function.update_of_ne hxv] at hx
        exact hs.sound x d hx
    · simp only
      rw [Function.update_of_ne (Ne.symm hvr)]
      exact hs.root
    · intro x d hx hxr
      simp only at hx ⊢
      by_cases hxv : x = v
      · subst hxv
        rw [Function.update_self, WithTop.coe_inj] at hx
        subst hx
        rw [Function.update_self, Function.update_of_ne huv]
        exact ⟨w, du, harc, hdu, le_refl _⟩
      · rw [Function.update_of_ne hxv] at hx
        rw [Function.update_of_ne hxv]
        obtain ⟨w', du', h1, h2, h3⟩ := hs.parent x d hx hxr
        by_cases hpx : s.p x = v
        · rw [hpx, Function.update_self]
          rw [hpx] at h1 h2
          refine ⟨w', du + w, h1, rfl, ?_⟩
          rw [h2, WithTop.coe_lt_coe] at hltv
          linarith
        · rw [Function.update_of_ne hpx]
          exact ⟨w', du', h1, h2, h3⟩
    · intro x hx
      simp only at hx ⊢
      by_cases hxv : x = v
      · subst hxv
        refine ⟨l ++ [x], .step hvr ?_⟩
        rw [Function.update_self]
        exact hl.update_of_notMem hvl
      · rw [Function.update_of_ne hxv] at hx
        obtain ⟨lx, hlx⟩ := hs.tree x hx
        exact TP.update hvr hl hvl hlx
  · exact hs

theorem mem_arcs {u v : Fin n} : (u, v) ∈ arcs G eps ↔ isArc eps (G u v) = true := by
  unfold arcs
  simp [List.mem_flatMap]

theorem Inv.foldl (hn : NoNegCycle G eps r) : ∀ (as : List (Fin n × Fin n)) (s : St K n),
    (∀ a ∈ as, isArc eps (G a.1 a.2) = true) → Inv G eps r s →
    Inv G eps r (as.foldl (Bfm.relax G) s)
  | [], _, _, hs => hs
  | a :: as, s, ha, hs =>
    Inv.foldl hn as _ (fun b hb => ha b (List.mem_cons_of_mem _ hb))
      (hs.relax hn a (ha a List.mem_cons_self))

theorem Inv.setOpt {s : St K n} (hs : Inv G eps r s) (b : Bool) :
    Inv G eps r { s with optimal := b } := ⟨hs.sound, hs.root, hs.parent, hs.tree⟩

theorem Inv.sweep (hn : NoNegCycle G eps r) {s : St K n} (hs : Inv G eps r s) :
    Inv G eps r (sweep G eps s) := by
  unfold Bfm.sweep
  exact Inv.foldl hn _ _ (fun a ha => mem_arcs.1 ha) (hs.setOpt true)

theorem Inv.sweeps (hn : NoNegCycle G eps r) : ∀ (k : ℕ) {s : St K n}, Inv G eps r s →
    Inv G eps r (sweeps G eps k s)
  | 0, _, hs => hs
  | k + 1, s, hs => by
    unfold Bfm.sweeps
    split
    · exact hs.sweep hn
    · exact Inv.sweeps hn k (hs.sweep hn)

theorem Inv.init : Inv G eps r (initSt r) := by
  have key : ∀ v, (initSt (K := K) r).D v ≠ ⊤ → v = r := by
    intro v h
    unfold initSt at h
    simp only at h
    by_contra hv
    rw [if_neg hv] at h
    exact h rfl
  constructor
  · intro v d h
    have hv : v = r := key v (by rw [h]; simp)
    subst hv
    unfold initSt at h
    simp only [if_true] at h
    have : d = 0 := by exact_mod_cast h.symm
    subst this
    exact ⟨_, .nil⟩
  · simp [initSt]
  · intro v d h hv
    exact absurd (key v (by rw [h]; simp)) hv
  · intro v h
    have hv : v = r := key v h
    subst hv
    exact ⟨_, .root⟩

/-! ### Lower bounds -/

theorem relax_le (s : St K n) (a : Fin n × Fin n) (v : Fin n) : (relax G s a).D v ≤ s.D v := by
  unfold relax
  split
  · rename_i h
    simp only
    by_cases hv : v = a.2
    · subst hv
      rw [Function.update_self]
      exact h.le
    · rw [Function.update_of_ne hv]
  · exact le_refl _

theorem relax_arc (s : St K n) (a : Fin n × Fin n) : (relax G s a).D a.2 ≤ s.D a.1 + G a.1 a.2 := by
  unfold relax
  split
  · simp
  · rename_i h
    exact not_lt.1 h

theorem foldl_le : ∀ (as : List (Fin n × Fin n)) (s : St K n) (v : Fin n),
    (as.foldl (relax G) s).D v ≤ s.D v
  | [], _, _ => le_refl _
  | a :: as, s, v => (foldl_le as _ v).trans (relax_le s a v)

theorem foldl_arc : ∀ (as : List (Fin n × Fin n)) (s : St K n) (a : Fin n × Fin n), a ∈ as →
    (as.foldl (relax G) s).D a.2 ≤ s.D a.1 + G a.1 a.2
  | b :: as, s, a, ha => by
    rw [List.foldl_cons]
    rcases List.mem_cons.1 ha with rfl | ha
    · exact (foldl_le as _ _).trans (relax_arc s a)
    · refine (foldl_arc as _ a ha).trans ?_
      exact add_le_add (relax_le s b a.1) (le_refl _)

theorem foldl_false : ∀ (as : List (Fin n × Fin n)) (s : St K n), s.optimal = false →
    (as.foldl (relax G) s).optimal = false
  | [], _, h => h
  | a :: as, s, h => by
    rw [List.foldl_cons]
    apply foldl_false as
    unfold relax
    split
    · rfl
    · exact h

theorem foldl_opt : ∀ (as : List (Fin n × Fin n)) (s : St K n),
    (as.foldl (relax G) s).optimal = true →
    as.foldl (relax G) s = s ∧ ∀ a ∈ as, s.D a.2 ≤ s.D a.1 + G a.1 a.2
  | [], _, _ => ⟨rfl, by simp⟩
  | a :: as, s, h => by
    rw [List.foldl_cons] at h ⊢
    by_cases hlt : s.D a.1 + G a.1 a.2 < s.D a.2
    · exfalso
      rw [foldl_false as (relax G s a) (by unfold relax; rw [if_pos hlt])] at h
      exact absurd h (by simp)
    · have hr : relax G s a = s := by unfold relax; rw [if_neg hlt]
      rw [hr] at h ⊢
      obtain ⟨h1, h2⟩ := foldl_opt as s h
      refine ⟨h1, ?_⟩
      intro b hb
      rcases List.mem_cons.1 hb with rfl | hb
      · exact not_lt.1 hlt
      · exact h2 b hb

/-- No arc can be relaxed. -/
def Fixed (G : Fin n → Fin n → WithTop K) (eps : K) (s : St K n) : Prop :=
  ∀ u v w, Arc G eps u v w → s.D v ≤ s.D u + (w : WithTop K)

/-- Walks with at most `k` arcs are bounded below by the distances. -/
def Bound (G : Fin n → Fin n → WithTop K) (eps : K) (r : Fin n) (k : ℕ) (s : St K n) : Prop :=
  ∀ v l a, Walk G eps r v l a → l.length ≤ k + 1 → s.D v ≤ (a : WithTop K)

theorem arc_mem {u v : Fin n} {w : K} (h : Arc G eps u v w) : (u, v) ∈ arcs G eps := by
  rw [mem_arcs, h.1]
  simpa [isArc] using h.2

theorem Bound.sweep {k : ℕ} {s : St K n} (h : Bound G eps r k s) (h0 : s.D r ≤ 0) :
    Bound G eps r (k + 1) (sweep G eps s) := by
  intro v l a hw hl
  cases hw with
  | nil => exact (foldl_le _ _ _).trans h0
  | @snoc u _ l' a' w hw' harc =>
    have h1 := h u l' a' hw' (by simpa using hl)
    have h2 := foldl_arc (G := G) (arcs G eps) { s with optimal := true } (u, v) (arc_mem harc)
    refine h2.trans ?_
    simp only
    rw [harc.1, WithTop.coe_add]
    exact add_le_add h1 (le_refl _)

theorem sweeps_bound (hn : NoNegCycle G eps r) : ∀ (k j : ℕ) (s : St K n), Inv G eps r s →
    Bound G eps r j s →
    Bound G eps r (j + k) (sweeps G eps k s) ∨ Fixed G eps (sweeps G eps k s)
  | 0, j, s, _, h => .inl h
  | k + 1, j, s, hs, h => by
    unfold sweeps
    split
    · rename_i hopt
      right
      obtain ⟨h1, h2⟩ := foldl_opt _ _ hopt
      intro u v w harc
      have := h2 (u, v) (arc_mem harc)
      unfold sweep
      rw [h1]
      simp only at this ⊢
      rw [harc.1] at this
      exact this
    · have := sweeps_bound hn k (j + 1) _ (hs.sweep hn) (h.sweep hs.root)
      rwa [Nat.add_assoc, Nat.add_comm 1 k] at this

theorem fixed_bound {s : St K n} (hf : Fixed G eps s) (h0 : s.D r ≤ 0) {v l a}
    (h : Walk G eps r v l a) : s.D v ≤ (a : WithTop K) := by
  induction h with
  | nil => exact h0
  | snoc hw harc ih =>
    refine (hf _ _ _ harc).trans ?_
    rw [WithTop.coe_add]
    exact add_le_add ih (le_refl _)

/-- Final distances bound every walk from below. -/
theorem final_bound (hn : NoNegCycle G eps r) {v l a} (h : Walk G eps r v l a) :
    (sweeps G eps (n - 1) (initSt r)).D v ≤ (a : WithTop K) := by
  have hinit : Bound G eps r 0 (initSt (K := K) r) := by
    intro v l a hw hl
    cases hw with
    | nil => exact Inv.init (G := G) (eps := eps).root
    | snoc hw' _ =>
      exfalso
      have := walk_ne_nil hw'
      cases hl' : ‹List (Fin n)› with
      | nil => exact this hl'
      | cons b t => rw [hl'] at hl; simp at hl
  rcases sweeps_bound hn (n - 1) 0 _ Inv.init hinit with hb | hf
  · obtain ⟨l', a', h1, h2, h3⟩ := walk_short hn h
    have hpos : 0 < n := Nat.lt_of_le_of_lt (Nat.zero_le _) r.isLt
    exact (hb v l' a' h1 (by omega)).trans (WithTop.coe_le_coe.2 h3)
  · exact fixed_bound hf (Inv.sweeps hn _ Inv.init).root h

/-- The chain of predecessors is a walk of at most the reported weight. -/
theorem chain_walk {s : St K n} (hs : Inv G eps r s) {v l} (h : TP s.p r v l) (hr : 0 ≤ s.D r) :
    ∀ (d : K), s.D v = d → ∃ b, Walk G eps r v l b ∧ b ≤ d := by
  induction h with
  | root =>
    intro d hd
    refine ⟨0, .nil, ?_⟩
    rw [hd] at hr
    exact_mod_cast hr
  | @step v l hv h ih =>
    intro d hd
    obtain ⟨w, du, harc, hdu, hle⟩ := hs.parent v d hd hv
    obtain ⟨b, hb, hbd⟩ := ih du hdu
    exact ⟨b + w, hb.snoc harc, by linarith⟩

theorem root_nonneg (hn : NoNegCycle G eps r) {s : St K n} (hs : Inv G eps r s) : 0 ≤ s.D r := by
  rcases top_or (s.D r) with h | ⟨d, h⟩
  · rw [h]; exact le_top
  · obtain ⟨l, hl⟩ := hs.sound r d h
    rw [h]
    exact_mod_cast hn r _ _ .nil _ _ hl

/-- Everything about `bfm` in one statement. -/
theorem bfm_spec (hn2 : 2 ≤ n) (hcnt : ¬ (arcs G eps).length < countNonzero G)
    (src dst : Fin n) (hn : NoNegCycle G eps src) (fuel : ℕ) (hfuel : n ≤ fuel) :
    ∃ dist path pred, bfm G eps src dst fuel = .ok (dist, path, pred) ∧
      ((dist = ⊤ ∧ path = [] ∧ ∀ l a, ¬ Walk G eps src dst l a) ∨
       (∃ d : K, dist = d ∧ Walk G eps src dst path d ∧ path.Nodup ∧
          ∀ l a, Walk G eps src dst l a → d ≤ a)) := by
  have hinv : Inv G eps src (sweeps G eps (n - 1) (initSt src)) := Inv.sweeps hn _ Inv.init
  unfold bfm bfmHelper
  rw [if_neg (by omega), if_neg hcnt]
  simp only
  rcases top_or ((sweeps G eps (n - 1) (initSt src)).D dst) with h | ⟨d, h⟩
  · rw [h]
    refine ⟨_, _, _, rfl, .inl ⟨rfl, rfl, ?_⟩⟩
    intro l a hw
    have := final_bound hn hw
    rw [h] at this
    simp at this
  · rw [h]
    simp only
    obtain ⟨l, hl⟩ := hinv.tree dst (by rw [h]; simp)
    have hlen : l.length ≤ fuel := by
      have := List.Nodup.length_le_card hl.nodup
      rw [Fintype.card_fin] at this
      omega
    have hwb := walkBack_TP hl fuel [] hlen
    rw [List.append_nil] at hwb
    rw [hwb]
    refine ⟨_, _, _, rfl, .inr ⟨d, rfl, ?_, hl.nodup, ?_⟩⟩
    · obtain ⟨b, hb, hbd⟩ := chain_walk hinv hl (root_nonneg hn hinv) d h
      have := final_bound hn hb
      rw [h, WithTop.coe_le_coe] at this
      have : b = d := le_antisymm hbd this
      rw [← this]
      exact hb
    · intro l' a hw
      have := final_bound hn hw
      rw [h, WithTop.coe_le_coe] at this
      exact this

end Gasur.Bfm
