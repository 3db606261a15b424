import Verif.Props.Murty
import Verif.Props.KShortest

/-!
# Property C128: asking for more answers only adds answers
-/

namespace Gasur.Props

section murty

open Gasur.Murty Gasur.Assign Gasur.Spec

variable {K : Type*} [CommRing K] [LinearOrder K] {r n : ℕ}

/-- `expand` only adds slots that are still open. -/
theorem expand_closed (S : Fin r → Option (Fin (n + r))) : ∀ (rows : List (Fin r)) (P : Fin r → Fin (n + r) → WithTop K)
    (slots slots' : List (Slot K r n)), expand S rows P slots = .ok slots' →
    slots'.countP (fun s => s.C.isNone) = slots.countP (fun s => s.C.isNone)
  | [], _, slots, slots', h => by
    obtain rfl := Except.ok.inj h
    rfl
  | aw :: rows, P, slots, slots', h => by
    unfold expand at h
    split at h
    · exact expand_closed S rows P slots slots' h
    · split at h
      · exact (nomatch h)
      · split at h
        · rw [expand_closed S rows _ _ slots' h]
          simp
        · exact expand_closed S rows P slots slots' h

theorem nanArgmin_get : ∀ {l : List (Option K)} {i : ℕ} {c : K}, nanArgmin l = some (i, c) → l[i]? = some (some c)
  | none :: l, i, c, h => by
    simp only [nanArgmin, Option.map_eq_some_iff, Prod.mk.injEq, Prod.exists] at h
    obtain ⟨a, b, h1, rfl, rfl⟩ := h
    simpa using nanArgmin_get h1
  | some x :: l, i, c, h => by
    simp only [nanArgmin] at h
    split at h
    · simp only [Option.some.injEq, Prod.mk.injEq] at h
      obtain ⟨rfl, rfl⟩ := h
      rfl
    · rename_i a b h1
      split at h
      · simp only [Option.some.injEq, Prod.mk.injEq] at h
        obtain ⟨rfl, rfl⟩ := h
        simpa using nanArgmin_get h1
      · simp only [Option.some.injEq, Prod.mk.injEq] at h
        obtain ⟨rfl, rfl⟩ := h
        rfl

theorem countP_set {α : Type*} (q : α → Bool) : ∀ (l : List α) (i : ℕ) (a b : α), l[i]? = some a → q a = false → q b = true →
    (l.set i b).countP q = l.countP q + 1
  | [], i, a, b, h, _, _ => by simp at h
  | x :: l, 0, a, b, h, ha, hb => by
    simp only [List.getElem?_cons_zero, Option.some.injEq] at h
    subst h
    simp [List.countP_cons, ha, hb]
  | x :: l, i + 1, a, b, h, ha, hb => by
    rw [List.getElem?_cons_succ] at h
    rw [List.set_cons_succ, List.countP_cons, List.countP_cons, countP_set q l i a b h ha hb]
    omega

/-- Fewer iterations give a prefix, if as many slots are closed as answers are found. -/
theorem popLoop_take : ∀ (k k' : ℕ), k ≤ k' → ∀ (slots : List (Slot K r n)) (out : List ((Fin r → Option (Fin (n + r))) × K))
    (res : List (Option ((Fin r → Option (Fin (n + r))) × K))), slots.countP (fun s => s.C.isNone) = out.length →
    popLoop k' slots out = .ok res → (∀ o ∈ res, o.isSome = true) →
    popLoop k slots out = .ok (res.take (out.length + k)) ∧ ∃ more, res = out.map some ++ more
  | k, 0, hk, slots, out, res, hc, h, hs => by
    obtain rfl : k = 0 := by omega
    obtain rfl := Except.ok.inj h
    refine ⟨?_, [], by simp⟩
    simp only [popLoop, Nat.add_zero]
    rw [List.take_of_length_le (by simp)]
  | k, k' + 1, hk, slots, out, res, hc, h, hs => by
    unfold popLoop at h
    split at h
    · rename_i hall
      have hl : slots.length = out.length := by
        rw [← hc, eq_comm, List.countP_eq_length]
        simpa using hall
      have hr : res = out.map some := by
        rw [← Except.ok.inj h, hl, List.take_append_of_le_length (by simp), List.take_of_length_le (by simp)]
      subst hr
      refine ⟨?_, [], by simp⟩
      rw [List.take_of_length_le (by simp)]
      cases k with
      | zero => rfl
      | succ k =>
        unfold popLoop
        rw [if_pos hall, hl, List.take_append_of_le_length (by simp), List.take_of_length_le (by simp)]
    · rename_i hall
      split at h
      · exact (nomatch h)
      · rename_i idx cost harg
        split at h
        · exact (nomatch h)
        · rename_i sl hsl
          split at h
          · exact (nomatch h)
          · rename_i slots' hex
            have hg := nanArgmin_get harg
            rw [List.getElem?_map, hsl, Option.map_some, Option.some.injEq] at hg
            have hc' : slots'.countP (fun s => s.C.isNone) = (out ++ [(sl.S, cost)]).length := by
              rw [expand_closed _ _ _ _ _ hex, countP_set _ slots idx sl _ hsl (by simp [hg]) (by simp), hc]
              simp
            have hrec := popLoop_take (k - 1) k' (by omega) slots' _ res hc' h hs
            obtain ⟨h1, more, h2⟩ := hrec
            refine ⟨?_, some (sl.S, cost) :: more, by rw [h2]; simp⟩
            cases k with
            | zero =>
              simp only [popLoop, Nat.add_zero]
              rw [h2, List.map_append, List.append_assoc, List.take_append_of_le_length (by simp),
                List.take_of_length_le (by simp)]
            | succ k =>
              unfold popLoop
              rw [if_neg hall, harg]
              dsimp only
              rw [hsl]
              dsimp only
              rw [hex]
              dsimp only
              rw [Nat.add_sub_cancel] at h1
              rw [h1]
              congr 2
              simp
              omega

theorem filterMap_take {α β : Type*} (f : α → Option β) : ∀ (m : ℕ) (l : List α), (∀ a ∈ l, (f a).isSome = true) →
    (l.take m).filterMap f = (l.filterMap f).take m
  | 0, _, _ => by simp
  | m + 1, [], _ => by simp
  | m + 1, a :: l, h => by
    obtain ⟨b, hb⟩ := Option.isSome_iff_exists.1 (h a List.mem_cons_self)
    rw [List.take_succ_cons, List.filterMap_cons_some hb, List.filterMap_cons_some hb, List.take_succ_cons,
      filterMap_take f m l fun x hx => h x (List.mem_cons_of_mem _ hx)]

/-- **C128, assignments.** Asking for `m ≤ m'` best assignments gives exactly the first `m` answers (rows and costs) of
asking for `m'`. -/
theorem C128_murty_prefix [IsStrictOrderedRing K] (C : Fin r → Fin n → WithTop K) (hr : 0 < r) (m m' : ℕ) (hm : m ≤ m') :
    ∃ rows, murty C m' = .ok rows ∧ murty C m = .ok (rows.take m) := by
  obtain ⟨out, h, _⟩ := murty_spec C m' hr
  refine ⟨_, h, ?_⟩
  by_cases h0 : m = 0
  · subst h0
    simp [murty]
  have h0' : m' ≠ 0 := by omega
  unfold murty at h ⊢
  rw [if_neg h0'] at h
  rw [if_neg h0]
  cases hes : entries (hstack C) with
  | nil => rw [hes] at h; exact (nomatch h)
  | cons e es =>
  rw [hes] at h
  dsimp only at h ⊢
  cases hx : es.foldl min e with
  | top => rw [hx] at h; exact (nomatch h)
  | coe x =>
  rw [hx] at h
  dsimp only at h ⊢
  cases hres : helper (fun i j => subTop (hstack C i j) x) m' with
  | error e => rw [hres] at h; exact (nomatch h)
  | ok res =>
  rw [hres] at h
  dsimp only at h
  split at h
  · rename_i hall
    have hall' : ∀ o ∈ res, o.isSome = true := by simpa using hall
    have key : helper (fun i j => subTop (hstack C i j) x) m = .ok (res.take m) := by
      unfold helper at hres ⊢
      cases ha : assignOpt (fun i j => subTop (hstack C i j) x) with
      | error e => rw [ha] at hres; exact (nomatch hres)
      | ok a =>
        obtain ⟨s0, c0⟩ := a
        rw [ha] at hres
        dsimp only at hres ⊢
        by_cases h1' : m' = 1
        · have h1 : m = 1 := by omega
          rw [if_pos h1'] at hres
          rw [if_pos h1, ← Except.ok.inj hres, h1]
          rfl
        · rw [if_neg h1'] at hres
          obtain ⟨k1, k2⟩ := popLoop_take m m' hm _ _ res (by simp) hres hall'
          rw [List.length_nil, Nat.zero_add] at k1
          by_cases h1 : m = 1
          · rw [if_pos h1]
            subst h1
            rw [← k1]
            obtain ⟨k, rfl⟩ : ∃ k, m' = k + 1 := ⟨m' - 1, by omega⟩
            unfold popLoop at hres ⊢
            simp only [List.all_cons, Option.isNone_some, List.all_nil, Bool.false_and, Bool.false_eq_true, if_false,
              List.map_cons, List.map_nil, nanArgmin, List.getElem?_cons_zero, List.nil_append] at hres ⊢
            cases hex : expand s0 (List.finRange r) (fun i j => subTop (hstack C i j) x)
                (List.set [⟨fun i j => subTop (hstack C i j) x, s0, some c0⟩] 0
                  ⟨fun i j => subTop (hstack C i j) x, s0, none⟩) with
            | error e => rw [hex] at hres; exact (nomatch hres)
            | ok sl => rfl
          · rw [if_neg h1]
            exact k1
    rw [key]
    dsimp only
    rw [if_pos (by
      rw [List.all_eq_true]
      exact fun o ho => hall' o (List.mem_of_mem_take ho)), ← Except.ok.inj h]
    congr 1
    exact filterMap_take _ m res fun o ho => by
      obtain ⟨v, rfl⟩ := Option.isSome_iff_exists.1 (hall' o ho)
      rfl
  · exact (nomatch h)

end murty

section kshortest

open Gasur.KShortest Gasur.Bfm Gasur.Spec

variable {K : Type*} [CommRing K] [LinearOrder K] {N n : ℕ}

theorem deviate_out {G : Fin N → Fin N → WithTop K} {eps : K} {dst : Fin N} {path : List (Fin N)} {st st' : YSt K N}
    {ind : ℕ} (h : deviate G eps dst path st ind = .ok st') : st'.out = st.out := by
  unfold deviate at h
  split at h
  · exact (nomatch h)
  · split at h
    · exact (nomatch h)
    · split at h
      · exact (nomatch h)
      · split at h <;> obtain rfl := Except.ok.inj h <;> rfl

theorem foldDev_out {G : Fin N → Fin N → WithTop K} {eps : K} {dst : Fin N} {path : List (Fin N)} :
    ∀ (is : List ℕ) {st st' : YSt K N}, is.foldlM (deviate G eps dst path) st = .ok st' → st'.out = st.out
  | [], st, st', h => by
    obtain rfl := Except.ok.inj h
    rfl
  | i :: is, st, st', h => by
    rw [List.foldlM_cons] at h
    cases hd : deviate G eps dst path st i with
    | error e => rw [hd] at h; exact (nomatch h)
    | ok s1 =>
      rw [hd] at h
      rw [foldDev_out is h, deviate_out hd]

/-- A round adds one path, or nothing is left to look at. -/
theorem yenStep_out {G : Fin N → Fin N → WithTop K} {eps : K} {dst : Fin N} {st st' : YSt K N}
    (h : yenStep G eps dst st = .ok st') :
    (st'.out = st.out ∧ st'.X = []) ∨ ∃ pc, st'.out = st.out ++ [pc] := by
  unfold yenStep at h
  split at h
  · split at h
    · exact (nomatch h)
    · split at h
      · exact (nomatch h)
      · rename_i s1 hf
        have ho := foldDev_out _ hf
        dsimp only at ho
        split at h
        · rename_i hx
          obtain rfl := Except.ok.inj h
          refine .inl ⟨ho, ?_⟩
          cases hX : s1.X with
          | nil => rfl
          | cons a l => rw [hX] at hx; exact (nomatch hx)
        · split at h
          · exact (nomatch h)
          · obtain rfl := Except.ok.inj h
            exact .inr ⟨_, by rw [← ho]⟩
  · exact (nomatch h)

theorem yenLoop_prefix {G : Fin N → Fin N → WithTop K} {eps : K} {dst : Fin N} {k : ℕ} : ∀ (fuel : ℕ) {st st' : YSt K N},
    yenLoop G eps dst k fuel st = .ok st' → st.out <+: st'.out
  | 0, st, st', h => by
    obtain rfl := Except.ok.inj h
    exact List.prefix_rfl
  | fuel + 1, st, st', h => by
    unfold yenLoop at h
    split at h
    · cases hs : yenStep G eps dst st with
      | error e => rw [hs] at h; exact (nomatch h)
      | ok s1 =>
        rw [hs] at h
        have h2 := yenLoop_prefix fuel h
        rcases yenStep_out hs with ⟨h1, _⟩ | ⟨pc, h1⟩
        · rwa [h1] at h2
        · rw [h1] at h2
          exact (List.prefix_append _ _).trans h2
    · obtain rfl := Except.ok.inj h
      exact List.prefix_rfl

/-- The loop for fewer paths stops earlier. -/
theorem yenLoop_take {G : Fin N → Fin N → WithTop K} {eps : K} {dst : Fin N} {k k' : ℕ} (hk : k ≤ k') :
    ∀ (fuel fuel' : ℕ) {st st' : YSt K N}, fuel ≤ fuel' → k ≤ st.out.length + fuel → st.out.length ≤ k →
    yenLoop G eps dst k' fuel' st = .ok st' → ∃ s, yenLoop G eps dst k fuel st = .ok s ∧ s.out = st'.out.take k
  | fuel, fuel', st, st', hf, hl, hle, h => by
    by_cases heq : st.out.length = k
    · -- done
      have hp := yenLoop_prefix fuel' h
      refine ⟨st, ?_, ?_⟩
      · cases fuel with
        | zero => rfl
        | succ f =>
          unfold yenLoop
          rw [if_neg (by omega)]
      · rw [← heq]
        exact List.prefix_iff_eq_take.1 hp
    · obtain ⟨f, rfl⟩ : ∃ f, fuel = f + 1 := ⟨fuel - 1, by omega⟩
      obtain ⟨f', rfl⟩ : ∃ f', fuel' = f' + 1 := ⟨fuel' - 1, by omega⟩
      unfold yenLoop at h ⊢
      by_cases hX : st.X = []
      · rw [if_neg (by simp [hX])] at h ⊢
        obtain rfl := Except.ok.inj h
        exact ⟨st, rfl, by rw [List.take_of_length_le hle]⟩
      · rw [if_pos ⟨by omega, hX⟩] at h ⊢
        cases hs : yenStep G eps dst st with
        | error e => rw [hs] at h; exact (nomatch h)
        | ok s1 =>
          rw [hs] at h
          dsimp only at h ⊢
          rcases yenStep_out hs with ⟨h1, h2⟩ | ⟨pc, h1⟩
          · have hstop : ∀ (q g : ℕ), yenLoop G eps dst q g s1 = .ok s1 := by
              intro q g
              cases g with
              | zero => rfl
              | succ g =>
                unfold yenLoop
                rw [if_neg (by simp [h2])]
            rw [hstop] at h
            obtain rfl := Except.ok.inj h
            exact ⟨s1, hstop _ _, by rw [h1, List.take_of_length_le hle]⟩
          · exact yenLoop_take hk f f' (by omega) (by rw [h1, List.length_append, List.length_singleton]; omega)
              (by rw [h1, List.length_append, List.length_singleton]; omega) h

theorem mapM_take {α β : Type*} (f : α → Option β) : ∀ (l : List α) (m : ℕ) {r : List β}, l.mapM f = some r →
    (l.take m).mapM f = some (r.take m)
  | l, 0, r, _ => by simp
  | [], m + 1, r, h => by
    simp only [List.mapM_nil, Option.pure_def, Option.some.injEq] at h
    subst h
    simp
  | a :: l, m + 1, r, h => by
    rw [List.mapM_cons] at h
    cases ha : f a with
    | none => rw [ha] at h; exact (nomatch h)
    | some b =>
      rw [ha] at h
      cases hl : l.mapM f with
      | none => rw [hl] at h; exact (nomatch h)
      | some bs =>
        rw [hl] at h
        obtain rfl := Option.some.inj h
        rw [List.take_succ_cons, List.mapM_cons, ha, mapM_take f l m hl]
        rfl

/-- **C128, subsets.** If `k_shortest` answers a request for `k'` subsets, it answers a request for `k ≤ k'` subsets with
exactly the first `k` of them. -/
theorem C128_k_shortest_prefix (lc : Fin n → K) (σ : Equiv.Perm (Fin n)) (eps : K) (k k' : ℕ) (hk : k ≤ k')
    (out : List (List (Fin n) × WithTop K)) (h : kShortest lc σ eps k' = .ok out) :
    kShortest lc σ eps k = .ok (out.take k) := by
  by_cases h0 : k = 0
  · subst h0
    simp [kShortest]
  unfold kShortest at h ⊢
  rw [if_neg (by omega)] at h
  rw [if_neg h0]
  cases hh : kHelper (costPad (fun i => lc (σ i)) eps) eps ⟨0, by omega⟩ ⟨n + 1, by omega⟩ k' with
  | error e => rw [hh] at h; exact (nomatch h)
  | ok o =>
  rw [hh] at h
  dsimp only at h
  have key : kHelper (costPad (fun i => lc (σ i)) eps) eps ⟨0, by omega⟩ ⟨n + 1, by omega⟩ k = .ok (o.take k) := by
    unfold kHelper at hh ⊢
    cases hb : bfm (costPad (fun i => lc (σ i)) eps) eps ⟨0, by omega⟩ ⟨n + 1, by omega⟩ (n + 2) with
    | error e => rw [hb] at hh; exact (nomatch hh)
    | ok t =>
      obtain ⟨cost, path, q⟩ := t
      rw [hb] at hh
      dsimp only at hh ⊢
      cases path with
      | nil =>
        obtain rfl := Except.ok.inj hh
        simp
      | cons a l =>
        dsimp only at hh ⊢
        cases hy : yenLoop (costPad (fun i => lc (σ i)) eps) eps ⟨n + 1, by omega⟩ k' k'
            { P := [(a :: l, cost)], S := [a], X := [(0, cost)], out := [(a :: l, cost)], cur := 0 } with
        | error e => rw [hy] at hh; exact (nomatch hh)
        | ok st =>
          rw [hy] at hh
          obtain rfl := Except.ok.inj hh
          obtain ⟨s, h1, h2⟩ := yenLoop_take hk k k' hk (by simp) (by simp; omega) hy
          rw [h1]
          dsimp only
          rw [h2]
  rw [key]
  dsimp only
  cases hm : o.mapM (fun pc => (decodePath σ pc.1).map fun l => (l, pc.2)) with
  | none => rw [hm] at h; exact (nomatch h)
  | some r =>
    rw [hm] at h
    obtain rfl := Except.ok.inj h
    rw [mapM_take _ o k hm]

end kshortest

/-! Non-vacuity: a matrix with three feasible assignments, and a request for five subsets of two elements. -/

example : ∃ rows, Murty.murty exC 3 = .ok rows ∧ rows.length = 3 ∧ Murty.murty exC 2 = .ok (rows.take 2) := by
  obtain ⟨rows, h1, h2⟩ := C128_murty_prefix exC (by decide) 2 3 (by decide)
  refine ⟨rows, h1, ?_, h2⟩
  have : (Murty.murty exC 3).toOption.map List.length = some 3 := by decide +kernel
  rw [h1] at this
  exact Option.some.inj this

example : (KShortest.kShortest (n := 2) (K := ℤ) (fun i => if i = 0 then 20 else 10) (Equiv.refl _) 1 3).toOption =
    some [([], 1), ([1], 11), ([0], 21)] := by
  have h := C08_witness
  cases hk : KShortest.kShortest (n := 2) (K := ℤ) (fun i => if i = 0 then 20 else 10) (Equiv.refl _) 1 5 with
  | error e => rw [hk] at h; exact (nomatch h)
  | ok out =>
    rw [hk] at h
    obtain rfl := Option.some.inj h
    rw [C128_k_shortest_prefix _ _ _ 3 5 (by decide) _ hk]
    rfl

end Gasur.Props
