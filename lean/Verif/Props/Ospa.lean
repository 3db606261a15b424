import Verif.Proofs.OspaSym
import Mathlib.Data.Fin.VecNotation

/-!
# C39 - C43, C61: OSPA and OSPA(2)

`lsa` stands for `scipy.optimize.linear_sum_assignment`; the hypothesis everywhere is that it returns an optimal
assignment. Such a function exists: `Gasur.Ospa.exists_lsa`.
-/

namespace Gasur.Props

open Gasur.Spec Gasur.Ospa

variable {s : ℕ}

/-- All objects of the arrays have positive definite covariances. -/
def AllPD (rows : List (Row (Obj s))) : Prop := ∀ r ∈ rows, ∀ x : Obj s, some x ∈ r → x.cov.PosDef

/-- The Hellinger distance is only used with the covariances of the estimates there: then `calculate_ospa` runs through
its loop. -/
theorem calculateOspa_given {lsa : Lsa} {est truth : List (Row (Obj s))} {c : ℝ} {p : ℕ} {useEmpty : Bool}
    {method : Option Method} {hasTrueCov hasEstCov : Bool}
    (hcov : effMethod method hasTrueCov hasEstCov = .hellinger → hasEstCov = true) :
    calculateOspa lsa est truth c p useEmpty method hasTrueCov hasEstCov =
      ospaGiven lsa est truth c p useEmpty method hasTrueCov hasEstCov := by
  unfold calculateOspa
  rw [if_neg]
  rintro ⟨h1, h2, _⟩
  rw [hcov h1] at h2
  exact absurd h2 (by simp)

theorem calculateOspa_of_ok {lsa : Lsa} {est truth : List (Row (Obj s))} {c : ℝ} {p : ℕ} {useEmpty : Bool}
    {method : Option Method} {hasTrueCov hasEstCov : Bool} {out : List (ℝ × ℝ)}
    (h : calculateOspa lsa est truth c p useEmpty method hasTrueCov hasEstCov = .ok out) :
    ospaGiven lsa est truth c p useEmpty method hasTrueCov hasEstCov = .ok out ∧
      ¬ (effMethod method hasTrueCov hasEstCov = .hellinger ∧ hasEstCov = false ∧ Meet est truth) := by
  unfold calculateOspa at h
  split at h
  · exact absurd h (by simp)
  · exact ⟨h, by assumption⟩

/-- The same for OSPA(2). -/
theorem calculateOspa2_given {lsa : Lsa} {est truth : List (Row (Obj s))} {c : ℝ} {p winLen : ℕ}
    {method : Option Method} {hasTrueCov hasEstCov : Bool}
    (hcov : effMethod method hasTrueCov hasEstCov = .hellinger → hasEstCov = true) :
    calculateOspa2 lsa est truth c p winLen method hasTrueCov hasEstCov =
      ospa2 lsa (effCut (effMethod method hasTrueCov hasEstCov) c) p winLen
        (coreDist (effMethod method hasTrueCov hasEstCov)) est truth := by
  unfold calculateOspa2
  rw [if_neg]
  rintro ⟨h1, h2, _⟩
  rw [hcov h1] at h2
  exact absurd h2 (by simp)

theorem calculateOspa2_of_ok {lsa : Lsa} {est truth : List (Row (Obj s))} {c : ℝ} {p winLen : ℕ}
    {method : Option Method} {hasTrueCov hasEstCov : Bool} {out : List (Except OErr (ℝ × ℝ))}
    (h : calculateOspa2 lsa est truth c p winLen method hasTrueCov hasEstCov = .ok out) :
    ospa2 lsa (effCut (effMethod method hasTrueCov hasEstCov) c) p winLen
        (coreDist (effMethod method hasTrueCov hasEstCov)) est truth = .ok out ∧
      ¬ (effMethod method hasTrueCov hasEstCov = .hellinger ∧ hasEstCov = false ∧ Meet est truth) := by
  unfold calculateOspa2 at h
  split at h
  · exact absurd h (by simp)
  · exact ⟨h, by assumption⟩

theorem meet_comm {X Y : Type*} (est : List (Row X)) (truth : List (Row Y)) : Meet truth est ↔ Meet est truth := by
  unfold Meet
  constructor <;>
  · rintro ⟨⟨a, b⟩, hm, h1, h2⟩
    rw [← List.zip_swap] at hm
    obtain ⟨x, hx, he⟩ := List.mem_map.1 hm
    refine ⟨x, hx, ?_⟩
    cases x
    cases he
    exact ⟨h2, h1⟩

/-- **C39** (partial: the total is at most `c` only for `p = 1`, see `C39_total_refuted`; in general it is at most
`2 c`). `calculate_ospa` returns one value per time step of the truth, and both components are in `[0, c]`. -/
theorem C39_ospa_bounded_partial (lsa : Lsa) (hl : ∀ m n D, IsOptimal D (lsa m n D))
    (est truth : List (Row (Obj s))) (c : ℝ) (hc : 0 ≤ c) (p : ℕ) (hp : 1 ≤ p) (method : Option Method)
    (hasTrueCov hasEstCov : Bool) (hlen : truth.length ≤ est.length)
    (hcov : effMethod method hasTrueCov hasEstCov = .hellinger → hasEstCov = true)
    (hpd : effMethod method hasTrueCov hasEstCov = .hellinger → AllPD est ∧ AllPD truth) :
    ∃ out, calculateOspa lsa est truth c p true method hasTrueCov hasEstCov = .ok out ∧
      out.length = truth.length ∧
      ∀ r ∈ out, 0 ≤ r.1 ∧ r.1 ≤ c ∧ 0 ≤ r.2 ∧ r.2 ≤ c ∧ r.1 ^ p + r.2 ^ p ≤ c ^ p ∧
        0 ≤ total r ∧ total r ≤ 2 * c ∧ (p = 1 → total r ≤ c) := by
  rw [calculateOspa_given hcov]
  have hb := effCut_bounds (effMethod method hasTrueCov hasEstCov) hc
  obtain ⟨out, ho, hf⟩ := ospaLoop_forall (lsa := lsa) (c := effCut (effMethod method hasTrueCov hasEstCov) c)
    (p := p) (ue := true) (d := coreDist (effMethod method hasTrueCov hasEstCov))
    (fun _ _ r => 0 ≤ r.1 ∧ 0 ≤ r.2 ∧ r.1 ^ p + r.2 ^ p ≤ effCut (effMethod method hasTrueCov hasEstCov) c ^ p)
    est truth hlen (fun a ha => by
      have hz := List.of_mem_zip ha
      obtain ⟨l, r, h1, h2⟩ := ospaStep_bounds hl hb.1 (by omega : p ≠ 0)
        (coreDist (effMethod method hasTrueCov hasEstCov)) a.1 a.2
        (fun x hx y hy => coreDist_nonneg _ _ _ fun h =>
          ⟨(hpd h).1 a.1 hz.1 x hx, (hpd h).2 a.2 hz.2 y hy⟩)
      exact ⟨(l, r), h1, h2⟩)
  refine ⟨out, ho, ?_, ?_⟩
  · rw [← hf.length_eq, List.length_zip]; omega
  · intro r hr
    obtain ⟨h1, h2, h3⟩ := forall₂_right hf (fun _ _ h => h) r hr
    have h4 : r.1 ^ p + r.2 ^ p ≤ c ^ p := h3.trans (pow_le_pow_left₀ hb.1 hb.2 p)
    obtain ⟨h5, h6⟩ := le_of_pow_add hc (by omega) h1 h2 h4
    refine ⟨h1, h5, h2, h6, h4, add_nonneg h1 h2, by unfold total; linarith, ?_⟩
    rintro rfl
    simpa [total] using h4

/-- A concrete case of `C39_ospa_bounded_partial`: one estimated and two true objects. -/
example : ∃ (lsa : Lsa) (est truth : List (Row (Obj 1))), (∀ m n D, IsOptimal D (lsa m n D)) ∧
    truth.length ≤ est.length ∧ est = [[some (pt 0)]] ∧ truth = [[some (pt 2), some (pt 2)]] := by
  obtain ⟨lsa, h⟩ := exists_lsa
  exact ⟨lsa, _, _, h, by simp, rfl, rfl⟩

/-- **C39**, the bound on the total is false for `p = 2`: one estimate, two true objects, all further apart than
the cut-off `c = 1`; the total is `√2`. -/
theorem C39_total_refuted : ¬ ∀ (lsa : Lsa), (∀ m n D, IsOptimal D (lsa m n D)) →
    ∀ (est truth : List (Row (Obj 1))) (c : ℝ) (p : ℕ) (out : List (ℝ × ℝ)), 0 < c → 1 ≤ p →
      calculateOspa lsa est truth c p true none false false = .ok out → ∀ r ∈ out, total r ≤ c := by
  intro h
  obtain ⟨lsa, hl⟩ := exists_lsa
  obtain ⟨l, r, hs, v, hm, h1, h2⟩ := ospaStep_packed hl zero_le_one two_ne_zero true
    (coreDist (s := 1) .euclidean) (e := [some (pt 0)]) (t := [some (pt 2), some (pt 2)])
    ⟨[pt 0], 0, rfl⟩ ⟨[pt 2, pt 2], 0, rfl⟩
  have hout : calculateOspa lsa [[some (pt 0)]] [[some (pt 2), some (pt 2)]] 1 2 true
      none false false = .ok [(l, r)] := by
    rw [calculateOspa_given (by decide)]
    unfold ospaGiven
    have e1 : effMethod none false false = .euclidean := rfl
    have e2 : effCut .euclidean 1 = 1 := by simp [effCut]
    rw [e1, e2, ospaLoop_cons, hs]; rfl
  have hle := h lsa hl _ _ 1 2 _ one_pos (by norm_num) hout (l, r) (by simp)
  have hv : v = (min 1 2 : ℕ) * 1 := by
    refine minCost_const (fun i j => ?_) hm
    have hx : ∀ x ∈ List.reduceOption [some (pt 0)], x = pt 0 := by simp [List.reduceOption]
    have hy : ∀ x ∈ List.reduceOption [some (pt 2), some (pt 2)], x = pt 2 := by simp [List.reduceOption]
    show min (coreDist .euclidean (List.get _ _) (List.get _ _)) 1 ^ 2 = 1
    rw [hx _ (List.get_mem _ _), hy _ (List.get_mem _ _), coreDist_pt]
    norm_num
  subst hv
  have e1 : (List.reduceOption [some (pt 0)]).length = 1 := rfl
  have e2 : (List.reduceOption [some (pt 2), some (pt 2)]).length = 2 := rfl
  rw [e1, e2] at h1 h2
  have hl2 : l ^ 2 = 1 / 2 := by
    rw [h1, rpow_pow_root (by positivity) two_ne_zero]; norm_num
  have hr2 : r ^ 2 = 1 / 2 := by
    rw [h2, rpow_pow_root (by positivity) two_ne_zero]; norm_num
  have hl0 : 0 ≤ l := by rw [h1]; positivity
  have hr0 : 0 ≤ r := by rw [h2]; positivity
  have hle : l + r ≤ 1 := hle
  have hlp : 0 < l := by
    rcases hl0.lt_or_eq with h | h
    · exact h
    · rw [← h] at hl2; norm_num at hl2
  have hrp : 0 < r := by
    rcases hr0.lt_or_eq with h | h
    · exact h
    · rw [← h] at hr2; norm_num at hr2
  nlinarith [mul_pos hlp hrp]

/-! ### C40 -/

/-- **C40**, symmetry: swapping the estimates and the truth changes nothing, including the exceptions, for every
arrangement of slots (not for the Mahalanobis distance, which uses the covariance of the estimate). -/
theorem C40_ospa_symmetric (lsa : Lsa) (hl : ∀ m n D, IsOptimal D (lsa m n D)) (est truth : List (Row (Obj s)))
    (hlen : est.length = truth.length) (c : ℝ) (p : ℕ) (useEmpty : Bool) (method : Option Method)
    (hasTrueCov hasEstCov : Bool) (hm : effMethod method hasTrueCov hasEstCov ≠ .mahalanobis) :
    calculateOspa lsa truth est c p useEmpty method hasTrueCov hasEstCov =
      calculateOspa lsa est truth c p useEmpty method hasTrueCov hasEstCov := by
  unfold calculateOspa ospaGiven
  rw [show Meet truth est = Meet est truth from propext (meet_comm est truth)]
  congr 1
  rw [← ospaLoop_swap hl _ p useEmpty _ est truth hlen]
  congr 1
  funext x y
  exact coreDist_symm hm x y

example : effMethod (some .manhattan) false false ≠ .mahalanobis := by decide

/-- **C40** (partial: only if the objects occupy the first slots at each time step). `calculate_ospa` returns the
localisation and cardinality components of the OSPA distance between the objects that exist. -/
theorem C40_ospa_is_ospa_partial (lsa : Lsa) (hl : ∀ m n D, IsOptimal D (lsa m n D))
    (est truth : List (Row (Obj s))) (hlen : truth.length ≤ est.length) (c : ℝ) (hc : 0 ≤ c) (p : ℕ) (hp : 1 ≤ p)
    (useEmpty : Bool) (method : Option Method) (hasTrueCov hasEstCov : Bool)
    (hcov : effMethod method hasTrueCov hasEstCov = .hellinger → hasEstCov = true)
    (he : ∀ r ∈ est, Packed r)
    (ht : ∀ r ∈ truth, Packed r) :
    ∃ out, calculateOspa lsa est truth c p useEmpty method hasTrueCov hasEstCov = .ok out ∧
      List.Forall₂ (fun (a : Row (Obj s) × Row (Obj s)) r =>
        IsOspa (effCut (effMethod method hasTrueCov hasEstCov) c) p
          (coreDist (effMethod method hasTrueCov hasEstCov)) a.1.reduceOption a.2.reduceOption r.1 r.2)
        (est.zip truth) out := by
  rw [calculateOspa_given hcov]
  have hb := effCut_bounds (effMethod method hasTrueCov hasEstCov) hc
  refine ospaLoop_forall (fun e t (r : ℝ × ℝ) => IsOspa (effCut (effMethod method hasTrueCov hasEstCov) c) p
          (coreDist (effMethod method hasTrueCov hasEstCov)) e.reduceOption t.reduceOption r.1 r.2)
    est truth hlen (fun a ha => ?_)
  have hz := List.of_mem_zip ha
  obtain ⟨l, r, h1, h2⟩ := ospaStep_packed hl hb.1 (by omega : p ≠ 0) useEmpty
    (coreDist (effMethod method hasTrueCov hasEstCov)) (he _ hz.1) (ht _ hz.2)
  exact ⟨(l, r), h1, h2⟩

example : ∀ r ∈ [[some (pt 0), some (pt 1), none], [none, none, none]], Packed r := by
  intro r hr
  simp at hr
  rcases hr with rfl | rfl
  · exact ⟨[pt 0, pt 1], 1, rfl⟩
  · exact ⟨[], 3, rfl⟩

/-- **C40** (partial, as before): permuting the objects of a time step changes nothing. -/
theorem C40_ospa_permutation_partial (lsa : Lsa) (hl : ∀ m n D, IsOptimal D (lsa m n D))
    (est truth est' truth' : List (Row (Obj s))) (hlen : truth.length ≤ est.length) (c : ℝ) (hc : 0 ≤ c) (p : ℕ)
    (hp : 1 ≤ p) (useEmpty : Bool) (method : Option Method) (hasTrueCov hasEstCov : Bool)
    (hcov : effMethod method hasTrueCov hasEstCov = .hellinger → hasEstCov = true)
    (he : ∀ r ∈ est, Packed r)
    (ht : ∀ r ∈ truth, Packed r)
    (he' : ∀ r ∈ est', Packed r)
    (ht' : ∀ r ∈ truth', Packed r)
    (hpe : List.Forall₂ List.Perm est est') (hpt : List.Forall₂ List.Perm truth truth') :
    calculateOspa lsa est' truth' c p useEmpty method hasTrueCov hasEstCov =
      calculateOspa lsa est truth c p useEmpty method hasTrueCov hasEstCov := by
  obtain ⟨out, h, hf⟩ := C40_ospa_is_ospa_partial lsa hl est truth hlen c hc p hp useEmpty method hasTrueCov
    hasEstCov hcov he ht
  obtain ⟨out', h', hf'⟩ := C40_ospa_is_ospa_partial lsa hl est' truth'
    (by rw [← hpe.length_eq, ← hpt.length_eq]; exact hlen) c hc p hp useEmpty method hasTrueCov hasEstCov hcov he' ht'
  rw [h, h']
  congr 1
  clear h h' he ht he' ht' hlen
  induction hpe generalizing truth truth' out out' with
  | nil =>
    simp at hf hf'
    rw [hf, hf']
  | cons hx _ ih =>
    cases hpt with
    | nil => simp at hf hf'; rw [hf, hf']
    | cons hy hpt =>
      rw [List.zip_cons_cons] at hf hf'
      cases hf with
      | cons h1 h2 =>
        cases hf' with
        | cons h1' h2' =>
          have hu := isOspa_unique (isOspa_perm (hx.filterMap id) (hy.filterMap id) h1) h1'
          rw [ih _ _ hpt _ h2 _ h2', Prod.ext hu.1 hu.2]

/-- **C40** (partial, as before): the value at a time step is zero exactly if the same states exist (with the same
multiplicity), for the Euclidean and Manhattan distances. -/
theorem C40_ospa_zero_iff_partial (lsa : Lsa) (hl : ∀ m n D, IsOptimal D (lsa m n D))
    (est truth : List (Row (Obj s))) (hlen : truth.length ≤ est.length) (c : ℝ) (hc : 0 < c) (p : ℕ) (hp : 1 ≤ p)
    (useEmpty : Bool) (method : Option Method) (hasTrueCov hasEstCov : Bool)
    (hm : effMethod method hasTrueCov hasEstCov = .euclidean ∨ effMethod method hasTrueCov hasEstCov = .manhattan)
    (he : ∀ r ∈ est, Packed r)
    (ht : ∀ r ∈ truth, Packed r) :
    ∃ out, calculateOspa lsa est truth c p useEmpty method hasTrueCov hasEstCov = .ok out ∧
      List.Forall₂ (fun (a : Row (Obj s) × Row (Obj s)) r => total r = 0 ↔
        (a.1.reduceOption.map Obj.x).Perm (a.2.reduceOption.map Obj.x)) (est.zip truth) out := by
  obtain ⟨out, h, hf⟩ := C40_ospa_is_ospa_partial lsa hl est truth hlen c hc.le p hp useEmpty method hasTrueCov
    hasEstCov (by intro h; rcases hm with hm | hm <;> rw [hm] at h <;> cases h) he ht
  refine ⟨out, h, hf.imp fun a r ho => ?_⟩
  refine isOspa_zero_iff (effCut_pos _ hc) (by omega) (fun x _ y _ => coreDist_nonneg _ _ _ ?_) Obj.x Obj.x
    (fun x _ y _ => coreDist_eq_zero hm x y) ho
  intro h
  rcases hm with hm | hm <;> rw [hm] at h <;> cases h

/-- **C40/C41** are false in general: with the object in the second slot the value is `c` although the estimate is
perfect, and moving it to the first slot changes the value to zero. -/
theorem C40_permutation_refuted (lsa : Lsa) (hl : ∀ m n D, IsOptimal D (lsa m n D)) (c : ℝ) (hc : 0 < c) (p : ℕ)
    (hp : 1 ≤ p) (a : ℝ) :
    calculateOspa lsa [[none, some (pt a)]] [[some (pt a), none]] c p true none false false = .ok [(c, 0)] ∧
    calculateOspa lsa [[some (pt a), none]] [[some (pt a), none]] c p true none false false = .ok [(0, 0)] := by
  have e1 : effMethod none false false = .euclidean := rfl
  have e2 : effCut .euclidean c = c := by simp [effCut]
  rw [calculateOspa_given (by decide), calculateOspa_given (by decide)]
  unfold ospaGiven
  rw [e1, e2, ospaLoop_cons, ospaLoop_cons]
  rw [ospaStep_one hl hc.le (by omega) true _ [none, some (pt a)] [some (pt a), none] rfl rfl hc.le
      (by show some (min c c) = some c; rw [min_self]),
    ospaStep_one hl hc.le (by omega) true _ [some (pt a), none] [some (pt a), none] rfl rfl le_rfl
      (by show some (min (coreDist .euclidean (pt a) (pt a)) c) = some 0
          rw [coreDist_pt]; simp [hc.le])]
  exact ⟨rfl, rfl⟩

/-! ### C41 -/

/-- **C41** (partial: the objects occupy the first slots). If at every time step the estimated states are the true
states, in any order, OSPA is zero at every step. -/
theorem C41_perfect_estimate_partial (lsa : Lsa) (hl : ∀ m n D, IsOptimal D (lsa m n D))
    (est truth : List (Row (Obj s))) (c : ℝ) (hc : 0 < c) (p : ℕ) (hp : 1 ≤ p)
    (useEmpty : Bool) (method : Option Method) (hasTrueCov hasEstCov : Bool)
    (hm : effMethod method hasTrueCov hasEstCov = .euclidean ∨ effMethod method hasTrueCov hasEstCov = .manhattan)
    (he : ∀ r ∈ est, Packed r)
    (ht : ∀ r ∈ truth, Packed r)
    (hsame : List.Forall₂ (fun e t => (e.reduceOption.map Obj.x).Perm (t.reduceOption.map Obj.x)) est truth) :
    ∃ out, calculateOspa lsa est truth c p useEmpty method hasTrueCov hasEstCov = .ok out ∧
      out.length = truth.length ∧ ∀ r ∈ out, total r = 0 := by
  obtain ⟨out, h, hf⟩ := C40_ospa_zero_iff_partial lsa hl est truth hsame.length_eq.ge c hc p hp useEmpty method
    hasTrueCov hasEstCov hm he ht
  refine ⟨out, h, ?_, ?_⟩
  · rw [← hf.length_eq, List.length_zip, hsame.length_eq, min_self]
  · intro r hr
    obtain ⟨i, hi, rfl⟩ := List.getElem_of_mem hr
    have hi' : i < (est.zip truth).length := by rw [hf.length_eq]; exact hi
    have h1 := (List.forall₂_iff_get.1 hf).2 i hi' hi
    have h2 := (List.forall₂_iff_get.1 hsame).2 i (by rw [List.length_zip] at hi'; omega)
      (by rw [List.length_zip] at hi'; omega)
    simp only [List.get_eq_getElem, List.getElem_zip] at h1 h2
    exact h1.2 h2

theorem callOspa_given {lsa : Lsa} {est truth : List (Row (Obj s))} {c : ℝ} {p : ℕ}
    {method : Option Method} {hasTrueCov hasEstCov : Bool}
    (hcov : effMethod method hasTrueCov hasEstCov = .hellinger → hasEstCov = true) :
    callOspa lsa est truth c p method hasTrueCov hasEstCov =
      ospaGiven lsa est truth c p true method hasTrueCov hasEstCov := by
  unfold callOspa
  rw [if_neg]
  rintro ⟨h1, h2, _⟩
  rw [hcov h1] at h2
  exact absurd h2 (by simp)

/-- **C41** for the PHD filters: extracted and true states are lists without `None`, so the value at each time step
is the OSPA distance of the two lists whatever their lengths. -/
theorem C41_phd_ospa_exact (lsa : Lsa) (hl : ∀ m n D, IsOptimal D (lsa m n D)) (est truth : List (List (Obj s)))
    (hlen : truth.length ≤ est.length) (c : ℝ) (hc : 0 ≤ c) (p : ℕ) (hp : 1 ≤ p) (method : Option Method)
    (hasTrueCov hasEstCov : Bool)
    (hcov : effMethod method hasTrueCov hasEstCov = .hellinger → hasEstCov = true) :
    ∃ out, filterOspa lsa (est.map (·.map some)) (truth.map (·.map some)) c p method hasTrueCov hasEstCov =
        .ok out ∧
      List.Forall₂ (fun (a : List (Obj s) × List (Obj s)) r =>
        IsOspa (effCut (effMethod method hasTrueCov hasEstCov) c) p
          (coreDist (effMethod method hasTrueCov hasEstCov)) a.1 a.2 r.1 r.2) (est.zip truth) out := by
  unfold filterOspa
  rw [setupMat_map_some, setupMat_map_some]
  simp only
  rw [callOspa_given hcov, ← calculateOspa_given hcov]
  obtain ⟨out, h, hf⟩ := C40_ospa_is_ospa_partial lsa hl
    (est.map fun xs => xs.map some ++ List.replicate (numObjs (est.map (·.map some)) - xs.length) none)
    (truth.map fun xs => xs.map some ++ List.replicate (numObjs (truth.map (·.map some)) - xs.length) none)
    (by simpa using hlen) c hc p hp true method hasTrueCov hasEstCov hcov
    (by intro r hr; obtain ⟨xs, _, rfl⟩ := List.mem_map.1 hr; exact ⟨xs, _, rfl⟩)
    (by intro r hr; obtain ⟨xs, _, rfl⟩ := List.mem_map.1 hr; exact ⟨xs, _, rfl⟩)
  refine ⟨out, h, ?_⟩
  rw [List.zip_map, List.forall₂_map_left_iff] at hf
  refine hf.imp fun a r ho => ?_
  simp only [Prod.map_fst, Prod.map_snd] at ho
  rwa [packed_reduce, packed_reduce] at ho

/-- **C41** is false for the GLMB filters: the first track dies and a second one is born; the estimates are exactly
the true states, but at the second time step OSPA is the cut-off. -/
theorem C41_glmb_refuted (lsa : Lsa) (hl : ∀ m n D, IsOptimal D (lsa m n D)) (c : ℝ) (hc : 0 < c) (p : ℕ)
    (hp : 1 ≤ p) (a b : ℝ) :
    glmbOspa lsa [[(0 : ℕ)], [1]] [[pt a], [pt b]] [[some (pt a)], [some (pt b)]] c p none false false =
      .ok [(0, 0), (c, 0)] := by
  have e1 : effMethod none false false = .euclidean := rfl
  have e2 : effCut .euclidean c = c := by simp [effCut]
  have hs : setupMat [[some (pt a)], [some (pt b)]] = .ok [[some (pt a)], [some (pt b)]] :=
    setupMat_map_some [[pt a], [pt b]]
  have hlab : setupLabels [[(0 : ℕ)], [1]] [[pt a], [pt b]] = [[some (pt a), none], [none, some (pt b)]] := rfl
  unfold glmbOspa
  rw [hs, hlab]
  simp only
  rw [callOspa_given (by decide)]
  unfold ospaGiven
  rw [e1, e2, ospaLoop_cons, ospaLoop_cons]
  rw [ospaStep_one hl hc.le (by omega) true _ [some (pt a), none] [some (pt a)] rfl rfl le_rfl
      (by show some (min (coreDist .euclidean (pt a) (pt a)) c) = some 0
          rw [coreDist_pt]; simp [hc.le]),
    ospaStep_one hl hc.le (by omega) true _ [none, some (pt b)] [some (pt b)] rfl rfl hc.le
      (by show some (min c c) = some c; rw [min_self])]
  rfl

/-! ### C42 -/

/-- **C42**: whenever `calculate_ospa2` returns, its value at time step `tt` is the OSPA distance between the tracks
that exist in the window of the last `winLen` steps, with the time-averaged distance between two tracks. -/
theorem C42_ospa2_value (lsa : Lsa) (hl : ∀ m n D, IsOptimal D (lsa m n D)) (est truth : List (Row (Obj s)))
    (hlen : truth.length ≤ est.length) (N M : ℕ) (hN : ∀ r ∈ est, r.length = N) (hM : ∀ r ∈ truth, r.length = M)
    (c : ℝ) (hc : 0 ≤ c) (p winLen : ℕ) (method : Option Method) (hasTrueCov hasEstCov : Bool)
    (out : List (Except OErr (ℝ × ℝ)))
    (h : calculateOspa2 lsa est truth c p winLen method hasTrueCov hasEstCov = .ok out) :
    1 ≤ p ∧ out.length = truth.length ∧ ∀ tt < truth.length, ∃ l r, out[tt]? = some (.ok (l, r)) ∧
      IsOspa (effCut (effMethod method hasTrueCov hasEstCov) c) p
        (trackAvg (effCut (effMethod method hasTrueCov hasEstCov) c)
          (coreDist (effMethod method hasTrueCov hasEstCov)))
        (liveTracks est N tt winLen) (liveTracks truth M tt winLen) l r := by
  have hb := effCut_bounds (effMethod method hasTrueCov hasEstCov) hc
  replace h := (calculateOspa2_of_ok h).1
  unfold ospa2 at h
  split at h
  · exact absurd h (by simp)
  · by_cases hp : p = 0
    · rw [if_pos hp] at h; exact absurd h (by simp)
    · rw [if_neg hp] at h
      simp only [Except.ok.injEq] at h
      subst h
      refine ⟨by omega, by simp, fun tt htt => ?_⟩
      obtain ⟨l, r, h1, h2⟩ := ospa2Step_ok hl hb.1 hp (coreDist (effMethod method hasTrueCov hasEstCov))
        (validHist est (window tt winLen)) (validHist truth (window tt winLen))
      refine ⟨l, r, ?_, ?_⟩
      · rw [List.getElem?_map, List.getElem?_range htt]; simp only [Option.map_some, h1]
      · have hne : truth ≠ [] := by rintro rfl; simp at htt
        have hne' : est ≠ [] := by rintro rfl; simp at hlen; exact hne hlen
        rw [validHist_eq, validHist_eq, numSlots_const hN hne', numSlots_const hM hne] at h2
        exact h2

/-- **C42**: whenever `calculate_ospa2` returns, both components are in `[0, c]`. -/
theorem C42_ospa2_bounded (lsa : Lsa) (hl : ∀ m n D, IsOptimal D (lsa m n D)) (est truth : List (Row (Obj s)))
    (c : ℝ) (hc : 0 ≤ c) (p winLen : ℕ) (method : Option Method) (hasTrueCov hasEstCov : Bool)
    (hpd : effMethod method hasTrueCov hasEstCov = .hellinger → AllPD est ∧ AllPD truth)
    (out : List (Except OErr (ℝ × ℝ)))
    (h : calculateOspa2 lsa est truth c p winLen method hasTrueCov hasEstCov = .ok out) :
    out.length = truth.length ∧ ∀ o ∈ out, ∃ l r, o = .ok (l, r) ∧ 0 ≤ l ∧ l ≤ c ∧ 0 ≤ r ∧ r ≤ c ∧
      l ^ p + r ^ p ≤ c ^ p := by
  have hb := effCut_bounds (effMethod method hasTrueCov hasEstCov) hc
  replace h := (calculateOspa2_of_ok h).1
  unfold ospa2 at h
  split at h
  · exact absurd h (by simp)
  · by_cases hp : p = 0
    · rw [if_pos hp] at h; exact absurd h (by simp)
    · rw [if_neg hp] at h
      simp only [Except.ok.injEq] at h
      subst h
      refine ⟨by simp, fun o ho => ?_⟩
      obtain ⟨tt, _, rfl⟩ := List.mem_map.1 ho
      obtain ⟨l, r, h1, v, h2, h3, h4⟩ := ospa2Step_ok hl hb.1 hp
        (coreDist (effMethod method hasTrueCov hasEstCov))
        (validHist est (window tt winLen)) (validHist truth (window tt winLen))
      have hcell := fun i j => trackAvg_bounds (d := coreDist (effMethod method hasTrueCov hasEstCov)) hb.1
        (hx := (validHist est (window tt winLen)).get i) (hy := (validHist truth (window tt winLen)).get j)
        (fun x hx y hy => coreDist_nonneg _ _ _ fun hh => by
          obtain ⟨r1, hr1, hx1⟩ := mem_validHist (List.get_mem _ _) hx
          obtain ⟨r2, hr2, hx2⟩ := mem_validHist (List.get_mem _ _) hy
          exact ⟨(hpd hh).1 r1 hr1 x hx1, (hpd hh).2 r2 hr2 y hx2⟩)
      have hc1 : ∀ i j, 0 ≤ cutMat (effCut (effMethod method hasTrueCov hasEstCov) c) p
          (trackAvg (effCut (effMethod method hasTrueCov hasEstCov) c)
            (coreDist (effMethod method hasTrueCov hasEstCov)))
          (validHist est (window tt winLen)) (validHist truth (window tt winLen)) i j := fun i j =>
        pow_nonneg (le_min (hcell i j).1 hb.1) p
      obtain ⟨h5, h6, h7⟩ := components hb.1 hp (minCost_nonneg hc1 h2)
        (minCost_le (fun i j => pow_le_pow_left₀ (le_min (hcell i j).1 hb.1) (min_le_right _ _) p) h2) h3 h4
      have h8 : l ^ p + r ^ p ≤ c ^ p := h7.trans (pow_le_pow_left₀ hb.1 hb.2 p)
      obtain ⟨h9, h10⟩ := le_of_pow_add hc hp h5 h6 h8
      exact ⟨l, r, h1, h5, h9, h6, h10, h8⟩

/-- **C42**: swapping the estimates and the truth changes nothing, including the exceptions. -/
theorem C42_ospa2_symmetric (lsa : Lsa) (hl : ∀ m n D, IsOptimal D (lsa m n D)) (est truth : List (Row (Obj s)))
    (hlen : est.length = truth.length) (c : ℝ) (hc : 0 ≤ c) (p winLen : ℕ) (method : Option Method)
    (hasTrueCov hasEstCov : Bool) (hm : effMethod method hasTrueCov hasEstCov ≠ .mahalanobis) :
    calculateOspa2 lsa truth est c p winLen method hasTrueCov hasEstCov =
      calculateOspa2 lsa est truth c p winLen method hasTrueCov hasEstCov := by
  unfold calculateOspa2
  rw [show Meet truth est = Meet est truth from propext (meet_comm est truth)]
  congr 1
  rw [← ospa2_swap hl (effCut_bounds _ hc).1 winLen _ est truth hlen]
  congr 1
  funext x y
  exact coreDist_symm hm x y

/-- **C42** (partial: only if both calls return). Permuting the tracks of the estimates and of the truth changes
nothing. -/
theorem C42_ospa2_relabel_partial (lsa : Lsa) (hl : ∀ m n D, IsOptimal D (lsa m n D))
    (est truth est' truth' : List (Row (Obj s))) (hre : Relabelled est est') (hrt : Relabelled truth truth')
    (c : ℝ) (hc : 0 ≤ c) (p winLen : ℕ) (method : Option Method) (hasTrueCov hasEstCov : Bool)
    (out out' : List (Except OErr (ℝ × ℝ)))
    (h : calculateOspa2 lsa est truth c p winLen method hasTrueCov hasEstCov = .ok out)
    (h' : calculateOspa2 lsa est' truth' c p winLen method hasTrueCov hasEstCov = .ok out') : out' = out := by
  have hb := effCut_bounds (effMethod method hasTrueCov hasEstCov) hc
  replace h := (calculateOspa2_of_ok h).1
  replace h' := (calculateOspa2_of_ok h').1
  unfold ospa2 at h h'
  split at h
  · exact absurd h (by simp)
  · split at h'
    · exact absurd h' (by simp)
    · by_cases hp : p = 0
      · rw [if_pos hp] at h; exact absurd h (by simp)
      · rw [if_neg hp] at h h'
        simp only [Except.ok.injEq] at h h'
        subst h; subst h'
        rw [← hrt.1]
        apply List.map_congr_left
        intro tt _
        obtain ⟨l, r, h1, h2⟩ := ospa2Step_ok hl hb.1 hp (coreDist (effMethod method hasTrueCov hasEstCov))
          (validHist est (window tt winLen)) (validHist truth (window tt winLen))
        obtain ⟨l', r', h1', h2'⟩ := ospa2Step_ok hl hb.1 hp (coreDist (effMethod method hasTrueCov hasEstCov))
          (validHist est' (window tt winLen)) (validHist truth' (window tt winLen))
        obtain ⟨e1, e2⟩ := isOspa_unique
          (isOspa_perm (validHist_relabel hre tt winLen) (validHist_relabel hrt tt winLen) h2) h2'
        rw [h1, h1', e1, e2]

/-- A relabelling that meets the hypotheses of `C42_ospa2_relabel_partial`. -/
example : Relabelled [[some (pt 0), none], [some (pt 1), some (pt 2)]]
    [[none, some (pt 0)], [some (pt 2), some (pt 1)]] := by
  refine ⟨rfl, 2, Equiv.swap 0 1, by simp, by simp, ?_⟩
  intro tt i
  match tt, i with
  | 0, 0 => rfl
  | 0, 1 => rfl
  | 1, 0 => rfl
  | 1, 1 => rfl
  | tt + 2, i => simp [objAt]

/-- **C42**: with a window of one step, OSPA(2) is the OSPA distance of the objects that exist, whatever slots they
occupy; so it equals `calculate_ospa` when the objects occupy the first slots (`C40_ospa_is_ospa_partial`). -/
theorem C42_ospa2_window_one (lsa : Lsa) (hl : ∀ m n D, IsOptimal D (lsa m n D)) (est truth : List (Row (Obj s)))
    (hlen : truth.length ≤ est.length) (c : ℝ) (hc : 0 ≤ c) (p : ℕ) (method : Option Method)
    (hasTrueCov hasEstCov : Bool) (out : List (Except OErr (ℝ × ℝ)))
    (h : calculateOspa2 lsa est truth c p 1 method hasTrueCov hasEstCov = .ok out) :
    List.Forall₂ (fun (a : Row (Obj s) × Row (Obj s)) o => ∃ l r, o = .ok (l, r) ∧
        IsOspa (effCut (effMethod method hasTrueCov hasEstCov) c) p
          (coreDist (effMethod method hasTrueCov hasEstCov)) a.1.reduceOption a.2.reduceOption l r)
      (est.zip truth) out := by
  have hb := effCut_bounds (effMethod method hasTrueCov hasEstCov) hc
  replace h := (calculateOspa2_of_ok h).1
  unfold ospa2 at h
  split at h
  · exact absurd h (by simp)
  · by_cases hp : p = 0
    · rw [if_pos hp] at h; exact absurd h (by simp)
    · rw [if_neg hp] at h
      simp only [Except.ok.injEq] at h
      subst h
      rw [List.forall₂_iff_get]
      refine ⟨by simp [hlen], fun i hi hi' => ?_⟩
      rw [List.length_zip] at hi
      have h1 : i < est.length := by omega
      have h2 : i < truth.length := by omega
      obtain ⟨l, r, h3, h4⟩ := ospa2Step_ok hl hb.1 hp (coreDist (effMethod method hasTrueCov hasEstCov))
        (validHist est (window i 1)) (validHist truth (window i 1))
      refine ⟨l, r, ?_, ?_⟩
      · simp [h3]
      · rw [validHist_one est (List.getElem?_eq_getElem h1), validHist_one truth (List.getElem?_eq_getElem h2)] at h4
        have := isOspa_one h4
        simpa using this

/-- **C42**: `calculate_ospa2` raises exactly if at some time step both sets are non-empty and among the first
`m` estimated and first `n` true slots (`m`, `n` the numbers of objects) both kinds have an empty one. -/
theorem C42_ospa2_raises_iff (lsa : Lsa) (hl : ∀ m n D, IsOptimal D (lsa m n D)) (est truth : List (Row (Obj s)))
    (hlen : truth.length ≤ est.length) (c : ℝ) (hc : 0 ≤ c) (p : ℕ) (hp : 1 ≤ p) (winLen : ℕ)
    (method : Option Method) (hasTrueCov hasEstCov : Bool)
    (hcov : effMethod method hasTrueCov hasEstCov = .hellinger → hasEstCov = true) :
    (∃ e, calculateOspa2 lsa est truth c p winLen method hasTrueCov hasEstCov = .error e) ↔
      ∃ a ∈ est.zip truth, ∃ i < a.1.reduceOption.length, ∃ j < a.2.reduceOption.length,
        a.1[i]? = some none ∧ a.2[j]? = some none := by
  have hb := effCut_bounds (effMethod method hasTrueCov hasEstCov) hc
  have hcount : ∀ r : Row (Obj s), r.reduceOption.length = count r := by
    intro r
    induction r with
    | nil => rfl
    | cons a r ih => cases a <;> simp [List.reduceOption_cons_of_some, List.reduceOption_cons_of_none, count, ih]
  have hslot : ∀ (r : Row (Obj s)) (i : ℕ), i < count r → (slot r i = none ↔ r[i]? = some none) := by
    intro r i hi
    have : i < r.length := lt_of_lt_of_le hi List.countP_le_length
    unfold slot
    rw [List.getElem?_eq_getElem this]
    simp
  have h1 : (∃ e, calculateOspa2 lsa est truth c p winLen method hasTrueCov hasEstCov = .error e) ↔
      ∃ e, ospaLoop lsa (effCut (effMethod method hasTrueCov hasEstCov) c) 1 false
        (coreDist (effMethod method hasTrueCov hasEstCov)) est truth = .error e := by
    rw [calculateOspa2_given hcov]
    unfold ospa2
    rw [if_neg (by omega : ¬ p = 0)]
    cases ospaLoop lsa (effCut (effMethod method hasTrueCov hasEstCov) c) 1 false
      (coreDist (effMethod method hasTrueCov hasEstCov)) est truth <;> simp
  rw [h1, ospaLoop_error est truth hlen]
  refine exists_congr fun a => and_congr_right fun _ => ?_
  rw [hcount, hcount]
  constructor
  · rintro ⟨x, hx⟩
    by_contra hno
    have hsome : ∀ (i : Fin (count a.1)) (j : Fin (count a.2)), pairDist
        (effCut (effMethod method hasTrueCov hasEstCov) c) false
        (coreDist (effMethod method hasTrueCov hasEstCov)) (slot a.1 i) (slot a.2 j) = some
        ((pairDist (effCut (effMethod method hasTrueCov hasEstCov) c) false
          (coreDist (effMethod method hasTrueCov hasEstCov)) (slot a.1 i) (slot a.2 j)).getD 0) := by
      intro i j
      cases h3 : slot a.1 i with
      | some x => cases slot a.2 j <;> rfl
      | none =>
        cases h4 : slot a.2 j with
        | some y => rfl
        | none =>
          exact absurd ⟨i, i.2, j, j.2, (hslot _ _ i.2).1 h3, (hslot _ _ j.2).1 h4⟩ hno
    obtain ⟨l, r, v, h5, _⟩ := ospaStep_ok hl hb.1 one_ne_zero false
      (coreDist (effMethod method hasTrueCov hasEstCov)) a.1 a.2 _ hsome
    rw [h5] at hx
    exact absurd hx (by simp)
  · rintro ⟨i, hi, j, hj, h3, h4⟩
    have hinv := (assignCost_invalid lsa 1 (count a.1) (count a.2) fun i j =>
      pairDist (effCut (effMethod method hasTrueCov hasEstCov) c) false
        (coreDist (effMethod method hasTrueCov hasEstCov)) (slot a.1 i) (slot a.2 j)).2
      ⟨⟨i, hi⟩, ⟨j, hj⟩, by
        show pairDist _ false _ (slot a.1 i) (slot a.2 j) = none
        rw [(hslot _ _ hi).2 h3, (hslot _ _ hj).2 h4]; rfl⟩
    obtain ⟨e, he⟩ := hinv
    refine ⟨e, ?_⟩
    unfold ospaStep
    rw [if_neg (by omega), if_neg (by omega), he]

/-- **C42**, "never fails" and label-order independence of success are false: with both objects in the second slot
`calculate_ospa2` raises, with both in the first slot it returns. -/
theorem C42_relabel_refuted (lsa : Lsa) (hl : ∀ m n D, IsOptimal D (lsa m n D)) (c : ℝ) (hc : 0 < c) (a : ℝ) :
    (∃ e, calculateOspa2 lsa [[none, some (pt a)]] [[none, some (pt a)]] c 1 1 none false false = .error e) ∧
    (∃ out, calculateOspa2 lsa [[some (pt a), none]] [[some (pt a), none]] c 1 1 none false false = .ok out) := by
  constructor
  · rw [C42_ospa2_raises_iff lsa hl _ _ (by simp) c hc.le 1 le_rfl 1 none false false (by decide)]
    exact ⟨([none, some (pt a)], [none, some (pt a)]), by simp, 0, by simp [List.reduceOption], 0,
      by simp [List.reduceOption], rfl, rfl⟩
  · cases h : calculateOspa2 lsa [[some (pt a), none]] [[some (pt a), none]] c 1 1 none false false with
    | ok out => exact ⟨out, rfl⟩
    | error e =>
      exfalso
      obtain ⟨x, hx, i, hi, j, hj, h1, h2⟩ :=
        (C42_ospa2_raises_iff lsa hl _ _ (by simp) c hc.le 1 le_rfl 1 none false false (by decide)).1 ⟨e, h⟩
      simp at hx
      subst hx
      simp [List.reduceOption] at hi
      subst hi
      simp at h1

/-! ### C43 -/

/-- **C43** (partial: lists with `None` entries can raise, see `C43_refuted`). If the set-up of the matrices
succeeds, the entry at position `k` of each time step's list is in slot `k` of that time step and all other slots
are missing. -/
theorem C43_setup_preserves_partial {X : Type*} (l : List (List (Option X))) (rows : List (Row X))
    (h : setupMat l = .ok rows) :
    rows.length = l.length ∧ ∀ tt k, objAt rows tt k = objAt l tt k := by
  have hf := setupRows_ok h
  refine ⟨hf.length_eq.symm, fun tt k => ?_⟩
  rw [← slot_eq_objAt, ← slot_eq_objAt]
  by_cases htt : tt < l.length
  · have htt' : tt < rows.length := by rw [← hf.length_eq]; exact htt
    rw [List.getElem?_eq_getElem htt, List.getElem?_eq_getElem htt']
    exact ((List.forall₂_iff_get.1 hf).2 tt htt htt').2 k
  · have e1 : l[tt]? = none := List.getElem?_eq_none (by omega)
    have e2 : rows[tt]? = none := List.getElem?_eq_none (by rw [← hf.length_eq]; omega)
    rw [e1, e2]

/-- **C43**: without `None` entries the set-up always succeeds. -/
theorem C43_setup_total {X : Type*} (l : List (List X)) : ∃ rows, setupMat (l.map (·.map some)) = .ok rows :=
  ⟨_, setupMat_map_some l⟩

/-- **C43**: the set-up raises exactly if an object stands at a position that is at least the largest number of
objects at any time. -/
theorem C43_setup_raises_iff {X : Type*} (l : List (List (Option X))) :
    (∃ e, setupMat l = .error e) ↔
      ∃ r ∈ l, ∃ (k : ℕ) (x : X), r[k]? = some (some x) ∧ ∀ r' ∈ l, r'.countP Option.isSome ≤ k := by
  unfold setupMat
  rw [setupRows_error]
  refine exists_congr fun r => and_congr_right fun hr => exists_congr fun k => ?_
  have h1 : (slot r k).isSome ↔ ∃ x, r[k]? = some (some x) := by
    unfold slot
    cases r[k]? with
    | none => simp
    | some a => cases a <;> simp
  have h2 : numObjs l ≤ k ↔ ∀ r' ∈ l, r'.countP Option.isSome ≤ k := by
    unfold numObjs
    constructor
    · intro h r' hr'
      exact (le_foldr_max (List.mem_map.2 ⟨r', hr', rfl⟩)).trans h
    · clear hr h1
      intro h
      induction l with
      | nil => simp
      | cons a l ih =>
        rw [List.map_cons, List.foldr_cons]
        exact max_le (h a (by simp)) (ih fun r' hr' => h r' (by simp [hr']))
  rw [h1, h2]
  constructor
  · rintro ⟨h, x, hx⟩; exact ⟨x, hx, h⟩
  · rintro ⟨x, hx, h⟩; exact ⟨h, x, hx⟩

/-- **C43** is false with `None` entries: an object after a `None` raises. -/
theorem C43_refuted (x : ℝ) : setupMat [[none, some x]] = .error .index := rfl

/-- **C43** for the GLMB filters: with one state per label and no label twice at a time step, each label has its own
slot at all times, each state is in the slot of its label, and all other slots are missing. -/
theorem C43_glmb_setup {X L : Type*} [DecidableEq L] (labels : List (List L)) (states : List (List X))
    (hlen : List.Forall₂ (fun l s => l.length = s.length) labels states) (hnd : ∀ l ∈ labels, l.Nodup) :
    (setupLabels labels states).length = labels.length ∧
    ∃ ind : L → ℕ,
      (∀ tt tt' k k' l l', objAt (labels.map (·.map some)) tt k = some l →
        objAt (labels.map (·.map some)) tt' k' = some l' → ind l = ind l' → l = l') ∧
      ∀ tt q x, objAt (setupLabels labels states) tt q = some x ↔
        ∃ k l, objAt (labels.map (·.map some)) tt k = some l ∧ objAt (states.map (·.map some)) tt k = some x ∧
          ind l = q := by
  refine ⟨by unfold setupLabels; rw [List.length_map, List.length_zip, hlen.length_eq, min_self], 
    (labelOrder labels).idxOf, ?_, ?_⟩
  · intro tt tt' k k' l l' h1 h2 he
    rw [objAt_map_some] at h1
    obtain ⟨r, hr, hl⟩ := h1
    exact (List.idxOf_inj ((mem_labelOrder labels l).2
      ⟨r, List.mem_of_getElem? hr, List.mem_of_getElem? hl⟩)).1 he
  · intro tt q x
    by_cases htt : tt < labels.length
    · have htt' : tt < states.length := by rw [← hlen.length_eq]; exact htt
      have hrow : (setupLabels labels states)[tt]? = some (labelRow (labelOrder labels) labels[tt] states[tt]) := by
        unfold setupLabels
        rw [List.getElem?_map, List.getElem?_eq_getElem (by rw [List.length_zip]; omega)]
        simp
      rw [← slot_eq_objAt, hrow, Option.getD_some,
        (labelRow_spec (labelOrder labels) labels[tt] states[tt] (hnd _ (List.getElem_mem _))
          (by simpa using (List.forall₂_iff_get.1 hlen).2 tt htt htt')
          (fun l hl => (mem_labelOrder labels l).2 ⟨_, List.getElem_mem _, hl⟩)).2]
      refine exists_congr fun k => exists_congr fun l => ?_
      rw [objAt_map_some, objAt_map_some, List.getElem?_eq_getElem htt, List.getElem?_eq_getElem htt']
      simp
    · have h1 : objAt (setupLabels labels states) tt q = none := by
        unfold objAt
        rw [List.getElem?_eq_none]
        · rfl
        · unfold setupLabels; rw [List.length_map, List.length_zip]; omega
      rw [h1]
      constructor
      · intro h; exact absurd h (by simp)
      · rintro ⟨k, l, h2, _⟩
        rw [objAt_map_some, List.getElem?_eq_none (by omega)] at h2
        obtain ⟨r, hr, _⟩ := h2
        exact absurd hr (by simp)

example : (∀ l ∈ [[(0 : ℕ), 1], [1]], l.Nodup) ∧
    List.Forall₂ (fun (l : List ℕ) (s : List ℚ) => l.length = s.length) [[0, 1], [1]] [[5, 6], [7]] ∧
    setupLabels [[(0 : ℕ), 1], [1]] [[(5 : ℚ), 6], [7]] = [[some 5, some 6], [none, some 7]] := by
  refine ⟨by simp, ?_, rfl⟩
  exact List.Forall₂.cons rfl (List.Forall₂.cons rfl List.Forall₂.nil)

/-! ### C61 -/

/-- **C61** (partial: not for the Mahalanobis distance, see `C61_mahalanobis_refuted`): the core distances are
symmetric and non-negative, and the Hellinger distance is at most one, for positive definite covariances. -/
theorem C61_core_distances_partial (m : Method) (hm : m ≠ .mahalanobis) (x y : Obj s) (hx : x.cov.PosDef)
    (hy : y.cov.PosDef) :
    0 ≤ coreDist m x y ∧ coreDist m x y = coreDist m y x ∧ (m = .hellinger → coreDist m x y ≤ 1) :=
  ⟨coreDist_nonneg m x y fun _ => ⟨hx, hy⟩, coreDist_symm hm x y, fun h => by
    subst h; exact (coreDist_hellinger_bounds hx hy).2⟩

example : (pt 3).cov.PosDef := Matrix.PosDef.one

/-- **C61** is false for the Mahalanobis distance: the code uses the covariance where the documentation (and the
definition) has its inverse, so a larger uncertainty of the estimate gives a larger distance. With covariance 4 and
difference 1 the Mahalanobis distance is 1/2, the code returns 2. -/
theorem C61_mahalanobis_refuted : ∃ x y : Obj 1, x.cov.PosDef ∧ y.cov.PosDef ∧
    coreDist .mahalanobis x y = 2 ∧
    Real.sqrt (dotProduct (x.x - y.x) (Matrix.mulVec x.cov⁻¹ (x.x - y.x))) = 1 / 2 ∧
    coreDist .mahalanobis y x ≠ coreDist .mahalanobis x y := by
  have h4 : (Matrix.diagonal (fun _ => (4 : ℝ)) : Matrix (Fin 1) (Fin 1) ℝ).PosDef :=
    Matrix.posDef_diagonal_iff.2 fun _ => by norm_num
  have s4 : Real.sqrt 4 = 2 := by
    rw [show (4 : ℝ) = 2 ^ 2 by norm_num]; exact Real.sqrt_sq (by norm_num)
  have h2 : coreDist .mahalanobis (⟨fun _ => 1, Matrix.diagonal fun _ => 4⟩ : Obj 1) (pt 0) = 2 := by
    unfold coreDist pt
    simp [Matrix.mulVec_diagonal, dotProduct, s4]
  refine ⟨⟨fun _ => 1, Matrix.diagonal fun _ => 4⟩, pt 0, h4, Matrix.PosDef.one, h2, ?_, ?_⟩
  · have : (Matrix.diagonal (fun _ => (4 : ℝ)) : Matrix (Fin 1) (Fin 1) ℝ)⁻¹ = Matrix.diagonal fun _ => 1 / 4 := by
      apply Matrix.inv_eq_left_inv
      rw [Matrix.diagonal_mul_diagonal]
      norm_num
    simp only [this]
    simp [pt, Matrix.mulVec_diagonal, dotProduct, s4]
  · rw [h2]
    unfold coreDist pt
    simp [dotProduct]

/-- **C61, which core distance is used.** `calculate_ospa` computes OSPA with the requested core distance; without the
covariances it needs (of the estimates for Mahalanobis, of the truth for Hellinger) it falls back to the Euclidean
distance, which is also the default, and to nothing else. The cut-off is lowered to one for the Hellinger distance
only. -/
theorem C61_fallback (lsa : Lsa) (est truth : List (Row (Obj s))) (c : ℝ) (p : ℕ) (useEmpty ht he : Bool) :
    calculateOspa lsa est truth c p useEmpty none ht he =
      ospaLoop lsa c p useEmpty (coreDist .euclidean) est truth ∧
    calculateOspa lsa est truth c p useEmpty (some .euclidean) ht he =
      ospaLoop lsa c p useEmpty (coreDist .euclidean) est truth ∧
    calculateOspa lsa est truth c p useEmpty (some .manhattan) ht he =
      ospaLoop lsa c p useEmpty (coreDist .manhattan) est truth ∧
    calculateOspa lsa est truth c p useEmpty (some .mahalanobis) ht true =
      ospaLoop lsa c p useEmpty (coreDist .mahalanobis) est truth ∧
    calculateOspa lsa est truth c p useEmpty (some .mahalanobis) ht false =
      ospaLoop lsa c p useEmpty (coreDist .euclidean) est truth ∧
    calculateOspa lsa est truth c p useEmpty (some .hellinger) true true =
      ospaLoop lsa (min 1 c) p useEmpty (coreDist .hellinger) est truth ∧
    calculateOspa lsa est truth c p useEmpty (some .hellinger) false he =
      ospaLoop lsa c p useEmpty (coreDist .euclidean) est truth := by
  refine ⟨?_, ?_, ?_, ?_, ?_, ?_, ?_⟩ <;> simp [calculateOspa, ospaGiven, effMethod, effCut]

/-- **C39, one value per time step.** If `calculate_ospa` returns, it returns exactly one pair of values per time step
of the truth, and there are at least as many time steps of estimates. -/
theorem C39_one_per_step (lsa : Lsa) (est truth : List (Row (Obj s))) (c : ℝ) (p : ℕ) (useEmpty ht he : Bool)
    (m : Option Method) (l : List (ℝ × ℝ)) (h : calculateOspa lsa est truth c p useEmpty m ht he = .ok l) :
    l.length = truth.length ∧ truth.length ≤ est.length := by
  replace h := (calculateOspa_of_ok h).1
  unfold ospaGiven at h
  generalize effCut (effMethod m ht he) c = c' at h
  generalize coreDist (effMethod m ht he) = d at h
  induction truth generalizing est l with
  | nil =>
    have : l = [] := by
      cases est <;> simpa [ospaLoop] using h
    rw [this]
    simp
  | cons t ts ih =>
    cases est with
    | nil => simp [ospaLoop] at h
    | cons e es =>
      unfold ospaLoop at h
      split at h
      · simp at h
      · split at h
        · simp at h
        · rename_i l' hl'
          simp only [Except.ok.injEq] at h
          obtain ⟨h1, h2⟩ := ih es l' hl'
          rw [← h]
          simp only [List.length_cons]
          omega

end Gasur.Props
