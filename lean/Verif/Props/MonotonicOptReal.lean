import Mathlib.Topology.Order.Compact
import Mathlib.Topology.Algebra.Order.LiminfLimsup
import Mathlib.Topology.Instances.Real.Lemmas
import Mathlib.Topology.Algebra.Monoid
import Verif.Props.MonotonicOpt

/-!
# C94: differences of increasing functions and polynomials

Statements about `rpa_gmop`, `poly_as_dm` and `rpa_polyopt` over the real numbers, where continuity gives what `Prob.Ok` asks for.
-/

namespace Verif.Rpa

open Verif

variable {n : ℕ}

/-- Continuous, and increasing on the box. -/
def Rises (a b : Pt ℝ n) (φ : Pt ℝ n → ℝ) : Prop := Continuous φ ∧ MonotoneOn φ (Set.Icc a b)

theorem Rises.mono {a b a' b' : Pt ℝ n} {φ : Pt ℝ n → ℝ} (h : Rises a b φ) (ha : a ≤ a') (hb : b' ≤ b) : Rises a' b' φ :=
  ⟨h.1, h.2.mono (Set.Icc_subset_Icc ha hb)⟩

theorem Rises.add {a b : Pt ℝ n} {φ ψ : Pt ℝ n → ℝ} (h : Rises a b φ) (k : Rises a b ψ) : Rises a b fun x => φ x + ψ x :=
  ⟨h.1.add k.1, fun _ hx _ hy l => add_le_add (h.2 hx hy l) (k.2 hx hy l)⟩

theorem Rises.max {a b : Pt ℝ n} {φ ψ : Pt ℝ n → ℝ} (h : Rises a b φ) (k : Rises a b ψ) : Rises a b fun x => Max.max (φ x) (ψ x) :=
  ⟨h.1.max k.1, fun _ hx _ hy l => max_le_max (h.2 hx hy l) (k.2 hx hy l)⟩

theorem Rises.min {a b : Pt ℝ n} {φ ψ : Pt ℝ n → ℝ} (h : Rises a b φ) (k : Rises a b ψ) : Rises a b fun x => Min.min (φ x) (ψ x) :=
  ⟨h.1.min k.1, fun _ hx _ hy l => min_le_min (h.2 hx hy l) (k.2 hx hy l)⟩

theorem rises_const (a b : Pt ℝ n) (c : ℝ) : Rises a b fun _ => c := ⟨continuous_const, fun _ _ _ _ _ => le_rfl⟩

theorem greatest_of {φ : Pt ℝ n → ℝ} (hφ : Continuous φ) (p q : Pt ℝ n) (c : ℝ) (h : φ p ≤ c) :
    ∃ α, IsGreatest {t : ℝ | 0 ≤ t ∧ t ≤ 1 ∧ φ (fun i => p i + t * (q i - p i)) ≤ c} α := by
  have hc : Continuous fun t : ℝ => φ (fun i => p i + t * (q i - p i)) :=
    hφ.comp (continuous_pi fun i => continuous_const.add (continuous_id.mul continuous_const))
  have hS : {t : ℝ | 0 ≤ t ∧ t ≤ 1 ∧ φ (fun i => p i + t * (q i - p i)) ≤ c} = Set.Icc 0 1 ∩ {t | φ (fun i => p i + t * (q i - p i)) ≤ c} := by
    ext t; simp [and_assoc]
  rw [hS]
  refine (isCompact_Icc.inter_right (isClosed_le hc continuous_const)).exists_isGreatest ⟨0, ⟨le_rfl, zero_le_one⟩, ?_⟩
  simpa using h

/-- **Continuous increasing functions meet the assumptions of the theorems about `rpa_monotonic`.** -/
theorem ok_of_rises {P : Prob ℝ n} {a b : Pt ℝ n} (hf : Rises a b P.f) (hg : Rises a b P.g) (hh : Rises a b P.h) : P.Ok a b where
  mono_f := hf.2
  mono_g := hg.2
  mono_h := hh.2
  last_f p q c _ _ _ h := greatest_of hf.1 p q c h
  last_g p q _ _ _ h := greatest_of hg.1 p q 0 h
  last_h p q _ _ _ h := by
    obtain ⟨α, hα⟩ := greatest_of (φ := fun x => -P.h x) hh.1.neg q p 0 (by simpa using h)
    refine ⟨α, ⟨hα.1.1, hα.1.2.1, neg_nonpos.1 hα.1.2.2⟩, fun t ht => hα.2 ⟨ht.1, ht.2.1, neg_nonpos.2 ht.2.2⟩⟩

open Classical in
/-- An exact search along a segment. -/
noncomputable def exactRoot : Root ℝ := fun φ =>
  if h : ∃ α, IsGreatest {t : ℝ | 0 ≤ t ∧ t ≤ 1 ∧ φ t ≤ 0} α then .ok h.choose else .error .valueError

/-- The assumption on the search can be met. -/
theorem exactRoot_sound : (exactRoot).Sound where
  last φ α h := by
    unfold exactRoot
    have hex : ∃ α, IsGreatest {t : ℝ | 0 ≤ t ∧ t ≤ 1 ∧ φ t ≤ 0} α := ⟨α, h⟩
    rw [dif_pos hex, hex.choose_spec.unique h]
  fail φ h := by
    unfold exactRoot
    rw [dif_neg]
    rintro ⟨α, hα⟩
    exact absurd hα.1.2.2 (not_le.2 (h α hα.1.1 hα.1.2.1))

@[simp] theorem low_lift (x : Pt ℝ n) (t u : ℝ) : low (lift x t u) = x := by funext i; simp [low, lift]
@[simp] theorem slackT_lift (x : Pt ℝ n) (t u : ℝ) : slackT (lift x t u) = t := by simp [slackT, lift]
@[simp] theorem slackU_lift (x : Pt ℝ n) (t u : ℝ) : slackU (lift x t u) = u := by simp [slackU, lift]

theorem le_lift {p : Pt ℝ (n + 2)} {x : Pt ℝ n} {t u : ℝ} : p ≤ lift x t u ↔ low p ≤ x ∧ slackT p ≤ t ∧ slackU p ≤ u := by
  constructor
  · intro h
    exact ⟨fun i => by have := h ⟨i.1, by omega⟩; simpa [lift, low] using this, by have := h ⟨n, by omega⟩; simpa [lift, slackT] using this,
      by have := h ⟨n + 1, by omega⟩; simpa [lift, slackU] using this⟩
  · rintro ⟨h1, h2, h3⟩ ⟨i, hi⟩
    simp only [lift]
    by_cases c : i < n
    · rw [dif_pos c]; exact h1 ⟨i, c⟩
    · rw [dif_neg c]
      by_cases c' : i = n
      · rw [if_pos c']; subst c'; exact h2
      · rw [if_neg c']
        have : i = n + 1 := by omega
        subst this; exact h3

theorem lift_le {p : Pt ℝ (n + 2)} {x : Pt ℝ n} {t u : ℝ} : lift x t u ≤ p ↔ x ≤ low p ∧ t ≤ slackT p ∧ u ≤ slackU p := by
  constructor
  · intro h
    exact ⟨fun i => by have := h ⟨i.1, by omega⟩; simpa [lift, low] using this, by have := h ⟨n, by omega⟩; simpa [lift, slackT] using this,
      by have := h ⟨n + 1, by omega⟩; simpa [lift, slackU] using this⟩
  · rintro ⟨h1, h2, h3⟩ ⟨i, hi⟩
    simp only [lift]
    by_cases c : i < n
    · rw [dif_pos c]; exact h1 ⟨i, c⟩
    · rw [dif_neg c]
      by_cases c' : i = n
      · rw [if_pos c']; subst c'; exact h2
      · rw [if_neg c']
        have : i = n + 1 := by omega
        subst this; exact h3

theorem low_le {p q : Pt ℝ (n + 2)} (h : p ≤ q) : low p ≤ low q := fun i => h ⟨i.1, by omega⟩

theorem Rises.low {a b : Pt ℝ n} {φ : Pt ℝ n → ℝ} (h : Rises a b φ) (t u t' u' : ℝ) : Rises (lift a t u) (lift b t' u') fun p => φ (low p) :=
  ⟨h.1.comp (continuous_pi fun i => continuous_apply _), fun _ hx _ hy l =>
    h.2 ⟨(lift_le.1 hx.1).1, (le_lift.1 hx.2).1⟩ ⟨(lift_le.1 hy.1).1, (le_lift.1 hy.2).1⟩ (low_le l)⟩

theorem rises_coord (p q : Pt ℝ n) (i : Fin n) : Rises p q fun x => x i := ⟨continuous_apply i, fun _ _ _ _ l => l i⟩

/-- All functions of a list of constraints increase. -/
def PairsRise (a b : Pt ℝ n) (gh : Pairs ℝ n) : Prop := ∀ p ∈ gh, Rises a b p.1 ∧ Rises a b p.2

theorem hSum_rises {a b : Pt ℝ n} : ∀ {gh : Pairs ℝ n}, PairsRise a b gh → Rises a b (hSum gh)
  | [], _ => rises_const a b 0
  | p :: gh, h => by
    have h1 := (h p (by simp)).2
    have h2 := hSum_rises (gh := gh) fun q hq => h q (by simp [hq])
    have e : hSum (p :: gh) = fun x => p.2 x + hSum gh x := by funext x; simp [hSum]
    rw [e]; exact h1.add h2

theorem foldMax_rises {a b : Pt ℝ n} : ∀ (L : List (Pt ℝ n → ℝ)) (φ : Pt ℝ n → ℝ), Rises a b φ → (∀ ψ ∈ L, Rises a b ψ) →
    Rises a b fun x => (L.map fun ψ => ψ x).foldl Max.max (φ x)
  | [], φ, h, _ => h
  | ψ :: L, φ, h, hL => by
    have := foldMax_rises L (fun x => Max.max (φ x) (ψ x)) (h.max (hL ψ (by simp))) fun χ hχ => hL χ (by simp [hχ])
    simpa using this

theorem gMax_rises {a b : Pt ℝ n} {gh : Pairs ℝ n} (h : PairsRise a b gh) : Rises a b (gMax gh) := by
  have key : ∀ p ∈ gh, Rises a b fun x => p.1 x - p.2 x + hSum gh x := by
    intro p hp
    obtain ⟨l₁, l₂, e⟩ := List.append_of_mem hp
    have h1 := hSum_rises (gh := l₁) (a := a) (b := b) fun q hq => h q (by rw [e]; simp [hq])
    have h2 := hSum_rises (gh := l₂) (a := a) (b := b) fun q hq => h q (by rw [e]; simp [hq])
    have e' : (fun x => p.1 x - p.2 x + hSum gh x) = fun x => p.1 x + (hSum l₁ x + hSum l₂ x) := by
      funext x
      rw [e]; simp only [hSum, List.map_append, List.map_cons, List.sum_append, List.sum_cons]; ring
    rw [e']; exact (h p hp).1.add (h1.add h2)
  cases hgh : gh with
  | nil => exact rises_const a b 0
  | cons p l =>
    rw [← hgh]
    have e : gMax gh = fun x => ((l.map fun q => fun x => q.1 x - q.2 x + hSum gh x).map fun ψ => ψ x).foldl Max.max (p.1 x - p.2 x + hSum gh x) := by
      funext x
      have : gh.map (fun q => q.1 x - q.2 x + hSum gh x) = (p.1 x - p.2 x + hSum gh x) :: l.map fun q => q.1 x - q.2 x + hSum gh x := by
        generalize hSum gh x = s
        rw [hgh]; rfl
      unfold gMax
      rw [this]; simp only [List.map_map]; rfl
    rw [e]
    refine foldMax_rises _ _ (key p (by rw [hgh]; simp)) ?_
    intro ψ hψ
    obtain ⟨q, hq, rfl⟩ := List.mem_map.1 hψ
    exact key q (by rw [hgh]; simp [hq])

theorem foldMax_le {v c : ℝ} {vs : List ℝ} : vs.foldl Max.max v ≤ c ↔ v ≤ c ∧ ∀ w ∈ vs, w ≤ c := by
  induction vs generalizing v with
  | nil => simp
  | cons w vs ih => rw [List.foldl_cons, ih]; simp [and_assoc]

/-- The two sums compare exactly if all constraints hold. -/
theorem gMax_le_iff (gh : Pairs ℝ n) (x : Pt ℝ n) : gMax gh x ≤ hSum gh x ↔ ∀ p ∈ gh, p.1 x ≤ p.2 x := by
  have key : ∀ p : (Pt ℝ n → ℝ) × (Pt ℝ n → ℝ), p.1 x - p.2 x + hSum gh x ≤ hSum gh x ↔ p.1 x ≤ p.2 x := fun p => by constructor <;> intro h <;> linarith
  unfold gMax
  cases hgh : gh.map fun p => p.1 x - p.2 x + hSum gh x with
  | nil =>
    have : gh = [] := by simpa using hgh
    subst this; simp [hSum]
  | cons v vs =>
    show vs.foldl Max.max v ≤ hSum gh x ↔ _
    rw [foldMax_le]
    have : (v ≤ hSum gh x ∧ ∀ w ∈ vs, w ≤ hSum gh x) ↔ ∀ w ∈ gh.map (fun p => p.1 x - p.2 x + hSum gh x), w ≤ hSum gh x := by rw [hgh]; simp
    rw [this]
    simp only [List.mem_map, forall_exists_index, and_imp, forall_apply_eq_imp_iff₂, key]

/-- The feasible points of the problem that `rpa_gmop` is given. -/
def GFeasible (gh : Pairs ℝ n) (a b x : Pt ℝ n) : Prop := a ≤ x ∧ x ≤ b ∧ ∀ p ∈ gh, p.1 x ≤ p.2 x

/-- **The transformed problem has the same solutions**: a feasible point gives one with the same value, and one gives a feasible point whose value is not larger. -/
theorem gmop_transform {f1 f2 : Pt ℝ n → ℝ} {gh : Pairs ℝ n} {a b : Pt ℝ n} (h2 : Rises a b f2) (hgh : PairsRise a b gh) :
    (∀ x, GFeasible gh a b x → ∃ p, low p = x ∧ (gmopProb f1 f2 gh).Feasible (lift a (-gMax gh b) (-f2 b)) (lift b (-gMax gh a) (-f2 a)) p ∧ (gmopProb f1 f2 gh).f p = f1 x - f2 x) ∧
    (∀ p, (gmopProb f1 f2 gh).Feasible (lift a (-gMax gh b) (-f2 b)) (lift b (-gMax gh a) (-f2 a)) p → GFeasible gh a b (low p) ∧ f1 (low p) - f2 (low p) ≤ (gmopProb f1 f2 gh).f p) := by
  constructor
  · rintro x ⟨hax, hxb, hx⟩
    have hab := hax.trans hxb
    have mx : x ∈ Set.Icc a b := ⟨hax, hxb⟩
    have ma : a ∈ Set.Icc a b := ⟨le_rfl, hab⟩
    have mb : b ∈ Set.Icc a b := ⟨hab, le_rfl⟩
    have hg := gMax_rises hgh
    refine ⟨lift x (-gMax gh x) (-f2 x), low_lift _ _ _, ⟨lift_le.2 ?_, le_lift.2 ?_, ?_, ?_⟩, ?_⟩
    · simp only [low_lift, slackT_lift, slackU_lift, neg_le_neg_iff]
      exact ⟨hax, hg.2 mx mb hxb, h2.2 mx mb hxb⟩
    · simp only [low_lift, slackT_lift, slackU_lift, neg_le_neg_iff]
      exact ⟨hxb, hg.2 ma mx hax, h2.2 ma mx hax⟩
    · simp [gmopProb]
    · have := (gMax_le_iff gh x).2 hx
      simp [gmopProb]; linarith
    · simp [gmopProb]; ring
  · rintro p ⟨h3, h4, h5, h6⟩
    have h3 := lift_le.1 h3
    have h4 := le_lift.1 h4
    simp only [gmopProb, le_min_iff] at h5 h6
    refine ⟨⟨h3.1, h4.1, (gMax_le_iff gh _).1 (by linarith [h6.1])⟩, ?_⟩
    simp only [gmopProb]; linarith [h6.2]

theorem gmop_ok {f1 f2 : Pt ℝ n → ℝ} {gh : Pairs ℝ n} {a b : Pt ℝ n} (h1 : Rises a b f1) (h2 : Rises a b f2) (hgh : PairsRise a b gh) :
    (gmopProb f1 f2 gh).Ok (lift a (-gMax gh b) (-f2 b)) (lift b (-gMax gh a) (-f2 a)) :=
  ok_of_rises ((h1.low _ _ _ _).add (rises_coord _ _ _)) (((gMax_rises hgh).low _ _ _ _).add (rises_coord _ _ _))
    ((((hSum_rises hgh).low _ _ _ _).add (rises_coord _ _ _)).min ((h2.low _ _ _ _).add (rises_coord _ _ _)))

theorem gmop_box {f2 : Pt ℝ n → ℝ} {gh : Pairs ℝ n} {a b : Pt ℝ n} (h2 : Rises a b f2) (hgh : PairsRise a b gh) (hab : a ≤ b) :
    lift a (-gMax gh b) (-f2 b) ≤ lift b (-gMax gh a) (-f2 a) := by
  have ma : a ∈ Set.Icc a b := ⟨le_rfl, hab⟩
  have mb : b ∈ Set.Icc a b := ⟨hab, le_rfl⟩
  rw [lift_le]
  simp only [low_lift, slackT_lift, slackU_lift, neg_le_neg_iff]
  exact ⟨hab, (gMax_rises hgh).2 ma mb hab, h2.2 ma mb hab⟩

section Gmop

variable {f1 f2 : Pt ℝ n → ℝ} {gh : Pairs ℝ n} {a b : Pt ℝ n} {rs : Root ℝ} {rtol tol : ℝ} {pick : ℕ → ℕ} {maxIter : ℕ} {cbv : Option ℝ}

/-- **C94 for differences, soundness.** A point returned by `rpa_gmop` satisfies all constraints, and the value is the value of the objective there. -/
theorem gmop_sound (h1 : Rises a b f1) (h2 : Rises a b f2) (hgh : PairsRise a b gh) (hrs : rs.Sound) (hrt : 0 < rtol) (ht : 0 ≤ tol) (hab : a ≤ b) (hm : 0 < maxIter)
    {r : Result ℝ n} (h : gmop f1 f2 gh rs rtol tol pick maxIter cbv a b = .ok r) {x : Pt ℝ n} (hx : r.x = some x) :
    GFeasible gh a b x ∧ r.f = some (f1 x - f2 x) ∧ ∀ c, cbv = some c → f1 x - f2 x < c + tol := by
  unfold gmop at h
  cases hr : rpa (gmopProb f1 f2 gh) rs rtol tol pick maxIter cbv (lift a (-gMax gh b) (-f2 b)) (lift b (-gMax gh a) (-f2 a)) with
  | error e => rw [hr] at h; cases h
  | ok q =>
    rw [hr] at h
    cases h
    cases hq : q.x with
    | none => simp [lower, hq] at hx
    | some p =>
      obtain ⟨k1, k2, k3⟩ := rpa_sound (gmop_ok h1 h2 hgh) hrs hrt ht (gmop_box h2 hgh hab) hm hr hq
      have hxp : low p = x := by simpa [lower, hq] using hx
      obtain ⟨k4, k5⟩ := (gmop_transform (f1 := f1) h2 hgh).2 p k1
      rw [hxp] at k4 k5
      exact ⟨k4, by simp [lower, hq, hxp], fun c hc => lt_of_le_of_lt k5 (k3 c hc)⟩

/-- **C94 for differences, infeasibility.** -/
theorem gmop_none (h1 : Rises a b f1) (h2 : Rises a b f2) (hgh : PairsRise a b gh) (hrs : rs.Sound) (hrt : 0 < rtol) (ht : 0 ≤ tol) (hab : a ≤ b) (hm : 0 < maxIter)
    {r : Result ℝ n} (h : gmop f1 f2 gh rs rtol tol pick maxIter cbv a b = .ok r) (hx : r.x = none) :
    r.f = none ∧ (r.converged = true → ∀ y, GFeasible gh a b y → ∃ c, cbv = some c ∧ c ≤ f1 y - f2 y) := by
  unfold gmop at h
  cases hr : rpa (gmopProb f1 f2 gh) rs rtol tol pick maxIter cbv (lift a (-gMax gh b) (-f2 b)) (lift b (-gMax gh a) (-f2 a)) with
  | error e => rw [hr] at h; cases h
  | ok q =>
    rw [hr] at h
    cases h
    have hq : q.x = none := by simpa [lower] using hx
    refine ⟨by simp [lower, hq], fun hc y hy => ?_⟩
    obtain ⟨p, _, k2, k3⟩ := (gmop_transform (f1 := f1) h2 hgh).1 y hy
    obtain ⟨c, hc, hle⟩ := (rpa_none (gmop_ok h1 h2 hgh) hrs hrt ht (gmop_box h2 hgh hab) hm hr hq).2 hc p k2
    exact ⟨c, hc, by rw [← k3]; exact hle⟩

/-- **C94 for differences, no exception** if there is a feasible point that is not worse than the bound given by the caller. -/
theorem gmop_returns (h1 : Rises a b f1) (h2 : Rises a b f2) (hgh : PairsRise a b gh) (hrs : rs.Sound) (hrt : 0 < rtol) (ht : 0 ≤ tol) (hm : 0 < maxIter)
    {y : Pt ℝ n} (hy : GFeasible gh a b y) (hf : ∀ c, cbv = some c → f1 y - f2 y ≤ c) :
    ∃ r, gmop f1 f2 gh rs rtol tol pick maxIter cbv a b = .ok r := by
  obtain ⟨p, _, k2, k3⟩ := (gmop_transform (f1 := f1) h2 hgh).1 y hy
  obtain ⟨r, hr⟩ := rpa_returns (pick := pick) (gmop_ok h1 h2 hgh) hrs hrt ht hm k2 (cbv := cbv) fun c hc => by rw [k3]; exact hf c hc
  exact ⟨_, by unfold gmop; rw [hr]; rfl⟩

/-- **C94 for differences, optimality, partial** (see `rpa_optimal_partial` for what is missing). -/
theorem gmop_optimal_partial (h1 : Rises a b f1) (h2 : Rises a b f2) (hgh : PairsRise a b gh) (hrs : rs.Sound) (hrt : 0 < rtol) (ht : 0 ≤ tol) (hab : a ≤ b) (hm : 0 < maxIter)
    {r : Result ℝ n} (h : gmop f1 f2 gh rs rtol tol pick maxIter cbv a b = .ok r) (hc : r.converged = true)
    (hl : ∀ s, start (gmopProb f1 f2 gh) rs rtol tol cbv (lift a (-gMax gh b) (-f2 b)) (lift b (-gMax gh a) (-f2 a)) = .ok s →
      Lossless (gmopProb f1 f2 gh) rs rtol tol pick maxIter 1 s) {x : Pt ℝ n} (hx : r.x = some x) {y : Pt ℝ n} (hy : GFeasible gh a b y) :
    f1 x - f2 x - tol ≤ f1 y - f2 y := by
  unfold gmop at h
  cases hr : rpa (gmopProb f1 f2 gh) rs rtol tol pick maxIter cbv (lift a (-gMax gh b) (-f2 b)) (lift b (-gMax gh a) (-f2 a)) with
  | error e => rw [hr] at h; cases h
  | ok q =>
    rw [hr] at h
    cases h
    cases hq : q.x with
    | none => simp [lower, hq] at hx
    | some p =>
      have hxp : low p = x := by simpa [lower, hq] using hx
      obtain ⟨k1, _, _⟩ := rpa_sound (gmop_ok h1 h2 hgh) hrs hrt ht (gmop_box h2 hgh hab) hm hr hq
      obtain ⟨_, k5⟩ := (gmop_transform (f1 := f1) h2 hgh).2 p k1
      obtain ⟨v, _, k2, k3⟩ := (gmop_transform (f1 := f1) h2 hgh).1 y hy
      have := rpa_optimal_partial (gmop_ok h1 h2 hgh) hrs hrt ht (gmop_box h2 hgh hab) hm hr hc hl hq k2
      rw [k3] at this
      rw [hxp] at k5
      linarith

end Gmop

/-- SymPy's `shift_list`. -/
structure ShiftSound (shift : Terms ℝ n → Pt ℝ n → Terms ℝ n) : Prop where
  eval : ∀ p v x, (shift p v).eval x = p.eval (x + v)
  zero : ∀ p, shift p 0 = p

theorem Terms.eval_cons (t : (Fin n → ℕ) × ℝ) (p : Terms ℝ n) (x : Pt ℝ n) : Terms.eval (t :: p) x = t.2 * ∏ i, x i ^ t.1 i + Terms.eval p x := by simp [Terms.eval]

theorem Terms.eval_append (p q : Terms ℝ n) (x : Pt ℝ n) : Terms.eval (p ++ q) x = Terms.eval p x + Terms.eval q x := by simp [Terms.eval]

theorem Terms.pos_sub_neg (p : Terms ℝ n) (x : Pt ℝ n) : p.pos.eval x - p.neg.eval x = p.eval x := by
  induction p with
  | nil => simp [Terms.pos, Terms.neg, Terms.eval]
  | cons t p ih =>
    rw [Terms.eval_cons, ← ih]
    by_cases c : 0 ≤ t.2
    · have e1 : Terms.pos (t :: p) = t :: Terms.pos p := by simp [Terms.pos, c]
      have e2 : Terms.neg (t :: p) = Terms.neg p := by simp [Terms.neg, c]
      rw [e1, e2, Terms.eval_cons]; ring
    · have e1 : Terms.pos (t :: p) = Terms.pos p := by simp [Terms.pos, c]
      have e2 : Terms.neg (t :: p) = (t.1, -t.2) :: Terms.neg p := by simp [Terms.neg, not_le.1 c]
      rw [e1, e2, Terms.eval_cons]; ring

theorem Terms.continuous (p : Terms ℝ n) : Continuous p.eval := by
  induction p with
  | nil => exact (continuous_const : Continuous fun _ : Pt ℝ n => (0 : ℝ))
  | cons t p ih =>
    have e : Terms.eval (t :: p) = fun x => t.2 * ∏ i, x i ^ t.1 i + Terms.eval p x := by funext x; exact Terms.eval_cons t p x
    rw [e]
    exact (continuous_const.mul (continuous_finsetProd _ fun i _ => (continuous_apply i).pow _)).add ih

theorem Terms.mono_of_nonneg {p : Terms ℝ n} (h : ∀ t ∈ p, 0 ≤ t.2) {x y : Pt ℝ n} (hx : 0 ≤ x) (hxy : x ≤ y) : p.eval x ≤ p.eval y := by
  induction p with
  | nil => simp [Terms.eval]
  | cons t p ih =>
    rw [Terms.eval_cons, Terms.eval_cons]
    refine add_le_add (mul_le_mul_of_nonneg_left ?_ (h t (by simp))) (ih fun s hs => h s (by simp [hs]))
    exact Finset.prod_le_prod (fun i _ => pow_nonneg (hx i) _) fun i _ => pow_le_pow_left₀ (hx i) (hxy i) _

/-- **`poly_as_dm` writes a polynomial as the difference of two functions that increase above the lower bound.** -/
theorem asDm_spec {shift : Terms ℝ n → Pt ℝ n → Terms ℝ n} (hs : ShiftSound shift) (p : Terms ℝ n) (a : Pt ℝ n) :
    (∀ x, (asDm shift p a).1 x - (asDm shift p a).2 x = p.eval x) ∧ ∀ b, Rises a b (asDm shift p a).1 ∧ Rises a b (asDm shift p a).2 := by
  have hm : ∀ x, a ≤ x → (0 : Pt ℝ n) ≤ x - fun i => min (a i) 0 := fun x hx i => by
    have := hx i; have := min_le_left (a i) 0
    simp only [Pi.zero_apply, Pi.sub_apply]; linarith
  have hc : Continuous fun x : Pt ℝ n => x - fun i => min (a i) 0 := continuous_id.sub continuous_const
  have hl : ∀ x y : Pt ℝ n, x ≤ y → (x - fun i => min (a i) 0) ≤ y - fun i => min (a i) 0 := fun x y h i => by have := h i; simp only [Pi.sub_apply]; linarith
  refine ⟨fun x => ?_, fun b => ⟨⟨?_, ?_⟩, ⟨?_, ?_⟩⟩⟩
  · have := Terms.pos_sub_neg (shift p fun i => min (a i) 0) (x - fun i => min (a i) 0)
    rw [hs.eval, sub_add_cancel] at this
    exact this
  · exact (Terms.continuous _).comp hc
  · intro x hx y _ hxy
    exact Terms.mono_of_nonneg (by intro t ht; simpa using (List.mem_filter.1 ht).2) (hm x hx.1) (hl x y hxy)
  · exact (Terms.continuous _).comp hc
  · intro x hx y _ hxy
    refine Terms.mono_of_nonneg ?_ (hm x hx.1) (hl x y hxy)
    intro t ht
    obtain ⟨u, hu, rfl⟩ := List.mem_map.1 ht
    have : u.2 < 0 := by simpa using (List.mem_filter.1 hu).2
    simp only; linarith

/-- `terms()` of a polynomial: every monomial once, no coefficient zero. -/
def Terms.Canon (p : Terms ℝ n) : Prop := (p.map Prod.fst).Nodup ∧ ∀ t ∈ p, t.2 ≠ 0

/-- The polynomial contains the first variable, or it is a constant. -/
def Terms.First [NeZero n] (p : Terms ℝ n) : Prop := (∃ t ∈ p, 0 < t.1 0) ∨ ∀ t ∈ p, t.1 = 0

theorem foldMax_nat (L : List ℕ) (k : ℕ) : k ≤ L.foldl max k ∧ (∀ v ∈ L, v ≤ L.foldl max k) ∧ (L.foldl max k = k ∨ L.foldl max k ∈ L) := by
  induction L generalizing k with
  | nil => simp
  | cons v L ih =>
    obtain ⟨h1, h2, h3⟩ := ih (max k v)
    rw [List.foldl_cons]
    refine ⟨(le_max_left _ _).trans h1, ?_, ?_⟩
    · intro w hw
      rcases List.mem_cons.1 hw with rfl | hw
      · exact (le_max_right _ _).trans h1
      · exact h2 w hw
    · rcases h3 with h3 | h3
      · rw [h3]
        rcases max_choice k v with e | e <;> rw [e]
        · exact .inl rfl
        · exact .inr (by simp)
      · exact .inr (by simp [h3])

theorem Terms.le_degree [NeZero n] {p : Terms ℝ n} {t : (Fin n → ℕ) × ℝ} (h : t ∈ p) : t.1 0 ≤ p.degree :=
  (foldMax_nat (p.map fun t => t.1 0) 0).2.1 _ (List.mem_map.2 ⟨t, h, rfl⟩)

theorem Terms.degree_mem [NeZero n] {p : Terms ℝ n} (h : 0 < p.degree) : ∃ t ∈ p, t.1 0 = p.degree := by
  rcases (foldMax_nat (p.map fun t => t.1 0) 0).2.2 with e | e
  · unfold Terms.degree at h; omega
  · obtain ⟨t, ht, e'⟩ := List.mem_map.1 e
    exact ⟨t, ht, e'⟩

theorem Terms.coeff_nil (e : Fin n → ℕ) : Terms.coeff ([] : Terms ℝ n) e = 0 := rfl

theorem Terms.coeff_cons (t : (Fin n → ℕ) × ℝ) (p : Terms ℝ n) (e : Fin n → ℕ) : Terms.coeff (t :: p) e = (if t.1 = e then t.2 else 0) + Terms.coeff p e := by
  unfold Terms.coeff
  by_cases c : t.1 = e
  · simp [c]
  · simp [c]

theorem Terms.coeff_of_not_mem {p : Terms ℝ n} {e : Fin n → ℕ} (h : e ∉ p.map Prod.fst) : p.coeff e = 0 := by
  induction p with
  | nil => rfl
  | cons t p ih =>
    simp only [List.map_cons, List.mem_cons, not_or] at h
    rw [Terms.coeff_cons, if_neg (Ne.symm h.1), ih h.2, add_zero]

theorem Terms.coeff_of_mem {p : Terms ℝ n} (hp : (p.map Prod.fst).Nodup) {t : (Fin n → ℕ) × ℝ} (h : t ∈ p) : p.coeff t.1 = t.2 := by
  induction p with
  | nil => cases h
  | cons s p ih =>
    rw [List.map_cons, List.nodup_cons] at hp
    rw [Terms.coeff_cons]
    rcases List.mem_cons.1 h with rfl | h
    · rw [if_pos rfl, Terms.coeff_of_not_mem hp.1, add_zero]
    · rw [if_neg, ih hp.2 h, zero_add]
      intro e
      exact hp.1 (e ▸ List.mem_map_of_mem h)

/-- A polynomial whose monomials are a variable and the constant. -/
theorem Terms.eval_linear (i : Fin n) (x : Pt ℝ n) : ∀ (p : Terms ℝ n), (∀ t ∈ p, t.1 = 0 ∨ t.1 = Pi.single i 1) → p.eval x = p.coeff (Pi.single i 1) * x i + p.coeff 0
  | [], _ => by simp [Terms.eval, Terms.coeff]
  | t :: p, h => by
    have ih := Terms.eval_linear i x p fun s hs => h s (by simp [hs])
    rw [Terms.eval_cons, ih, Terms.coeff_cons, Terms.coeff_cons]
    have hne : (0 : Fin n → ℕ) ≠ Pi.single i 1 := fun e => by have := congrFun e i; simp at this
    rcases h t (by simp) with e | e
    · rw [e, if_neg hne, if_pos rfl]; simp; ring
    · rw [e, if_pos rfl, if_neg (Ne.symm hne)]
      have : ∏ j, x j ^ (Pi.single i 1 : Fin n → ℕ) j = x i := by
        rw [Finset.prod_eq_single i]
        · simp
        · intro j _ hj; simp [hj]
        · simp
      rw [this]; ring

/-- The points that a box with constraints allows. -/
def Box.Holds (B : Box ℝ n) (x : Pt ℝ n) : Prop := GFeasible B.gh B.a B.b x

/-- One constraint is read right if it contains the first variable or is a constant. -/
theorem addIneq_spec [NeZero n] {shift : Terms ℝ n → Pt ℝ n → Terms ℝ n} (hs : ShiftSound shift) {p : Terms ℝ n} (hp : p.Canon) (hf : p.First) (B : Box ℝ n)
    (hB : PairsRise B.a B.b B.gh) :
    (addIneq shift p B = none ∧ ∀ x, p.eval x < 0) ∨
    ∃ B', addIneq shift p B = some B' ∧ PairsRise B'.a B'.b B'.gh ∧ ∀ x, B'.Holds x ↔ B.Holds x ∧ 0 ≤ p.eval x := by
  unfold addIneq
  by_cases c : p.degree ≤ 0
  · rw [if_pos c]
    have hconst : ∀ t ∈ p, t.1 = 0 := by
      rcases hf with ⟨t, ht, h⟩ | h
      · have := Terms.le_degree ht; omega
      · exact h
    have heval : ∀ x, p.eval x = p.lc := by
      intro x
      match p, hp, hconst with
      | [], _, _ => simp [Terms.eval, Terms.lc]
      | [t], _, hc => simp [Terms.eval, Terms.lc, hc t (by simp)]
      | t :: s :: q, hp, hc =>
        exfalso
        have h1 := hc t (by simp)
        have h2 := hc s (by simp)
        have := hp.1
        simp [h1, h2] at this
    by_cases c' : p.lc < 0
    · rw [if_pos c']; exact .inl ⟨rfl, fun x => by rw [heval]; exact c'⟩
    · rw [if_neg c']
      exact .inr ⟨B, rfl, hB, fun x => ⟨fun h => ⟨h, by rw [heval]; exact not_lt.1 c'⟩, fun h => h.1⟩⟩
  · rw [if_neg c]
    right
    by_cases c1 : p.degree = 1 ∧ p.used.length = 1
    · rw [if_pos c1]
      obtain ⟨t, ht, ht1⟩ := Terms.degree_mem (p := p) (by omega)
      rw [c1.1] at ht1
      obtain ⟨i, hi⟩ := List.length_eq_one_iff.1 c1.2
      have usedMem : ∀ s ∈ p, ∀ j, 0 < s.1 j → j = i := by
        intro s hs' j hj
        have : j ∈ p.used := by
          refine List.mem_filter.2 ⟨List.mem_finRange j, ?_⟩
          exact List.any_eq_true.2 ⟨s, hs', by simpa using hj⟩
        rw [hi] at this; simpa using this
      have h0 : (0 : Fin n) = i := usedMem t ht 0 (by omega)
      have hlin : ∀ s ∈ p, s.1 = 0 ∨ s.1 = Pi.single i 1 := by
        intro s hs'
        have hle := Terms.le_degree hs'
        rw [c1.1, h0] at hle
        have hz : ∀ j, j ≠ i → s.1 j = 0 := fun j hj => by
          by_contra hne
          exact hj (usedMem s hs' j (Nat.pos_of_ne_zero hne))
        rcases Nat.le_one_iff_eq_zero_or_eq_one.1 hle with e | e
        · left; funext j
          by_cases hj : j = i
          · rw [hj]; exact e
          · exact hz j hj
        · right; funext j
          by_cases hj : j = i
          · rw [hj, e]; simp
          · rw [hz j hj]; simp [hj]
      have hlc : p.coeff (Pi.single i 1) ≠ 0 := by
        have : t.1 = Pi.single i 1 := by
          rcases hlin t ht with e | e
          · rw [e] at ht1; simp at ht1
          · exact e
        rw [← this, Terms.coeff_of_mem hp.1 ht]
        exact hp.2 t ht
      have heval := fun x => Terms.eval_linear i x p hlin
      rw [hi]
      simp only [List.headD_cons]
      by_cases c2 : 0 < p.coeff (Pi.single i 1)
      · refine ⟨_, if_pos c2, fun q hq => ⟨(hB q hq).1.mono (le_update_of le_rfl i (le_max_left _ _)) le_rfl, (hB q hq).2.mono (le_update_of le_rfl i (le_max_left _ _)) le_rfl⟩, fun x => ?_⟩
        have key : 0 ≤ p.eval x ↔ -p.coeff 0 / p.coeff (Pi.single i 1) ≤ x i := by
          rw [heval, div_le_iff₀ c2]; constructor <;> intro h <;> linarith
        rw [key]
        constructor
        · rintro ⟨k1, k2, k3⟩
          have k1' : B.a ≤ x := (le_update_of le_rfl i (le_max_left _ _)).trans k1
          have := k1 i
          simp only [Function.update_self] at this
          exact ⟨⟨k1', k2, k3⟩, (le_max_right _ _).trans this⟩
        · rintro ⟨⟨k1, k2, k3⟩, k4⟩
          exact ⟨update_le_of k1 i (max_le (k1 i) k4), k2, k3⟩
      · have c3 : p.coeff (Pi.single i 1) < 0 := lt_of_le_of_ne (not_lt.1 c2) hlc
        refine ⟨_, if_neg c2, fun q hq => ⟨(hB q hq).1.mono le_rfl (update_le_of le_rfl i (min_le_left _ _)), (hB q hq).2.mono le_rfl (update_le_of le_rfl i (min_le_left _ _))⟩, fun x => ?_⟩
        have key : 0 ≤ p.eval x ↔ x i ≤ -p.coeff 0 / p.coeff (Pi.single i 1) := by
          rw [heval, le_div_iff_of_neg c3]; constructor <;> intro h <;> linarith
        rw [key]
        constructor
        · rintro ⟨k1, k2, k3⟩
          have k2' : x ≤ B.b := k2.trans (update_le_of le_rfl i (min_le_left _ _))
          have := k2 i
          simp only [Function.update_self] at this
          exact ⟨⟨k1, k2', k3⟩, this.trans (min_le_right _ _)⟩
        · rintro ⟨⟨k1, k2, k3⟩, k4⟩
          exact ⟨k1, le_update_of k2 i (le_min (k2 i) k4), k3⟩
    · rw [if_neg c1]
      obtain ⟨e1, e2⟩ := asDm_spec hs p B.a
      refine ⟨_, rfl, ?_, fun x => ?_⟩
      · intro q hq
        rcases List.mem_append.1 hq with hq | hq
        · exact hB q hq
        · rw [List.mem_singleton.1 hq]; exact ⟨(e2 B.b).2, (e2 B.b).1⟩
      · have key : 0 ≤ p.eval x ↔ (asDm shift p B.a).2 x ≤ (asDm shift p B.a).1 x := by rw [← e1 x]; exact sub_nonneg
        rw [key]
        constructor
        · rintro ⟨k1, k2, k3⟩
          exact ⟨⟨k1, k2, fun q hq => k3 q (List.mem_append.2 (.inl hq))⟩, k3 ((asDm shift p B.a).2, (asDm shift p B.a).1) (List.mem_append.2 (.inr (by simp)))⟩
        · rintro ⟨⟨k1, k2, k3⟩, k4⟩
          refine ⟨k1, k2, fun q hq => ?_⟩
          rcases List.mem_append.1 hq with hq | hq
          · exact k3 q hq
          · rw [List.mem_singleton.1 hq]; exact k4

theorem addAll_spec [NeZero n] {shift : Terms ℝ n → Pt ℝ n → Terms ℝ n} (hs : ShiftSound shift) : ∀ (ps : List (Terms ℝ n)) (B : Box ℝ n), (∀ p ∈ ps, p.Canon ∧ p.First) →
    PairsRise B.a B.b B.gh →
    (∃ B', addAll shift ps B = .inr B' ∧ ∀ x, ∃ p ∈ ps, p.eval x < 0) ∨
    ∃ B', addAll shift ps B = .inl B' ∧ PairsRise B'.a B'.b B'.gh ∧ ∀ x, B'.Holds x ↔ B.Holds x ∧ ∀ p ∈ ps, 0 ≤ p.eval x
  | [], B, _, hB => .inr ⟨B, rfl, hB, fun x => by simp⟩
  | p :: ps, B, h, hB => by
    rcases addIneq_spec hs (h p (by simp)).1 (h p (by simp)).2 B hB with ⟨e, hn⟩ | ⟨B', e, h1, h2⟩
    · left
      exact ⟨B, by rw [addAll, e], fun x => ⟨p, by simp, hn x⟩⟩
    · rcases addAll_spec hs ps B' (fun q hq => h q (by simp [hq])) h1 with ⟨B'', e', h3⟩ | ⟨B'', e', h3, h4⟩
      · left
        refine ⟨B'', by rw [addAll, e]; exact e', fun x => ?_⟩
        obtain ⟨q, hq, hlt⟩ := h3 x
        exact ⟨q, by simp [hq], hlt⟩
      · right
        refine ⟨B'', by rw [addAll, e]; exact e', h3, fun x => ?_⟩
        rw [h4, h2]; simp [and_assoc]

theorem Terms.eval_addConst (p : Terms ℝ n) (c : ℝ) (x : Pt ℝ n) : (p.addConst c).eval x = p.eval x + c := by
  have key : ∀ q : Terms ℝ n, Terms.eval (q.filter fun t => decide (t.1 ≠ 0)) x + q.coeff 0 = q.eval x := by
    intro q
    induction q with
    | nil => simp [Terms.eval, Terms.coeff]
    | cons t q ih =>
      rw [Terms.eval_cons, Terms.coeff_cons, ← ih]
      by_cases h : t.1 = 0
      · rw [List.filter_cons_of_neg (by simp [h]), if_pos h, h]; simp; ring
      · rw [List.filter_cons_of_pos (by simp [h]), if_neg h, Terms.eval_cons]; ring
  unfold Terms.addConst
  rw [Terms.eval_append]
  by_cases h : p.coeff 0 + c = 0
  · rw [if_pos h, ← key p]; simp [Terms.eval] at *; linarith
  · rw [if_neg h, ← key p]; simp [Terms.eval]; ring

theorem Terms.eval_minus (p : Terms ℝ n) (x : Pt ℝ n) : p.minus.eval x = -p.eval x := by
  induction p with
  | nil => simp [Terms.minus, Terms.eval]
  | cons t p ih =>
    have e : Terms.minus (t :: p) = (t.1, -t.2) :: Terms.minus p := rfl
    rw [e, Terms.eval_cons, Terms.eval_cons, ih]; ring

theorem Terms.Canon.addConst {p : Terms ℝ n} (h : p.Canon) (c : ℝ) : (p.addConst c).Canon := by
  have hsub : ((p.filter fun t => decide (t.1 ≠ 0)).map Prod.fst).Nodup := h.1.sublist (List.filter_sublist.map _)
  unfold Terms.addConst
  by_cases hc : p.coeff 0 + c = 0
  · rw [if_pos hc, List.append_nil]
    exact ⟨hsub, fun t ht => h.2 t (List.mem_filter.1 ht).1⟩
  · rw [if_neg hc]
    constructor
    · rw [List.map_append, List.nodup_append']
      refine ⟨hsub, by simp, ?_⟩
      intro e he he'
      simp only [List.map_cons, List.map_nil, List.mem_singleton] at he'
      obtain ⟨t, ht, rfl⟩ := List.mem_map.1 he
      have := (List.mem_filter.1 ht).2
      simp [he'] at this
    · intro t ht
      rcases List.mem_append.1 ht with ht | ht
      · exact h.2 t (List.mem_filter.1 ht).1
      · rw [List.mem_singleton.1 ht]; exact hc

theorem Terms.First.addConst [NeZero n] {p : Terms ℝ n} (h : p.First) (c : ℝ) : (p.addConst c).First := by
  unfold Terms.addConst
  rcases h with ⟨t, ht, h⟩ | h
  · refine .inl ⟨t, List.mem_append.2 (.inl (List.mem_filter.2 ⟨ht, ?_⟩)), h⟩
    simp only [ne_eq, decide_not, Bool.not_eq_true', decide_eq_false_iff_not]
    intro e; rw [e] at h; simp at h
  · right
    intro t ht
    rcases List.mem_append.1 ht with ht | ht
    · exact h t (List.mem_filter.1 ht).1
    · split_ifs at ht
      · cases ht
      · rw [List.mem_singleton.1 ht]

theorem Terms.Canon.minus {p : Terms ℝ n} (h : p.Canon) : p.minus.Canon := by
  refine ⟨?_, ?_⟩
  · have : p.minus.map Prod.fst = p.map Prod.fst := by simp [Terms.minus]
    rw [this]; exact h.1
  · intro t ht
    obtain ⟨s, hs, rfl⟩ := List.mem_map.1 ht
    simpa using h.2 s hs

theorem Terms.First.minus [NeZero n] {p : Terms ℝ n} (h : p.First) : p.minus.First := by
  rcases h with ⟨t, ht, h⟩ | h
  · exact .inl ⟨_, List.mem_map.2 ⟨t, ht, rfl⟩, h⟩
  · right
    intro t ht
    obtain ⟨s, hs, rfl⟩ := List.mem_map.1 ht
    exact h s hs

/-- The points over which `rpa_polyopt` minimises. -/
def PFeasible (ineqs eqs : List (Terms ℝ n)) (eqtol : ℝ) (a b x : Pt ℝ n) : Prop :=
  a ≤ x ∧ x ≤ b ∧ (∀ p ∈ ineqs, 0 ≤ p.eval x) ∧ ∀ e ∈ eqs, |e.eval x| ≤ eqtol

theorem relaxed_iff (ineqs eqs : List (Terms ℝ n)) (eqtol : ℝ) (x : Pt ℝ n) :
    (∀ p ∈ relaxed ineqs eqs eqtol, 0 ≤ p.eval x) ↔ (∀ p ∈ ineqs, 0 ≤ p.eval x) ∧ ∀ e ∈ eqs, |e.eval x| ≤ eqtol := by
  unfold relaxed
  constructor
  · intro h
    refine ⟨fun p hp => h p (List.mem_append.2 (.inl hp)), fun e he => ?_⟩
    have h1 := h (e.addConst eqtol) (List.mem_append.2 (.inr (List.mem_flatMap.2 ⟨e, he, by simp⟩)))
    have h2 := h (e.minus.addConst eqtol) (List.mem_append.2 (.inr (List.mem_flatMap.2 ⟨e, he, by simp⟩)))
    rw [Terms.eval_addConst] at h1 h2
    rw [Terms.eval_minus] at h2
    rw [abs_le]; constructor <;> linarith
  · rintro ⟨h1, h2⟩ p hp
    rcases List.mem_append.1 hp with hp | hp
    · exact h1 p hp
    · obtain ⟨e, he, hpe⟩ := List.mem_flatMap.1 hp
      have := abs_le.1 (h2 e he)
      simp only [List.mem_cons, List.not_mem_nil, or_false] at hpe
      rcases hpe with rfl | rfl
      · rw [Terms.eval_addConst]; linarith
      · rw [Terms.eval_addConst, Terms.eval_minus]; linarith

theorem relaxed_ok [NeZero n] {ineqs eqs : List (Terms ℝ n)} (h : ∀ p ∈ ineqs ++ eqs, p.Canon ∧ p.First) (eqtol : ℝ) : ∀ p ∈ relaxed ineqs eqs eqtol, p.Canon ∧ p.First := by
  intro p hp
  rcases List.mem_append.1 hp with hp | hp
  · exact h p (by simp [hp])
  · obtain ⟨e, he, hpe⟩ := List.mem_flatMap.1 hp
    obtain ⟨h1, h2⟩ := h e (by simp [he])
    simp only [List.mem_cons, List.not_mem_nil, or_false] at hpe
    rcases hpe with rfl | rfl
    · exact ⟨h1.addConst _, h2.addConst _⟩
    · exact ⟨h1.minus.addConst _, h2.minus.addConst _⟩

section Polyopt

variable [NeZero n] {shift : Terms ℝ n → Pt ℝ n → Terms ℝ n} {rs : Root ℝ} {rtol tol eqtol : ℝ} {pick : ℕ → ℕ} {maxIter : ℕ} {cbv : Option ℝ}
  {f : Terms ℝ n} {ineqs eqs : List (Terms ℝ n)} {a b : Pt ℝ n}

/-- What `rpa_polyopt` does if every constraint is a constant or contains the first variable. -/
theorem polyopt_cases (hs : ShiftSound shift) (h : ∀ p ∈ ineqs ++ eqs, p.Canon ∧ p.First) :
    (∀ x, ¬ PFeasible ineqs eqs eqtol a b x) ∨
    ∃ B : Box ℝ n, polyopt shift rs rtol tol eqtol pick maxIter cbv f ineqs eqs a b =
        gmop (asDm shift f B.a).1 (asDm shift f B.a).2 B.gh rs rtol tol pick maxIter cbv B.a B.b ∧
      PairsRise B.a B.b B.gh ∧ ∀ x, GFeasible B.gh B.a B.b x ↔ PFeasible ineqs eqs eqtol a b x := by
  rcases addAll_spec hs (relaxed ineqs eqs eqtol) ⟨a, b, []⟩ (relaxed_ok h eqtol) (by intro q hq; cases hq) with ⟨B, e, hn⟩ | ⟨B, e, h1, h2⟩
  · left
    rintro x ⟨_, _, h3, h4⟩
    obtain ⟨p, hp, hlt⟩ := hn x
    exact absurd ((relaxed_iff ineqs eqs eqtol x).2 ⟨h3, h4⟩ p hp) (not_le.2 hlt)
  · right
    refine ⟨B, by unfold polyopt; rw [e], h1, fun x => ?_⟩
    have := h2 x
    rw [relaxed_iff] at this
    refine this.trans ?_
    simp [Box.Holds, GFeasible, PFeasible, and_assoc]

/-- **C94 for polynomials, soundness, partial.** If there is a feasible point and every constraint is a constant or contains the first variable, a point that is returned satisfies
every constraint (equations up to `eqtol`), and the value is the value of the polynomial there.  Missing: other constraints are ignored (`polyopt_skip`), and contradictory bounds are
answered by a point (`polyopt_empty_wrong`). -/
theorem polyopt_sound_partial (hs : ShiftSound shift) (hrs : rs.Sound) (hrt : 0 < rtol) (ht : 0 ≤ tol) (hm : 0 < maxIter) (h : ∀ p ∈ ineqs ++ eqs, p.Canon ∧ p.First)
    {y : Pt ℝ n} (hy : PFeasible ineqs eqs eqtol a b y) {r : Result ℝ n} (hr : polyopt shift rs rtol tol eqtol pick maxIter cbv f ineqs eqs a b = .ok r) {x : Pt ℝ n} (hx : r.x = some x) :
    PFeasible ineqs eqs eqtol a b x ∧ r.f = some (f.eval x) := by
  rcases polyopt_cases (rs := rs) (rtol := rtol) (tol := tol) (pick := pick) (maxIter := maxIter) (cbv := cbv) (f := f) hs h with hn | ⟨B, e, h1, h2⟩
  · exact absurd hy (hn y)
  · rw [e] at hr
    obtain ⟨d1, d2⟩ := asDm_spec hs f B.a
    have hB := (h2 y).2 hy
    obtain ⟨k1, k2, _⟩ := gmop_sound (d2 B.b).1 (d2 B.b).2 h1 hrs hrt ht (hB.1.trans hB.2.1) hm hr hx
    exact ⟨(h2 x).1 k1, by rw [k2, d1]⟩

/-- **C94 for polynomials, infeasibility, partial.** If every constraint is a constant or contains the first variable, a search that has converged without a point shows that no
feasible point beats the bound given by the caller. -/
theorem polyopt_none_partial (hs : ShiftSound shift) (hrs : rs.Sound) (hrt : 0 < rtol) (ht : 0 ≤ tol) (hm : 0 < maxIter) (h : ∀ p ∈ ineqs ++ eqs, p.Canon ∧ p.First)
    {r : Result ℝ n} (hr : polyopt shift rs rtol tol eqtol pick maxIter cbv f ineqs eqs a b = .ok r) (hx : r.x = none) (hc : r.converged = true) {y : Pt ℝ n}
    (hy : PFeasible ineqs eqs eqtol a b y) : ∃ c, cbv = some c ∧ c ≤ f.eval y := by
  rcases polyopt_cases (rs := rs) (rtol := rtol) (tol := tol) (pick := pick) (maxIter := maxIter) (cbv := cbv) (f := f) hs h with hn | ⟨B, e, h1, h2⟩
  · exact absurd hy (hn y)
  · rw [e] at hr
    obtain ⟨d1, d2⟩ := asDm_spec hs f B.a
    have hB := (h2 y).2 hy
    obtain ⟨c, k1, k2⟩ := (gmop_none (d2 B.b).1 (d2 B.b).2 h1 hrs hrt ht (hB.1.trans hB.2.1) hm hr hx).2 hc y hB
    exact ⟨c, k1, by rw [← d1]; exact k2⟩

/-- **C94 for polynomials, no exception, partial**: for a feasible problem without a bound of the caller the function returns. -/
theorem polyopt_returns_partial (hs : ShiftSound shift) (hrs : rs.Sound) (hrt : 0 < rtol) (ht : 0 ≤ tol) (hm : 0 < maxIter) (h : ∀ p ∈ ineqs ++ eqs, p.Canon ∧ p.First) {y : Pt ℝ n}
    (hy : PFeasible ineqs eqs eqtol a b y) : ∃ r, polyopt shift rs rtol tol eqtol pick maxIter none f ineqs eqs a b = .ok r := by
  rcases polyopt_cases (rs := rs) (rtol := rtol) (tol := tol) (pick := pick) (maxIter := maxIter) (cbv := none) (f := f) hs h with hn | ⟨B, e, h1, h2⟩
  · exact absurd hy (hn y)
  · rw [e]
    obtain ⟨d1, d2⟩ := asDm_spec hs f B.a
    exact gmop_returns (d2 B.b).1 (d2 B.b).2 h1 hrs hrt ht hm ((h2 y).2 hy) (by simp)

/-- **Fault.** A constraint without the first variable is ignored if its leading coefficient is positive: `degree()` is the degree in the first variable. -/
theorem polyopt_skip {p : Terms ℝ n} (hp : ∀ t ∈ p, t.1 0 = 0) (hl : 0 ≤ p.lc) :
    polyopt shift rs rtol tol eqtol pick maxIter cbv f (p :: ineqs) eqs a b = polyopt shift rs rtol tol eqtol pick maxIter cbv f ineqs eqs a b := by
  have hd : p.degree ≤ 0 := by
    by_contra hc
    obtain ⟨t, ht, e⟩ := Terms.degree_mem (p := p) (by omega)
    have := hp t ht; omega
  have : addAll shift (relaxed (p :: ineqs) eqs eqtol) ⟨a, b, []⟩ = addAll shift (relaxed ineqs eqs eqtol) ⟨a, b, []⟩ := by
    have e : relaxed (p :: ineqs) eqs eqtol = p :: relaxed ineqs eqs eqtol := rfl
    rw [e, addAll, addIneq, if_pos hd, if_neg (not_lt.2 hl)]
  unfold polyopt
  rw [this]

/-- **Fault.** A constraint without the first variable makes the problem infeasible if its leading coefficient is negative. -/
theorem polyopt_refuse {p : Terms ℝ n} (hp : ∀ t ∈ p, t.1 0 = 0) (hl : p.lc < 0) :
    polyopt shift rs rtol tol eqtol pick maxIter cbv f (p :: ineqs) eqs a b = .ok ⟨none, none, 1, true, a, b⟩ := by
  have hd : p.degree ≤ 0 := by
    by_contra hc
    obtain ⟨t, ht, e⟩ := Terms.degree_mem (p := p) (by omega)
    have := hp t ht; omega
  have : addAll shift (relaxed (p :: ineqs) eqs eqtol) ⟨a, b, []⟩ = .inr ⟨a, b, []⟩ := by
    have e : relaxed (p :: ineqs) eqs eqtol = p :: relaxed ineqs eqs eqtol := rfl
    rw [e, addAll, addIneq, if_pos hd, if_pos hl]
  unfold polyopt
  rw [this]

end Polyopt

end Verif.Rpa
