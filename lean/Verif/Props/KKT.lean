import Verif.Model.KKT
import Mathlib.Analysis.Calculus.LagrangeMultipliers
import Mathlib.Analysis.Calculus.FDeriv.Pi
import Mathlib.Analysis.Calculus.FDeriv.Mul
import Mathlib.Analysis.Convex.Deriv
import Mathlib.Tactic.Linarith
import Mathlib.Tactic.Ring
import Mathlib.Tactic.FieldSimp

/-!
# C103: the Karush-Kuhn-Tucker system
-/

namespace Verif.KKT

open MvPolynomial

variable {n p q : ℕ}

/-- `(x, λ, μ)` solves every equation of the system. -/
def Solves (S : List (MvPolynomial (Sym n p q) ℝ)) (x : Fin n → ℝ) (l : Fin p → ℝ) (m : Fin q → ℝ) : Prop :=
  ∀ e ∈ S, eval (Sum.elim x (Sum.elim l m)) e = 0

theorem eval_lift (f : MvPolynomial (Fin n) ℝ) (x : Fin n → ℝ) (l : Fin p → ℝ) (m : Fin q → ℝ) :
    eval (Sum.elim x (Sum.elim l m)) (lift f) = eval x f := by
  unfold lift
  rw [eval_rename]; rfl

theorem pderiv_lift (f : MvPolynomial (Fin n) ℝ) (i : Fin n) : pderiv (Sum.inl i) (lift f : MvPolynomial (Sym n p q) ℝ) = lift (pderiv i f) :=
  pderiv_rename Sum.inl_injective i f

theorem sum_finRange {M : Type*} [AddCommMonoid M] {k : ℕ} (f : Fin k → M) : ((List.finRange k).map f).sum = ∑ i, f i := by
  rw [← List.ofFn_eq_map, List.sum_ofFn]

theorem eval_stationarity (f : MvPolynomial (Fin n) ℝ) (g : Fin p → MvPolynomial (Fin n) ℝ) (h : Fin q → MvPolynomial (Fin n) ℝ)
    (i : Fin n) (x : Fin n → ℝ) (l : Fin p → ℝ) (m : Fin q → ℝ) :
    eval (Sum.elim x (Sum.elim l m)) (pderiv (Sum.inl i) (lag f g h)) =
      eval x (pderiv i f) - ∑ j, l j * eval x (pderiv i (g j)) + ∑ k, m k * eval x (pderiv i (h k)) := by
  unfold lag
  rw [sum_finRange, sum_finRange]
  simp only [map_add, map_sub, map_sum, pderiv_mul, pderiv_lift, eval_lift, map_mul]
  have h1 : ∀ j : Fin p, pderiv (Sum.inl i) (lam j : MvPolynomial (Sym n p q) ℝ) = 0 := fun j => pderiv_X_of_ne (by simp)
  have h2 : ∀ k : Fin q, pderiv (Sum.inl i) (mu k : MvPolynomial (Sym n p q) ℝ) = 0 := fun j => pderiv_X_of_ne (by simp)
  simp [h1, h2, lam, mu]

/-- What it means to solve the system: stationarity, complementarity, the equations, and with `with_self` the value zero. -/
theorem solves_iff (f : MvPolynomial (Fin n) ℝ) (g : Fin p → MvPolynomial (Fin n) ℝ) (h : Fin q → MvPolynomial (Fin n) ℝ) (ws : Bool)
    (x : Fin n → ℝ) (l : Fin p → ℝ) (m : Fin q → ℝ) :
    Solves (kkt f g h ws) x l m ↔
      (∀ i, eval x (pderiv i f) - ∑ j, l j * eval x (pderiv i (g j)) + ∑ k, m k * eval x (pderiv i (h k)) = 0) ∧
      (∀ j, l j * eval x (g j) = 0) ∧ (∀ k, eval x (h k) = 0) ∧ (ws = true → eval x f = 0) := by
  unfold Solves kkt
  simp only [List.mem_append, List.mem_map, List.mem_finRange, true_and]
  constructor
  · intro H
    refine ⟨fun i => ?_, fun j => ?_, fun k => ?_, fun hw => ?_⟩
    · rw [← eval_stationarity]; exact H _ (Or.inl (Or.inl (Or.inl ⟨i, rfl⟩)))
    · have := H _ (Or.inl (Or.inl (Or.inr ⟨j, rfl⟩)))
      rw [map_mul, eval_lift] at this
      simpa [lam] using this
    · have := H _ (Or.inl (Or.inr ⟨k, rfl⟩))
      rwa [eval_lift] at this
    · have := H (lift f) (Or.inr (by simp [hw]))
      rwa [eval_lift] at this
  · rintro ⟨h1, h2, h3, h4⟩ e (((⟨i, rfl⟩ | ⟨j, rfl⟩) | ⟨k, rfl⟩) | he)
    · rw [eval_stationarity]; exact h1 i
    · rw [map_mul, eval_lift]; simpa [lam] using h2 j
    · rw [eval_lift]; exact h3 k
    · cases ws with
      | false => simp at he
      | true =>
        simp at he
        rw [he, eval_lift]; exact h4 rfl

/-- The derivative of a polynomial function. -/
noncomputable def grad (f : MvPolynomial (Fin n) ℝ) (x : Fin n → ℝ) : StrongDual ℝ (Fin n → ℝ) :=
  ∑ i, eval x (pderiv i f) • ContinuousLinearMap.proj (R := ℝ) (φ := fun _ : Fin n => ℝ) i

theorem grad_apply (f : MvPolynomial (Fin n) ℝ) (x v : Fin n → ℝ) : grad f x v = ∑ i, eval x (pderiv i f) * v i := by
  simp [grad, sum_apply]

theorem hasGrad (f : MvPolynomial (Fin n) ℝ) (x : Fin n → ℝ) : HasStrictFDerivAt (fun y => eval y f) (grad f x) x := by
  induction f using MvPolynomial.induction_on with
  | C a =>
    have : grad (C a : MvPolynomial (Fin n) ℝ) x = 0 := by simp [grad]
    rw [this]
    simpa using hasStrictFDerivAt_const (𝕜 := ℝ) a x
  | add f g hf hg =>
    have : grad (f + g) x = grad f x + grad g x := by
      ext v; simp [grad_apply, add_mul, Finset.sum_add_distrib]
    have e : (fun y : Fin n → ℝ => eval y (f + g)) = (fun y => eval y f) + fun y => eval y g := by funext y; simp
    rw [this, e]
    exact hf.add hg
  | mul_X f i hf =>
    have hX : HasStrictFDerivAt (fun y : Fin n → ℝ => y i) (ContinuousLinearMap.proj (R := ℝ) (φ := fun _ : Fin n => ℝ) i) x :=
      (ContinuousLinearMap.proj (R := ℝ) (φ := fun _ : Fin n => ℝ) i).hasStrictFDerivAt
    have : grad (f * X i) x = eval x f • ContinuousLinearMap.proj (R := ℝ) (φ := fun _ : Fin n => ℝ) i + x i • grad f x := by
      ext v
      simp only [grad_apply, pderiv_mul, map_add, map_mul, eval_X, add_apply, smul_apply,
        ContinuousLinearMap.proj_apply, smul_eq_mul, add_mul, Finset.sum_add_distrib, Finset.mul_sum]
      rw [add_comm]
      congr 1
      · rw [Finset.sum_eq_single i]
        · simp
        · intro j _ hj
          rw [pderiv_X_of_ne hj.symm]; simp
        · simp
      · exact Finset.sum_congr rfl fun j _ => by ring
    have e : (fun y : Fin n → ℝ => eval y (f * X i)) = (fun y => eval y f) * fun y => y i := by funext y; simp
    rw [this, e]
    exact hf.mul hX

/-- The feasible set of the problem. -/
def Feasible (g : Fin p → MvPolynomial (Fin n) ℝ) (h : Fin q → MvPolynomial (Fin n) ℝ) : Set (Fin n → ℝ) :=
  {x | (∀ j, 0 ≤ eval x (g j)) ∧ ∀ k, eval x (h k) = 0}

/-- The inequalities that are tight at a point, together with the equations. -/
abbrev Act (g : Fin p → MvPolynomial (Fin n) ℝ) (q : ℕ) (x : Fin n → ℝ) := {j : Fin p // eval x (g j) = 0} ⊕ Fin q

/-- **C103.** Every local minimum of `f` on the feasible set at which the gradients of the tight constraints are linearly independent is a
solution of the system for some multipliers. -/
theorem kkt_necessary (f : MvPolynomial (Fin n) ℝ) (g : Fin p → MvPolynomial (Fin n) ℝ) (h : Fin q → MvPolynomial (Fin n) ℝ)
    (x : Fin n → ℝ) (hx : x ∈ Feasible g h) (hm : IsLocalMinOn (fun y => eval y f) (Feasible g h) x)
    (hind : LinearIndependent ℝ (fun a : Act g q x => Sum.elim (fun j : {j : Fin p // eval x (g j) = 0} => grad (g j.1) x) (fun k => grad (h k) x) a)) :
    ∃ l m, Solves (kkt f g h false) x l m := by
  classical
  let c : Act g q x → MvPolynomial (Fin n) ℝ := Sum.elim (fun j => g j.1) h
  have hloc : IsLocalMinOn (fun y => eval y f) {y | ∀ a, eval y (c a) = eval x (c a)} x := by
    have hin : ∀ᶠ y in nhds x, ∀ j, eval x (g j) ≠ 0 → 0 < eval y (g j) := by
      rw [Filter.eventually_all]
      intro j
      by_cases hj : eval x (g j) = 0
      · exact Filter.Eventually.of_forall fun y hy => absurd hj hy
      · have hpos : 0 < eval x (g j) := lt_of_le_of_ne (hx.1 j) (Ne.symm hj)
        filter_upwards [(hasGrad (g j) x).continuousAt.eventually (lt_mem_nhds hpos)] with y hy _ using hy
    have hm' : ∀ᶠ y in nhds x, y ∈ Feasible g h → eval x f ≤ eval y f := eventually_nhdsWithin_iff.1 hm
    refine eventually_nhdsWithin_iff.2 ?_
    filter_upwards [hin, hm'] with y hy1 hy2 hy3
    apply hy2
    refine ⟨fun j => ?_, fun k => ?_⟩
    · by_cases hj : eval x (g j) = 0
      · have := hy3 (Sum.inl ⟨j, hj⟩)
        simp only [c, Sum.elim_inl] at this
        rw [this, hj]
      · exact (hy1 j hj).le
    · have := hy3 (Sum.inr k)
      simp only [c, Sum.elim_inr] at this
      rw [this, hx.2 k]
  obtain ⟨Λ, Λ₀, hne, hsum⟩ := IsLocalExtrOn.exists_multipliers_of_hasStrictFDerivAt (f := fun a y => eval y (c a))
    (f' := fun a => grad (c a) x) hloc.isExtr (fun a => hasGrad (c a) x) (hasGrad f x)
  have hgc : (fun a : Act g q x => grad (c a) x) = fun a : Act g q x => Sum.elim (fun j : {j : Fin p // eval x (g j) = 0} => grad (g j.1) x) (fun k => grad (h k) x) a := by
    funext a; cases a <;> rfl
  have h0 : Λ₀ ≠ 0 := by
    rintro rfl
    rw [zero_smul, add_zero] at hsum
    have := Fintype.linearIndependent_iff.1 (hgc ▸ hind) Λ hsum
    exact hne (by ext <;> simp [this])
  refine ⟨fun j => if hj : eval x (g j) = 0 then -(Λ (Sum.inl ⟨j, hj⟩) / Λ₀) else 0, fun k => Λ (Sum.inr k) / Λ₀, ?_⟩
  rw [solves_iff]
  refine ⟨fun i => ?_, fun j => ?_, hx.2, by simp⟩
  · have e := congrArg (fun φ : StrongDual ℝ (Fin n → ℝ) => φ (Pi.single i 1)) hsum
    simp only [add_apply, sum_apply, smul_apply, grad_apply, smul_eq_mul,
      zero_apply, Fintype.sum_sum_type] at e
    have hs : ∀ φ : MvPolynomial (Fin n) ℝ, ∑ i', eval x (pderiv i' φ) * (Pi.single i 1 : Fin n → ℝ) i' = eval x (pderiv i φ) := by
      intro φ
      rw [Finset.sum_eq_single i]
      · simp
      · intro j _ hj; simp [Pi.single_eq_of_ne hj]
      · simp
    simp only [hs, c, Sum.elim_inl, Sum.elim_inr] at e
    have e2 : ∑ j, (if hj : eval x (g j) = 0 then -(Λ (Sum.inl ⟨j, hj⟩) / Λ₀) else 0) * eval x (pderiv i (g j)) =
        ∑ j : {j : Fin p // eval x (g j) = 0}, -(Λ (Sum.inl j) / Λ₀) * eval x (pderiv i (g j.1)) := by
      have e3 : ∀ j : {j : Fin p // eval x (g j) = 0}, -(Λ (Sum.inl j) / Λ₀) * eval x (pderiv i (g j.1)) =
          (fun j => (if hj : eval x (g j) = 0 then -(Λ (Sum.inl ⟨j, hj⟩) / Λ₀) else 0) * eval x (pderiv i (g j))) j.1 := by
        rintro ⟨j, hj⟩; simp [hj]
      rw [Finset.sum_congr rfl fun j _ => e3 j,
        ← Finset.sum_subtype (Finset.univ.filter fun j => eval x (g j) = 0) (by simp)
          (fun j => (if hj : eval x (g j) = 0 then -(Λ (Sum.inl ⟨j, hj⟩) / Λ₀) else 0) * eval x (pderiv i (g j)))]
      symm
      apply Finset.sum_subset (Finset.filter_subset _ _)
      intro j _ hj
      have : ¬ eval x (g j) = 0 := by simpa using hj
      rw [dif_neg this, zero_mul]
    rw [e2]
    have e4 : ∑ j : {j : Fin p // eval x (g j) = 0}, -(Λ (Sum.inl j) / Λ₀) * eval x (pderiv i (g j.1)) =
        -(1 / Λ₀) * ∑ j : {j : Fin p // eval x (g j) = 0}, Λ (Sum.inl j) * eval x (pderiv i (g j.1)) := by
      rw [Finset.mul_sum]
      exact Finset.sum_congr rfl fun j _ => by ring
    have e5 : ∑ k, Λ (Sum.inr k) / Λ₀ * eval x (pderiv i (h k)) = (1 / Λ₀) * ∑ k, Λ (Sum.inr k) * eval x (pderiv i (h k)) := by
      rw [Finset.mul_sum]
      exact Finset.sum_congr rfl fun k _ => by ring
    rw [e4, e5]
    have e6 : ∀ s t u : ℝ, s + t + Λ₀ * u = 0 → u - -(1 / Λ₀) * s + 1 / Λ₀ * t = 0 := by
      intro s t u hh
      field_simp
      linarith
    exact e6 _ _ _ e
  · by_cases hj : eval x (g j) = 0
    · exact mul_eq_zero_of_right _ hj
    · rw [dif_neg hj, zero_mul]

/-- **C103.** A feasible solution of the system with `λ >= 0` at which the Lagrangian is convex in the variables is a global minimum on
the feasible set. -/
theorem kkt_sufficient (f : MvPolynomial (Fin n) ℝ) (g : Fin p → MvPolynomial (Fin n) ℝ) (h : Fin q → MvPolynomial (Fin n) ℝ) (ws : Bool)
    (x : Fin n → ℝ) (l : Fin p → ℝ) (m : Fin q → ℝ) (hl : ∀ j, 0 ≤ l j) (hs : Solves (kkt f g h ws) x l m)
    (hc : ConvexOn ℝ Set.univ fun y : Fin n → ℝ => eval y f - ∑ j, l j * eval y (g j) + ∑ k, m k * eval y (h k)) :
    ∀ y ∈ Feasible g h, eval x f ≤ eval y f := by
  intro y hy
  rw [solves_iff] at hs
  obtain ⟨h1, h2, h3, -⟩ := hs
  let L : MvPolynomial (Fin n) ℝ := f - ∑ j, C (l j) * g j + ∑ k, C (m k) * h k
  have hL : ∀ z, eval z L = eval z f - ∑ j, l j * eval z (g j) + ∑ k, m k * eval z (h k) := by intro z; simp [L]
  have hgL : grad L x = 0 := by
    ext v
    rw [grad_apply]
    have : ∀ i, eval x (pderiv i L) = 0 := by
      intro i
      rw [← h1 i]
      simp [L, pderiv_mul]
    simp [this]
  have hmin : eval x L ≤ eval y L := by
    have hd : HasDerivAt (fun t : ℝ => eval (x + t • (y - x)) L) 0 0 := by
      have hline : HasDerivAt (fun t : ℝ => x + t • (y - x)) (y - x) 0 := by
        simpa using ((hasDerivAt_id (0 : ℝ)).smul_const (y - x)).const_add x
      have hg := (hasGrad L (x + (0 : ℝ) • (y - x))).hasFDerivAt
      have := hg.comp_hasDerivAt (0 : ℝ) hline
      rw [zero_smul, add_zero, hgL] at this
      exact this
    have hcv : ConvexOn ℝ Set.univ (fun t : ℝ => eval (x + t • (y - x)) L) := by
      have e : (fun y : Fin n → ℝ => eval y f - ∑ j, l j * eval y (g j) + ∑ k, m k * eval y (h k)) = fun z => eval z L := by
        funext z; exact (hL z).symm
      rw [e] at hc
      refine ⟨convex_univ, fun s _ t _ a b ha hb hab => ?_⟩
      have := hc.2 (Set.mem_univ (x + s • (y - x))) (Set.mem_univ (x + t • (y - x))) ha hb hab
      have e2 : x + (a • s + b • t) • (y - x) = a • (x + s • (y - x)) + b • (x + t • (y - x)) := by
        rw [smul_add, smul_add, smul_smul, smul_smul, add_add_add_comm, ← add_smul, ← add_smul, hab, one_smul]; rfl
      simp only [e2]
      exact this
    have hsl := hcv.le_slope_of_hasDerivAt (Set.mem_univ 0) (Set.mem_univ 1) zero_lt_one hd
    simp [slope_def_field] at hsl
    linarith
  rw [hL, hL] at hmin
  have s1 : ∑ j, l j * eval x (g j) = 0 := Finset.sum_eq_zero fun j _ => h2 j
  have s2 : ∑ k, m k * eval x (h k) = 0 := Finset.sum_eq_zero fun k _ => by rw [h3 k, mul_zero]
  have s3 : ∑ k, m k * eval y (h k) = 0 := Finset.sum_eq_zero fun k _ => by rw [hy.2 k, mul_zero]
  have s4 : 0 ≤ ∑ j, l j * eval y (g j) := Finset.sum_nonneg fun j _ => mul_nonneg (hl j) (hy.1 j)
  rw [s1, s2, s3] at hmin
  linarith

/-! ### Examples -/

/-- The example of the docstring (findroot.py 207-210): minimise `2 x + 3 y` for `x >= 0`, `x² + y² = 1`. -/
noncomputable def exF : MvPolynomial (Fin 2) ℝ := C 2 * X 0 + C 3 * X 1

noncomputable def exG : Fin 1 → MvPolynomial (Fin 2) ℝ := fun _ => X 0

noncomputable def exH : Fin 1 → MvPolynomial (Fin 2) ℝ := fun _ => X 0 * X 0 + X 1 * X 1 - C 1

theorem ex_solves : Solves (kkt exF exG exH false) ![0, -1] ![2] ![3 / 2] := by
  rw [solves_iff]
  refine ⟨fun i => ?_, fun j => ?_, fun k => ?_, by simp⟩
  · fin_cases i <;> simp [exF, exG, exH, pderiv_mul, pderiv_X] <;> norm_num
  · simp [exG]
  · simp [exH]

/-- The solution `(0, -1)` is the global minimum. -/
theorem ex_min : ∀ y ∈ Feasible exG exH, eval ![0, -1] exF ≤ eval y exF := by
  refine kkt_sufficient exF exG exH false ![0, -1] ![2] ![3 / 2] ?_ ex_solves ?_
  · intro j; fin_cases j; simp
  · refine ⟨convex_univ, fun u _ v _ a b ha hb hab => ?_⟩
    obtain rfl : b = 1 - a := by linarith
    simp [exF, exG, exH]
    nlinarith [mul_nonneg (mul_nonneg ha hb) (sq_nonneg (u 0 - v 0)), mul_nonneg (mul_nonneg ha hb) (sq_nonneg (u 1 - v 1))]

/-- The hypotheses of `kkt_necessary` hold at this minimum. -/
theorem ex_necessary : ∃ l m, Solves (kkt exF exG exH false) ![0, -1] l m := by
  refine kkt_necessary exF exG exH ![0, -1] ⟨fun j => ?_, fun k => ?_⟩ ?_ ?_
  · simp [exG]
  · simp [exH]
  · exact Filter.eventually_of_mem self_mem_nhdsWithin ex_min
  · rw [Fintype.linearIndependent_iff]
    intro w hw
    have e0 := congrArg (fun φ : StrongDual ℝ (Fin 2 → ℝ) => φ ![1, 0]) hw
    have e1 := congrArg (fun φ : StrongDual ℝ (Fin 2 → ℝ) => φ ![0, 1]) hw
    simp [Fintype.sum_sum_type, grad_apply, exG, exH, pderiv_X] at e0 e1
    rintro (j | k)
    · exact (Fintype.sum_subsingleton (fun x => w (Sum.inl x)) j).symm.trans e0
    · rw [Subsingleton.elim k 0]; exact e1

/-- **C103 boundary.** Without independent gradients a minimum can be lost: `x` has its minimum for `x³ >= 0` at 0, and no multipliers
solve the system there. -/
theorem kkt_degenerate :
    (∀ y ∈ Feasible (fun _ : Fin 1 => (X 0 ^ 3 : MvPolynomial (Fin 1) ℝ)) (Fin.elim0 : Fin 0 → MvPolynomial (Fin 1) ℝ),
      eval ![0] (X 0 : MvPolynomial (Fin 1) ℝ) ≤ eval y (X 0)) ∧
    ¬ ∃ l m, Solves (kkt (X 0 : MvPolynomial (Fin 1) ℝ) (fun _ : Fin 1 => X 0 ^ 3) (Fin.elim0 : Fin 0 → MvPolynomial (Fin 1) ℝ) false) ![0] l m := by
  constructor
  · intro y hy
    have := hy.1 0
    simp at this ⊢
    by_contra hneg
    push Not at hneg
    have : y 0 ^ 3 < 0 := by
      have h2 : 0 < y 0 ^ 2 := sq_pos_of_neg hneg
      nlinarith
    linarith
  · rintro ⟨l, m, hs⟩
    rw [solves_iff] at hs
    have := hs.1 0
    simp at this

end Verif.KKT
