import Verif.Proofs.TermsMv
import Mathlib.Algebra.Polynomial.Eval.Degree
import Mathlib.Algebra.Polynomial.Div
import Mathlib.Algebra.MvPolynomial.Polynomial
import Mathlib.Algebra.Order.Field.Basic
import Mathlib.Algebra.Order.BigOperators.Group.Finset
import Mathlib.Algebra.Order.BigOperators.Ring.Finset
import Mathlib.Tactic.Linarith
import Mathlib.Tactic.Positivity

/-!
# Signs of polynomials on the closure of a set

In an ordered field, a polynomial that is nonnegative at all small positive numbers is nonnegative at zero.
-/

namespace Verif.TermsPoly

open Verif Coeff

variable {K : Type*} [Field K] [LinearOrder K] [IsStrictOrderedRing K]

/-- A polynomial is bounded between zero and one. -/
theorem eval_bounded (p : Polynomial K) : ∃ M : K, 0 ≤ M ∧ ∀ x, 0 ≤ x → x ≤ 1 → |p.eval x| ≤ M := by
  refine ⟨∑ i ∈ Finset.range (p.natDegree + 1), |p.coeff i|, Finset.sum_nonneg fun i _ => abs_nonneg _, ?_⟩
  intro x h0 h1
  rw [Polynomial.eval_eq_sum_range]
  refine (Finset.abs_sum_le_sum_abs _ _).trans (Finset.sum_le_sum fun i _ => ?_)
  rw [abs_mul, abs_of_nonneg (pow_nonneg h0 i)]
  exact mul_le_of_le_one_right (abs_nonneg _) (pow_le_one₀ h0 h1)

theorem nonneg_at_zero (p : Polynomial K) (h : ∀ x, 0 < x → 0 ≤ p.eval x) : 0 ≤ p.eval 0 := by
  by_contra hn
  push Not at hn
  obtain ⟨M, hM, hb⟩ := eval_bounded (p.divX)
  have hp : ∀ x, p.eval x = x * p.divX.eval x + p.eval 0 := by
    intro x
    conv_lhs => rw [← Polynomial.divX_mul_X_add p]
    rw [Polynomial.eval_add, Polynomial.eval_mul, Polynomial.eval_X, Polynomial.eval_C, Polynomial.coeff_zero_eq_eval_zero]
    ring
  set e := min 1 (-p.eval 0 / (2 * (M + 1))) with he
  have hpos : 0 < e := lt_min zero_lt_one (div_pos (by linarith) (by linarith))
  have h1 := h e hpos
  rw [hp] at h1
  have h2 := le_abs_self (p.divX.eval e) |>.trans (hb e hpos.le (min_le_left _ _))
  have h3 : e * (2 * (M + 1)) ≤ -p.eval 0 := by
    have := min_le_right (1 : K) (-p.eval 0 / (2 * (M + 1)))
    rw [← he] at this
    calc e * (2 * (M + 1)) ≤ -p.eval 0 / (2 * (M + 1)) * (2 * (M + 1)) := mul_le_mul_of_nonneg_right this (by linarith)
      _ = -p.eval 0 := div_mul_cancel₀ _ (by positivity)
  have h4 : e * p.divX.eval e ≤ e * M := mul_le_mul_of_nonneg_left h2 hpos.le
  nlinarith

/-- The polynomial on a ray. -/
theorem exists_ray {n : ℕ} (p : List (List ℕ × K)) (hp : Arity n p) (x v : Fin n → K) :
    ∃ q : Polynomial K, ∀ t, q.eval t = evalDict p (List.ofFn fun i => x i + t * v i) := by
  refine ⟨MvPolynomial.eval₂ Polynomial.C (fun i => Polynomial.C (x i) + Polynomial.X * Polynomial.C (v i)) (toMv n p), ?_⟩
  intro t
  rw [← eval_toMv _ hp, MvPolynomial.polynomial_eval_eval₂]
  have h1 : (Polynomial.evalRingHom t).comp Polynomial.C = RingHom.id K := by
    ext r
    simp
  rw [h1, MvPolynomial.eval₂_id]
  congr 2
  funext i
  rw [Polynomial.eval_add, Polynomial.eval_mul, Polynomial.eval_C, Polynomial.eval_C, Polynomial.eval_X]

/-- A polynomial that is nonnegative along a ray is nonnegative at its end point. -/
theorem nonneg_of_ray {n : ℕ} (p : List (List ℕ × K)) (hp : Arity n p) (x v : Fin n → K) (h : ∀ t, 0 < t → 0 ≤ evalDict p (List.ofFn fun i => x i + t * v i)) :
    0 ≤ evalDict p (List.ofFn x) := by
  obtain ⟨q, hq⟩ := exists_ray p hp x v
  have := nonneg_at_zero q fun t ht => by
    rw [hq]
    exact h t ht
  rw [hq] at this
  simpa using this

end Verif.TermsPoly
