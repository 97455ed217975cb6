import Mathlib.Algebra.Polynomial.Eval.Degree
import Mathlib.Algebra.Polynomial.Inductions
import Mathlib.Algebra.Order.BigOperators.Group.Finset
import Mathlib.Algebra.Order.BigOperators.Ring.Finset
import Mathlib.Algebra.Order.Field.Basic
import Mathlib.Tactic.Linarith
import Mathlib.Tactic.Positivity

/-!
# A polynomial that is nonnegative at small positive numbers is nonnegative at zero
-/

namespace Verif.Ternary

variable {K : Type*} [Field K] [LinearOrder K] [IsStrictOrderedRing K]

theorem eval_bounded (q : Polynomial K) : ∃ M : K, 0 ≤ M ∧ ∀ e : K, 0 ≤ e → e ≤ 1 → |q.eval e| ≤ M := by
  refine ⟨∑ i ∈ Finset.range (q.natDegree + 1), |q.coeff i|, Finset.sum_nonneg fun _ _ => abs_nonneg _, fun e h0 h1 => ?_⟩
  rw [Polynomial.eval_eq_sum_range]
  refine (Finset.abs_sum_le_sum_abs _ _).trans (Finset.sum_le_sum fun i _ => ?_)
  rw [abs_mul, abs_of_nonneg (pow_nonneg h0 i)]
  exact mul_le_of_le_one_right (abs_nonneg _) (pow_le_one₀ h0 h1)

theorem eval_zero_nonneg (q : Polynomial K) (h : ∀ e : K, 0 < e → 0 ≤ q.eval e) : 0 ≤ q.eval 0 := by
  by_contra hc
  push Not at hc
  obtain ⟨M, hM, hb⟩ := eval_bounded q.divX
  have he : ∀ e : K, q.eval e = q.divX.eval e * e + q.eval 0 := by
    intro e
    conv_lhs => rw [← Polynomial.divX_mul_X_add q]
    rw [Polynomial.eval_add, Polynomial.eval_mul, Polynomial.eval_X, Polynomial.eval_C, Polynomial.coeff_zero_eq_eval_zero]
  obtain ⟨e, hed⟩ : ∃ e, e = min 1 (-q.eval 0 / (2 * (M + 1))) := ⟨_, rfl⟩
  have hM1 : 0 < 2 * (M + 1) := by linarith
  have hpos : 0 < e := by
    rw [hed]
    exact lt_min one_pos (div_pos (by linarith) hM1)
  have hle : e ≤ 1 := by
    rw [hed]
    exact min_le_left _ _
  have hle2 : e * (2 * (M + 1)) ≤ -q.eval 0 := by
    rw [← le_div_iff₀ hM1, hed]
    exact min_le_right _ _
  have h1 := h e hpos
  rw [he] at h1
  have h2 := (abs_le.1 (hb e hpos.le hle)).2
  have h3 : q.divX.eval e * e ≤ M * e := mul_le_mul_of_nonneg_right h2 hpos.le
  nlinarith

end Verif.Ternary
