import Verif.Model.IPM
import Mathlib.Analysis.Matrix.Order
import Mathlib.Analysis.Matrix.PosDef
import Mathlib.Algebra.Order.BigOperators.Ring.Finset
import Mathlib.Tactic.Linarith
import Mathlib.Tactic.FieldSimp
import Mathlib.Tactic.Ring
import Mathlib.Tactic.NormNum

/-!
# C104: the interior point method stays inside the program

In exact arithmetic every point of the iteration satisfies the linear conditions and is positive definite, and the objective does not grow.
-/

namespace Verif.IPM

open Matrix

variable {ι : Type*} [Fintype ι] [DecidableEq ι] {m : ℕ}

/-- `X` satisfies the linear conditions of the program. -/
def Feasible (P : Prob ι m) (X : Matrix ι ι ℝ) : Prop := ∀ i, (P.A i * X).trace = P.b i

theorem trace_AVX (P : Prob ι m) {X : Matrix ι ι ℝ} {lam : Fin m → ℝ} (h : P.Solved X lam) (i : Fin m) :
    (P.A i * X * P.VX X lam).trace = P.v X lam * P.b i := by
  have e := h i
  have h1 : (P.A i * X * P.VX X lam).trace = P.cxax X i + ∑ j, P.M X i j * lam j := by
    unfold Prob.VX Prob.cxax Prob.M
    rw [Matrix.mul_add, trace_add, trace_mul_comm (P.A i * X) (P.C * X), Matrix.mul_sum, trace_sum]
    congr 1
    refine Finset.sum_congr rfl fun j _ => ?_
    rw [Matrix.mul_smul, trace_smul, smul_eq_mul, mul_comm]
  have h2 : ∑ j, (P.M X i j + P.b i * P.b j) * lam j = ∑ j, P.M X i j * lam j + P.b i * ∑ j, P.b j * lam j := by
    rw [Finset.mul_sum, ← Finset.sum_add_distrib]
    exact Finset.sum_congr rfl fun j _ => by ring
  rw [h1]
  unfold Prob.v
  rw [h2] at e
  linear_combination e

theorem trace_CVX (P : Prob ι m) (X : Matrix ι ι ℝ) (lam : Fin m → ℝ) :
    (P.C * X * P.VX X lam).trace = P.cxcx X + ∑ j, P.cxax X j * lam j := by
  unfold Prob.VX Prob.cxax Prob.cxcx
  rw [Matrix.mul_add, trace_add, Matrix.mul_sum, trace_sum]
  congr 1
  refine Finset.sum_congr rfl fun j _ => ?_
  rw [Matrix.mul_smul, trace_smul, smul_eq_mul, mul_comm]

theorem trace_VXVX (P : Prob ι m) {X : Matrix ι ι ℝ} {lam : Fin m → ℝ} (h : P.Solved X lam) :
    (P.VX X lam * P.VX X lam).trace = P.cxcx X + ∑ j, P.cxax X j * lam j + P.v X lam * ∑ j, P.b j * lam j := by
  have e : (P.VX X lam * P.VX X lam).trace = (P.C * X * P.VX X lam).trace + ∑ j, lam j * (P.A j * X * P.VX X lam).trace := by
    conv_lhs => rw [show P.VX X lam * P.VX X lam = (P.C * X + ∑ j, lam j • (P.A j * X)) * P.VX X lam from rfl]
    rw [Matrix.add_mul, trace_add, Matrix.sum_mul, trace_sum]
    congr 1
    refine Finset.sum_congr rfl fun j _ => ?_
    rw [Matrix.smul_mul, trace_smul, smul_eq_mul]
  rw [e, trace_CVX, Finset.mul_sum]
  congr 1
  exact Finset.sum_congr rfl fun j _ => by rw [trace_AVX P h]; ring

theorem trace_VX (P : Prob ι m) {X : Matrix ι ι ℝ} (hf : Feasible P X) (lam : Fin m → ℝ) : (P.VX X lam).trace = -P.v X lam := by
  unfold Prob.VX Prob.v Prob.z
  rw [trace_add, trace_sum]
  have : ∑ j, (lam j • (P.A j * X)).trace = ∑ j, P.b j * lam j :=
    Finset.sum_congr rfl fun j _ => by rw [trace_smul, smul_eq_mul, hf j, mul_comm]
  rw [this]
  ring

theorem trace_next (P : Prob ι m) (rho : ℝ) (X : Matrix ι ι ℝ) (lam : Fin m → ℝ) (B : Matrix ι ι ℝ) :
    (B * P.next rho X lam).trace = P.r rho X lam * ((B * X).trace - P.beta rho X lam * (B * X * P.VX X lam).trace) := by
  unfold Prob.next
  rw [Matrix.mul_sub, trace_sub, Matrix.mul_smul, trace_smul, Matrix.mul_smul, Matrix.smul_mul, Matrix.mul_smul, trace_smul, trace_smul,
    ← Matrix.mul_assoc]
  simp only [smul_eq_mul]
  ring

/-- **A step keeps the linear conditions.** -/
theorem next_feasible (P : Prob ι m) {rho : ℝ} {X : Matrix ι ι ℝ} {lam : Fin m → ℝ} (hf : Feasible P X) (h : P.Solved X lam)
    (hd : P.beta rho X lam * P.v X lam ≠ 1) : Feasible P (P.next rho X lam) := by
  intro i
  rw [trace_next, hf i, trace_AVX P h]
  have : (1 : ℝ) - P.beta rho X lam * P.v X lam ≠ 0 := fun e => hd (by linarith)
  unfold Prob.r
  field_simp

/-- **`diff` is the decrease of the objective.** -/
theorem next_value (P : Prob ι m) {rho : ℝ} {X : Matrix ι ι ℝ} {lam : Fin m → ℝ} (hd : P.beta rho X lam * P.v X lam ≠ 1) :
    P.z (P.next rho X lam) = P.z X - P.diff rho X lam := by
  have h0 : (1 : ℝ) - P.beta rho X lam * P.v X lam ≠ 0 := fun e => hd (by linarith)
  have e : P.z (P.next rho X lam) = P.r rho X lam * (P.z X - P.beta rho X lam * (P.cxcx X + ∑ j, P.cxax X j * lam j)) := by
    unfold Prob.z
    rw [trace_next, trace_CVX]
  rw [e]
  unfold Prob.diff Prob.r
  field_simp
  ring

/-- The decrease is the squared length of the step direction. -/
theorem diff_eq (P : Prob ι m) {rho : ℝ} {X : Matrix ι ι ℝ} {lam : Fin m → ℝ} (h : P.Solved X lam) :
    P.diff rho X lam = P.beta rho X lam * ((P.VX X lam * P.VX X lam).trace + P.v X lam ^ 2) * P.r rho X lam := by
  rw [trace_VXVX P h]
  unfold Prob.diff
  have : ∑ j, P.b j * lam j = -P.v X lam - P.z X := by unfold Prob.v; ring
  rw [this]
  ring

/-! ### The bound on the eigenvalues -/

theorem cs_trace (G Q : Matrix ι ι ℝ) (hG : Gᵀ = G) (hQ : Qᵀ = Q) : (G * Q).trace ^ 2 ≤ (G * G).trace * (Q * Q).trace := by
  have tr : ∀ A B : Matrix ι ι ℝ, Bᵀ = B → (A * B).trace = ∑ p : ι × ι, A p.1 p.2 * B p.1 p.2 := by
    intro A B hB
    rw [Fintype.sum_prod_type]
    simp only [trace, diag_apply, mul_apply]
    refine Finset.sum_congr rfl fun i _ => Finset.sum_congr rfl fun j _ => ?_
    rw [show B j i = B i j from congrFun (congrFun hB i) j]
  rw [tr G Q hQ, tr G G hG, tr Q Q hQ]
  simpa only [sq] using Finset.sum_mul_sq_le_sq_mul_sq Finset.univ (fun p : ι × ι => G p.1 p.2) (fun p => Q p.1 p.2)

/-- The value of a quadratic form is at most mean plus deviation times the root of `n - 1`. -/
theorem quad_le [Nonempty ι] (H : Matrix ι ι ℝ) (hH : Hᵀ = H) (y : ι → ℝ) :
    y ⬝ᵥ H *ᵥ y ≤ (H.trace / Fintype.card ι + Real.sqrt ((H * H).trace / Fintype.card ι - (H.trace / Fintype.card ι) ^ 2)
      * Real.sqrt (Fintype.card ι - 1)) * (y ⬝ᵥ y) := by
  set n : ℝ := ((Fintype.card ι : ℕ) : ℝ) with hn
  have hn1 : (1 : ℝ) ≤ n := by rw [hn]; exact_mod_cast Fintype.card_pos (α := ι)
  have hn0 : n ≠ 0 := by linarith
  set mu := H.trace / n with hmu
  have hT : H.trace = n * mu := by rw [hmu]; field_simp
  set s := y ⬝ᵥ y with hs
  have hs0 : 0 ≤ s := Finset.sum_nonneg fun i _ => mul_self_nonneg (y i)
  have e1 : (H * vecMulVec y y).trace = y ⬝ᵥ H *ᵥ y := by rw [mul_vecMulVec, trace_vecMulVec, dotProduct_comm]
  have e2 : (vecMulVec y y).trace = s := by rw [trace_vecMulVec]
  have e3 : (vecMulVec y y * vecMulVec y y).trace = s * s := by
    rw [vecMulVec_mul_vecMulVec, trace_vecMulVec, dotProduct_smul, smul_eq_mul]
  have e4 : (1 : Matrix ι ι ℝ).trace = n := by rw [trace_one]
  have c := cs_trace (H - mu • (1 : Matrix ι ι ℝ)) (vecMulVec y y - (s / n) • (1 : Matrix ι ι ℝ))
    (by rw [transpose_sub, transpose_smul, transpose_one, hH]) (by rw [transpose_sub, transpose_smul, transpose_one, transpose_vecMulVec])
  simp only [Matrix.sub_mul, Matrix.mul_sub, Matrix.smul_mul, Matrix.mul_smul, Matrix.one_mul, Matrix.mul_one, trace_sub, trace_smul,
    smul_eq_mul, e1, e2, e3, e4, hT] at c
  set q := y ⬝ᵥ H *ᵥ y with hq
  have c' : (q - mu * s) ^ 2 ≤ ((H * H).trace / n - mu ^ 2) * (n - 1) * s ^ 2 := by
    refine le_trans (le_of_eq ?_) (c.trans (le_of_eq ?_))
    · rw [mul_comm mu n, sub_self, mul_zero, sub_zero]
    · field_simp
      ring
  have hv : 0 ≤ ((H * H).trace / n - mu ^ 2) := by
    have g : 0 ≤ ((H - mu • (1 : Matrix ι ι ℝ)) * (H - mu • (1 : Matrix ι ι ℝ))).trace := by
      have t : (H - mu • (1 : Matrix ι ι ℝ))ᵀ = H - mu • (1 : Matrix ι ι ℝ) := by rw [transpose_sub, transpose_smul, transpose_one, hH]
      set G := H - mu • (1 : Matrix ι ι ℝ)
      have : (G * G).trace = ∑ i, ∑ j, G i j * G i j := by
        simp only [trace, diag_apply, mul_apply]
        refine Finset.sum_congr rfl fun i _ => Finset.sum_congr rfl fun j _ => ?_
        rw [show G j i = G i j from congrFun (congrFun t i) j]
      rw [this]
      exact Finset.sum_nonneg fun i _ => Finset.sum_nonneg fun j _ => mul_self_nonneg _
    simp only [Matrix.sub_mul, Matrix.mul_sub, Matrix.smul_mul, Matrix.mul_smul, Matrix.one_mul, Matrix.mul_one, trace_sub, trace_smul,
      smul_eq_mul, e4, hT] at g
    have : (H * H).trace / n - mu ^ 2 = ((H * H).trace - mu * (n * mu) - mu * (n * mu - mu * n)) / n := by field_simp; ring
    rw [this]
    exact div_nonneg (by linarith) (by linarith)
  have k := Real.abs_le_sqrt c'
  rw [Real.sqrt_mul (mul_nonneg hv (by linarith)), Real.sqrt_mul hv, Real.sqrt_sq hs0] at k
  have := le_of_abs_le k
  nlinarith

/-! ### Positive definiteness -/

theorem VX_eq (P : Prob ι m) (X : Matrix ι ι ℝ) (lam : Fin m → ℝ) : P.VX X lam = (P.C + ∑ j, lam j • P.A j) * X := by
  unfold Prob.VX
  rw [Matrix.add_mul, Matrix.sum_mul]
  congr 1
  exact Finset.sum_congr rfl fun j _ => (Matrix.smul_mul _ _ _).symm

theorem quad_cong (B N : Matrix ι ι ℝ) (w : ι → ℝ) : w ⬝ᵥ (Bᵀ * N * B) *ᵥ w = (B *ᵥ w) ⬝ᵥ N *ᵥ (B *ᵥ w) := by
  rw [← Matrix.mulVec_mulVec, ← Matrix.mulVec_mulVec, dotProduct_mulVec, vecMul_transpose]

theorem top_nonneg (P : Prob ι m) {X : Matrix ι ι ℝ} (hf : Feasible P X) (lam : Fin m → ℝ) : 0 ≤ P.top X lam := by
  unfold Prob.top
  rcases le_total 0 (P.v X lam) with h | h
  · exact le_max_of_le_left h
  · refine le_max_of_le_right (add_nonneg ?_ (mul_nonneg (Real.sqrt_nonneg _) (Real.sqrt_nonneg _)))
    unfold Prob.mean
    rw [trace_VX P hf]
    exact div_nonneg (by linarith) (Nat.cast_nonneg _)

theorem step_pos (P : Prob ι m) {rho : ℝ} (h0 : 0 < rho) (h1 : rho < 1) {X : Matrix ι ι ℝ} (hf : Feasible P X) {lam : Fin m → ℝ}
    (ht : P.top X lam ≠ 0) : 0 < P.beta rho X lam ∧ P.beta rho X lam * P.v X lam < 1 ∧ 0 < P.r rho X lam := by
  have hp : 0 < P.top X lam := lt_of_le_of_ne (top_nonneg P hf lam) (Ne.symm ht)
  have hb : 0 < P.beta rho X lam := div_pos h0 hp
  have hv : P.beta rho X lam * P.v X lam < 1 := by
    have : P.beta rho X lam * P.v X lam ≤ P.beta rho X lam * P.top X lam := mul_le_mul_of_nonneg_left (le_max_left _ _) hb.le
    have e : P.beta rho X lam * P.top X lam = rho := by unfold Prob.beta; field_simp
    linarith
  exact ⟨hb, hv, div_pos one_pos (by linarith)⟩

open scoped MatrixOrder ComplexOrder in
/-- **A step keeps the point positive definite.** -/
theorem next_posDef (P : Prob ι m) (hA : ∀ i, (P.A i)ᵀ = P.A i) (hC : P.Cᵀ = P.C) {rho : ℝ} (h0 : 0 < rho) (h1 : rho < 1)
    {X : Matrix ι ι ℝ} (hX : X.PosDef) (hf : Feasible P X) {lam : Fin m → ℝ} (ht : P.top X lam ≠ 0) : (P.next rho X lam).PosDef := by
  obtain ⟨hb, hv, hr⟩ := step_pos P h0 h1 hf ht
  have hp : 0 < P.top X lam := lt_of_le_of_ne (top_nonneg P hf lam) (Ne.symm ht)
  have hXt : Xᵀ = X := by simpa [conjTranspose_eq_transpose_of_trivial] using hX.isHermitian.eq
  set V := P.C + ∑ j, lam j • P.A j with hV
  have hVt : Vᵀ = V := by
    rw [hV, transpose_add, hC, transpose_sum]
    congr 1
    exact Finset.sum_congr rfl fun j _ => by rw [transpose_smul, hA]
  have eN : P.next rho X lam = P.r rho X lam • (X - P.beta rho X lam • (X * V * X)) := by
    unfold Prob.next
    rw [VX_eq, ← hV, Matrix.smul_mul, smul_sub, ← Matrix.mul_assoc, smul_comm]
  obtain ⟨B, hB⟩ := CStarAlgebra.nonneg_iff_eq_star_mul_self.mp hX.posSemidef.nonneg
  have hB' : X = Bᵀ * B := by rw [hB, star_eq_conjTranspose, conjTranspose_eq_transpose_of_trivial]
  set H := B * V * Bᵀ with hH
  have hHt : Hᵀ = H := by rw [hH, transpose_mul, transpose_mul, transpose_transpose, hVt, Matrix.mul_assoc]
  have t1 : H.trace = (P.VX X lam).trace := by
    rw [VX_eq, ← hV, hH, hB', trace_mul_comm, ← Matrix.mul_assoc, trace_mul_comm]
  have t2 : (H * H).trace = (P.VX X lam * P.VX X lam).trace := by
    rw [VX_eq, ← hV, hH, hB']
    rw [show B * V * Bᵀ * (B * V * Bᵀ) = B * (V * (Bᵀ * B) * V * Bᵀ) by simp only [Matrix.mul_assoc], trace_mul_comm]
    simp only [Matrix.mul_assoc]
  refine Matrix.PosDef.of_dotProduct_mulVec_pos ?_ ?_
  · rw [eN]
    unfold IsHermitian
    rw [conjTranspose_eq_transpose_of_trivial, transpose_smul, transpose_sub, transpose_smul, transpose_mul, transpose_mul, hXt, hVt,
      Matrix.mul_assoc]
  · intro w hw
    haveI : Nonempty ι := by
      by_contra h
      rw [not_nonempty_iff] at h
      exact hw (Subsingleton.elim _ _)
    have hs : 0 < w ⬝ᵥ X *ᵥ w := by simpa using hX.dotProduct_mulVec_pos hw
    have es : w ⬝ᵥ X *ᵥ w = (B *ᵥ w) ⬝ᵥ (B *ᵥ w) := by
      have := quad_cong B 1 w
      rwa [Matrix.mul_one, ← hB', Matrix.one_mulVec] at this
    have eq : w ⬝ᵥ (X * V * X) *ᵥ w = (B *ᵥ w) ⬝ᵥ H *ᵥ (B *ᵥ w) := by
      rw [← quad_cong, hH]
      congr 2
      rw [hB']
      simp only [Matrix.mul_assoc]
    have q := quad_le H hHt (B *ᵥ w)
    rw [t1, t2, ← es, ← eq] at q
    have q' : w ⬝ᵥ (X * V * X) *ᵥ w ≤ P.top X lam * (w ⬝ᵥ X *ᵥ w) :=
      q.trans (mul_le_mul_of_nonneg_right (le_max_right _ _) hs.le)
    have e : P.beta rho X lam * P.top X lam = rho := by unfold Prob.beta; field_simp
    have q2 : P.beta rho X lam * (w ⬝ᵥ (X * V * X) *ᵥ w) ≤ rho * (w ⬝ᵥ X *ᵥ w) := by
      have := mul_le_mul_of_nonneg_left q' hb.le
      rwa [← mul_assoc, e] at this
    rw [star_trivial, eN, smul_mulVec, sub_mulVec, smul_mulVec, dotProduct_smul, dotProduct_sub, dotProduct_smul, smul_eq_mul, smul_eq_mul]
    refine mul_pos hr ?_
    nlinarith

/-! ### The objective -/

theorem trace_sq_nonneg (H : Matrix ι ι ℝ) (h : Hᵀ = H) : 0 ≤ (H * H).trace ∧ ((H * H).trace = 0 → H = 0) := by
  have e : (H * H).trace = ∑ i, ∑ j, H i j * H i j := by
    simp only [trace, diag_apply, mul_apply]
    refine Finset.sum_congr rfl fun i _ => Finset.sum_congr rfl fun j _ => ?_
    rw [show H j i = H i j from congrFun (congrFun h i) j]
  have n : ∀ i, 0 ≤ ∑ j, H i j * H i j := fun i => Finset.sum_nonneg fun j _ => mul_self_nonneg _
  rw [e]
  refine ⟨Finset.sum_nonneg fun i _ => n i, fun z => ?_⟩
  ext i j
  have z1 := (Finset.sum_eq_zero_iff_of_nonneg fun i _ => n i).mp z i (Finset.mem_univ _)
  exact mul_self_eq_zero.mp ((Finset.sum_eq_zero_iff_of_nonneg fun j _ => mul_self_nonneg (H i j)).mp z1 j (Finset.mem_univ _))

open scoped MatrixOrder ComplexOrder in
/-- The squared length of the direction is not negative; it is zero only if the dual slack matrix is zero. -/
theorem VX_sq (P : Prob ι m) (hA : ∀ i, (P.A i)ᵀ = P.A i) (hC : P.Cᵀ = P.C) {X : Matrix ι ι ℝ} (hX : X.PosDef) (lam : Fin m → ℝ) :
    0 ≤ (P.VX X lam * P.VX X lam).trace ∧ ((P.VX X lam * P.VX X lam).trace = 0 → P.C + ∑ j, lam j • P.A j = 0) := by
  set V := P.C + ∑ j, lam j • P.A j with hV
  have hVt : Vᵀ = V := by
    rw [hV, transpose_add, hC, transpose_sum]
    congr 1
    exact Finset.sum_congr rfl fun j _ => by rw [transpose_smul, hA]
  obtain ⟨B, hB⟩ := CStarAlgebra.nonneg_iff_eq_star_mul_self.mp hX.posSemidef.nonneg
  have hB' : X = Bᵀ * B := by rw [hB, star_eq_conjTranspose, conjTranspose_eq_transpose_of_trivial]
  set H := B * V * Bᵀ with hH
  have hHt : Hᵀ = H := by rw [hH, transpose_mul, transpose_mul, transpose_transpose, hVt, Matrix.mul_assoc]
  have t2 : (H * H).trace = (P.VX X lam * P.VX X lam).trace := by
    rw [VX_eq, ← hV, hH, hB']
    rw [show B * V * Bᵀ * (B * V * Bᵀ) = B * (V * (Bᵀ * B) * V * Bᵀ) by simp only [Matrix.mul_assoc], trace_mul_comm]
    simp only [Matrix.mul_assoc]
  rw [← t2]
  refine ⟨(trace_sq_nonneg H hHt).1, fun z => ?_⟩
  have h0 := (trace_sq_nonneg H hHt).2 z
  have hu : IsUnit X.det := isUnit_iff_ne_zero.mpr hX.det_pos.ne'
  have hd : IsUnit B.det := by
    rw [hB', det_mul] at hu
    exact isUnit_of_mul_isUnit_right hu
  have hdt : IsUnit (Bᵀ).det := by rwa [det_transpose]
  calc V = B⁻¹ * (B * V * Bᵀ) * (Bᵀ)⁻¹ := by
        rw [Matrix.mul_assoc B V, Matrix.nonsing_inv_mul_cancel_left _ _ hd, Matrix.mul_nonsing_inv_cancel_right _ _ hdt]
    _ = 0 := by rw [← hH, h0, Matrix.mul_zero, Matrix.zero_mul]

/-- **The objective does not grow**, and a step that does not lower it is only possible when the dual slack matrix is zero. -/
theorem diff_nonneg (P : Prob ι m) (hA : ∀ i, (P.A i)ᵀ = P.A i) (hC : P.Cᵀ = P.C) {rho : ℝ} (h0 : 0 < rho) (h1 : rho < 1)
    {X : Matrix ι ι ℝ} (hX : X.PosDef) (hf : Feasible P X) {lam : Fin m → ℝ} (h : P.Solved X lam) (ht : P.top X lam ≠ 0) :
    0 ≤ P.diff rho X lam ∧ (P.diff rho X lam = 0 → P.C + ∑ j, lam j • P.A j = 0) := by
  obtain ⟨hb, _, hr⟩ := step_pos P h0 h1 hf ht
  obtain ⟨g, g0⟩ := VX_sq P hA hC hX lam
  rw [diff_eq P h]
  refine ⟨mul_nonneg (mul_nonneg hb.le (add_nonneg g (sq_nonneg _))) hr.le, fun e => g0 ?_⟩
  have : (P.VX X lam * P.VX X lam).trace + P.v X lam ^ 2 = 0 := by
    rcases mul_eq_zero.mp e with e | e
    · exact (mul_eq_zero.mp e).resolve_left hb.ne'
    · exact absurd e hr.ne'
  nlinarith [sq_nonneg (P.v X lam)]

/-- If the dual slack matrix is zero, all feasible points have the same objective. -/
theorem slack_zero (P : Prob ι m) {X Y : Matrix ι ι ℝ} (hX : Feasible P X) (hY : Feasible P Y) {lam : Fin m → ℝ}
    (h : P.C + ∑ j, lam j • P.A j = 0) : P.z X = P.z Y := by
  have e : ∀ Z, Feasible P Z → P.z Z = -∑ j, lam j * P.b j := by
    intro Z hZ
    have := congrArg (fun N => (N * Z).trace) h
    simp only [Matrix.add_mul, trace_add, Matrix.sum_mul, trace_sum, Matrix.smul_mul, trace_smul, smul_eq_mul, Matrix.zero_mul,
      trace_zero, hZ _] at this
    unfold Prob.z
    linarith
  rw [e X hX, e Y hY]

/-- **The division by zero happens exactly when the dual slack matrix is zero.** -/
theorem top_zero [Nonempty ι] (P : Prob ι m) (hA : ∀ i, (P.A i)ᵀ = P.A i) (hC : P.Cᵀ = P.C) {X : Matrix ι ι ℝ} (hX : X.PosDef)
    (hf : Feasible P X) (lam : Fin m → ℝ) : P.top X lam = 0 ↔ P.C + ∑ j, lam j • P.A j = 0 := by
  have hn : (0 : ℝ) < Fintype.card ι := by exact_mod_cast Fintype.card_pos (α := ι)
  constructor
  · intro h
    obtain ⟨g, g0⟩ := VX_sq P hA hC hX lam
    have hv : P.v X lam ≤ 0 := h ▸ le_max_left _ _
    have hw : P.mean X lam + P.std X lam * Real.sqrt (Fintype.card ι - 1) ≤ 0 := h ▸ le_max_right _ _
    have hm : P.mean X lam = -P.v X lam / Fintype.card ι := by unfold Prob.mean; rw [trace_VX P hf]
    have hm0 : 0 ≤ P.mean X lam := hm ▸ div_nonneg (by linarith) hn.le
    have hs0 : 0 ≤ P.std X lam * Real.sqrt (Fintype.card ι - 1) := mul_nonneg (Real.sqrt_nonneg _) (Real.sqrt_nonneg _)
    have m0 : P.mean X lam = 0 := by linarith
    have s0 : P.std X lam * Real.sqrt (Fintype.card ι - 1) = 0 := by linarith
    have tr0 : (P.VX X lam).trace = 0 := by
      unfold Prob.mean at m0
      exact (div_eq_zero_iff.mp m0).resolve_right hn.ne'
    rcases mul_eq_zero.mp s0 with s | s
    · apply g0
      unfold Prob.std at s
      rw [m0, Real.sqrt_eq_zero'] at s
      have : (P.VX X lam * P.VX X lam).trace / Fintype.card ι ≤ 0 := by linarith [sq_nonneg (0 : ℝ)]
      have := (div_le_iff₀ hn).mp this
      linarith
    · apply g0
      have c1 : Fintype.card ι = 1 := by
        have : (Fintype.card ι : ℝ) - 1 ≤ 0 := Real.sqrt_eq_zero'.mp s
        have h2 : Fintype.card ι ≤ 1 := by exact_mod_cast (by linarith : (Fintype.card ι : ℝ) ≤ 1)
        have := Fintype.card_pos (α := ι)
        omega
      obtain ⟨a, ha⟩ := Fintype.card_eq_one_iff.mp c1
      haveI : Unique ι := ⟨⟨a⟩, ha⟩
      have e : P.VX X lam default default = 0 := by simpa [trace] using tr0
      simp [trace, mul_apply, e]
  · intro h
    have z : P.VX X lam = 0 := by rw [VX_eq, h, Matrix.zero_mul]
    have v0 : P.v X lam = 0 := by have := trace_VX P hf lam; rw [z, trace_zero] at this; linarith
    unfold Prob.top Prob.std Prob.mean
    rw [z, v0]
    simp

/-! ### The loop -/

/-- **Soundness.**  From a positive definite feasible point, `sdp_ipm` returns only positive definite feasible points, and their objective is
not above that of the first point. -/
theorem ipm_sound (P : Prob ι m) (hA : ∀ i, (P.A i)ᵀ = P.A i) (hC : P.Cᵀ = P.C) {ls : Matrix ι ι ℝ → Fin m → ℝ}
    (hls : ∀ X, X.PosDef → Feasible P X → P.Solved X (ls X)) {rho eps : ℝ} (h0 : 0 < rho) (h1 : rho < 1) :
    ∀ (k : ℕ) {X : Matrix ι ι ℝ}, X.PosDef → Feasible P X → ∀ {R}, P.ipm ls rho eps k X = .ok R →
      R.1.PosDef ∧ Feasible P R.1 ∧ P.z R.1 ≤ P.z X := by
  intro k
  induction k with
  | zero => intro X _ _ R h; simp [Prob.ipm] at h
  | succ k ih =>
    intro X hX hf R h
    have hl := hls X hX hf
    unfold Prob.ipm at h
    split at h
    · simp at h
    · rename_i ht
      obtain ⟨_, hv, _⟩ := step_pos P h0 h1 hf ht
      have a := next_posDef P hA hC h0 h1 hX hf ht
      have b := next_feasible P hf hl hv.ne
      have c := next_value P (rho := rho) (X := X) (lam := ls X) hv.ne
      have d := (diff_nonneg P hA hC h0 h1 hX hf hl ht).1
      split at h
      · obtain rfl := Except.ok.inj h
        exact ⟨a, b, by dsimp only; linarith⟩
      · obtain ⟨x, y, z⟩ := ih a b h
        exact ⟨x, y, by linarith⟩

/-- **The method stops only for a small decrease.**  The returned point is the last step, of decrease below `epsilon`. -/
theorem ipm_last (P : Prob ι m) {ls : Matrix ι ι ℝ → Fin m → ℝ} {rho eps : ℝ} : ∀ (k : ℕ) {X : Matrix ι ι ℝ} {R},
    P.ipm ls rho eps k X = .ok R → ∃ Y, R = (P.next rho Y (ls Y), ls Y) ∧ P.diff rho Y (ls Y) < eps := by
  intro k
  induction k with
  | zero => intro X R h; simp [Prob.ipm] at h
  | succ k ih =>
    intro X R h
    unfold Prob.ipm at h
    split at h
    · simp at h
    · split at h
      · rename_i hd
        exact ⟨X, (Except.ok.inj h).symm, hd⟩
      · exact ih h

/-- **Termination.**  If the objective is bounded below on the feasible positive definite matrices and is not constant there, the method returns
as soon as it may run more than `(z - L) / epsilon` passes. -/
theorem ipm_terminates [Nonempty ι] (P : Prob ι m) (hA : ∀ i, (P.A i)ᵀ = P.A i) (hC : P.Cᵀ = P.C) {ls : Matrix ι ι ℝ → Fin m → ℝ}
    (hls : ∀ X, X.PosDef → Feasible P X → P.Solved X (ls X)) {rho eps : ℝ} (h0 : 0 < rho) (h1 : rho < 1)
    (hs : ∀ lam : Fin m → ℝ, P.C + ∑ j, lam j • P.A j ≠ 0) {L : ℝ} (hL : ∀ X, X.PosDef → Feasible P X → L ≤ P.z X) :
    ∀ (k : ℕ) {X : Matrix ι ι ℝ}, X.PosDef → Feasible P X → P.z X - L < k * eps → ∃ R, P.ipm ls rho eps k X = .ok R := by
  intro k
  induction k with
  | zero =>
    intro X hX hf h
    have := hL X hX hf
    simp only [Nat.cast_zero, zero_mul] at h
    linarith
  | succ k ih =>
    intro X hX hf h
    have hl := hls X hX hf
    have ht : P.top X (ls X) ≠ 0 := fun e => hs _ ((top_zero P hA hC hX hf _).mp e)
    obtain ⟨_, hv, _⟩ := step_pos P h0 h1 hf ht
    unfold Prob.ipm
    rw [if_neg ht]
    split
    · exact ⟨_, rfl⟩
    · rename_i hd
      refine ih (next_posDef P hA hC h0 h1 hX hf ht) (next_feasible P hf hl hv.ne) ?_
      rw [next_value P hv.ne]
      push_cast at h
      linarith

/-- **A finding.**  If the objective is a combination of the conditions (for example `C = 0`), every feasible point is optimal, but `sdp_ipm`
always raises: the denominator of the step is zero. -/
theorem const_fails [Nonempty ι] (P : Prob ι m) (hA : ∀ i, (P.A i)ᵀ = P.A i) (hC : P.Cᵀ = P.C) {X : Matrix ι ι ℝ} (hX : X.PosDef)
    (hf : Feasible P X) {ls : Matrix ι ι ℝ → Fin m → ℝ} (hu : ∀ l, P.Solved X l → l = ls X) {c : Fin m → ℝ} (hc : P.C = ∑ j, c j • P.A j)
    (rho eps : ℝ) (k : ℕ) : ∃ e, P.ipm ls rho eps k X = .error e := by
  have z : P.C + ∑ j, (-c j) • P.A j = 0 := by
    rw [hc, ← Finset.sum_add_distrib]
    exact Finset.sum_eq_zero fun j _ => by rw [neg_smul, add_neg_cancel]
  have zx : P.VX X (fun j => -c j) = 0 := by rw [VX_eq, z, Matrix.zero_mul]
  have v0 : P.v X (fun j => -c j) = 0 := by have := trace_VX P hf (fun j => -c j); rw [zx, trace_zero] at this; linarith
  have hs : P.Solved X (fun j => -c j) := by
    intro i
    have h1 : (P.A i * X * P.VX X (fun j => -c j)).trace = P.cxax X i + ∑ j, P.M X i j * (-c j) := by
      unfold Prob.VX Prob.cxax Prob.M
      rw [Matrix.mul_add, trace_add, trace_mul_comm (P.A i * X) (P.C * X), Matrix.mul_sum, trace_sum]
      congr 1
      refine Finset.sum_congr rfl fun j _ => ?_
      rw [Matrix.mul_smul, trace_smul, smul_eq_mul, mul_comm]
    rw [zx, Matrix.mul_zero, trace_zero] at h1
    have h2 : ∑ j, (P.M X i j + P.b i * P.b j) * (-c j) = ∑ j, P.M X i j * (-c j) + P.b i * ∑ j, P.b j * (-c j) := by
      rw [Finset.mul_sum, ← Finset.sum_add_distrib]
      exact Finset.sum_congr rfl fun j _ => by ring
    rw [h2]
    unfold Prob.v at v0
    have : ∑ j, P.b j * (-c j) = -P.z X := by linarith
    rw [this]
    linarith
  have ht : P.top X (ls X) = 0 := (top_zero P hA hC hX hf _).mpr (by rw [← hu _ hs]; exact z)
  cases k with
  | zero => exact ⟨_, rfl⟩
  | succ k => exact ⟨_, by unfold Prob.ipm; rw [if_pos ht]⟩

/-! ### `sdp_ipm_feasible` -/

theorem trace_pad (A : Matrix ι ι ℝ) (t : ℝ) (X : Matrix (ι ⊕ Unit) (ι ⊕ Unit) ℝ) :
    (pad A t * X).trace = (A * X.toBlocks₁₁).trace + t * X (.inr ()) (.inr ()) := by
  simp [pad, trace, mul_apply, toBlocks₁₁]

theorem pad_symm {A : Matrix ι ι ℝ} (h : Aᵀ = A) (t : ℝ) : (pad A t)ᵀ = pad A t := by
  unfold pad
  rw [fromBlocks_transpose, h]
  rfl

theorem pad_posDef {X : Matrix ι ι ℝ} (h : X.PosDef) {t : ℝ} (ht : 0 < t) : (pad X t).PosDef := by
  have hXt : Xᵀ = X := by simpa [conjTranspose_eq_transpose_of_trivial] using h.isHermitian.eq
  refine Matrix.PosDef.of_dotProduct_mulVec_pos ?_ ?_
  · unfold IsHermitian
    rw [conjTranspose_eq_transpose_of_trivial]
    exact pad_symm hXt t
  · intro w hw
    have e : star w ⬝ᵥ pad X t *ᵥ w = (w ∘ Sum.inl) ⬝ᵥ X *ᵥ (w ∘ Sum.inl) + t * (w (.inr ()) * w (.inr ())) := by
      simp [pad, dotProduct, mulVec, Fintype.sum_sum_type]
      ring
    rw [e]
    by_cases z : w ∘ Sum.inl = 0
    · have : w (.inr ()) ≠ 0 := by
        intro z'
        apply hw
        funext i
        rcases i with i | i
        · exact congrFun z i
        · exact z'
      rw [z]
      simp only [zero_dotProduct, zero_add]
      exact mul_pos ht (mul_self_pos.mpr this)
    · have := h.dotProduct_mulVec_pos z
      rw [star_trivial] at this
      have := mul_nonneg ht.le (mul_self_nonneg (w (.inr ())))
      linarith

/-- **What the phase-one search returns.**  The returned matrix is positive definite, and every condition is missed by one common positive
factor of the first error. -/
theorem feasible_residual {A : Fin m → Matrix ι ι ℝ} (hA : ∀ i, (A i)ᵀ = A i) {b : Fin m → ℝ} {X0 : Matrix ι ι ℝ} (hX : X0.PosDef)
    {ls : Matrix (ι ⊕ Unit) (ι ⊕ Unit) ℝ → Fin m → ℝ} (hls : ∀ X, X.PosDef → Feasible (padProb A b X0) X → (padProb A b X0).Solved X (ls X))
    {rho eps : ℝ} (h0 : 0 < rho) (h1 : rho < 1) {k : ℕ} {Y : Matrix ι ι ℝ} (h : ipmFeasible A b X0 ls rho eps k = .ok Y) :
    Y.PosDef ∧ ∃ t, 0 < t ∧ t ≤ 1 ∧ ∀ i, b i - (A i * Y).trace = t * (b i - (A i * X0).trace) := by
  unfold ipmFeasible at h
  split at h
  · simp at h
  · split at h
    · simp at h
    · rename_i r e
      obtain rfl := Except.ok.inj h
      have f0 : Feasible (padProb A b X0) (pad X0 1) := by
        intro i
        show (pad (A i) _ * _).trace = b i
        rw [trace_pad]
        simp [pad]
      obtain ⟨p, f, z⟩ := ipm_sound (padProb A b X0) (fun i => pad_symm (hA i) _) (pad_symm transpose_zero 1) hls h0 h1 k
        (pad_posDef hX one_pos) f0 e
      refine ⟨p.submatrix Sum.inl_injective, r.1 (.inr ()) (.inr ()), p.diag_pos, ?_, fun i => ?_⟩
      · have z1 : (pad 0 1 * r.1).trace ≤ (pad 0 1 * pad X0 1).trace := z
        rw [trace_pad, trace_pad] at z1
        simpa [pad] using z1
      · have fi : (pad (A i) _ * r.1).trace = b i := f i
        rw [trace_pad] at fi
        linarith

/-- **A finding.**  In exact arithmetic the returned matrix satisfies the conditions only if the first point did, so the search finds a point up
to a tolerance at best; how far the factor went down is not checked (see `feasible_answers`). -/
theorem feasible_iff {A : Fin m → Matrix ι ι ℝ} (hA : ∀ i, (A i)ᵀ = A i) {b : Fin m → ℝ} {X0 : Matrix ι ι ℝ} (hX : X0.PosDef)
    {ls : Matrix (ι ⊕ Unit) (ι ⊕ Unit) ℝ → Fin m → ℝ} (hls : ∀ X, X.PosDef → Feasible (padProb A b X0) X → (padProb A b X0).Solved X (ls X))
    {rho eps : ℝ} (h0 : 0 < rho) (h1 : rho < 1) {k : ℕ} {Y : Matrix ι ι ℝ} (h : ipmFeasible A b X0 ls rho eps k = .ok Y) :
    (∀ i, (A i * Y).trace = b i) ↔ ∀ i, (A i * X0).trace = b i := by
  obtain ⟨_, t, ht, _, e⟩ := feasible_residual hA hX hls h0 h1 h
  constructor
  · intro f i
    have := e i
    rw [f i, sub_self] at this
    rcases mul_eq_zero.mp this.symm with z | z
    · exact absurd z ht.ne'
    · linarith
  · intro f i
    have := e i
    rw [f i, sub_self, mul_zero] at this
    linarith

/-- **A finding.**  Whenever the linear conditions have any solution at all, positive semidefinite or not, `sdp_ipm_feasible` returns a matrix once
more than `1 / epsilon` passes are allowed; an infeasible program is not reported. -/
theorem feasible_answers {A : Fin m → Matrix ι ι ℝ} (hm : m ≠ 0) (hA : ∀ i, (A i)ᵀ = A i) {b : Fin m → ℝ} {X0 : Matrix ι ι ℝ} (hX : X0.PosDef)
    {ls : Matrix (ι ⊕ Unit) (ι ⊕ Unit) ℝ → Fin m → ℝ} (hls : ∀ X, X.PosDef → Feasible (padProb A b X0) X → (padProb A b X0).Solved X (ls X))
    {rho eps : ℝ} (h0 : 0 < rho) (h1 : rho < 1) {Z : Matrix ι ι ℝ} (hZ : ∀ i, (A i * Z).trace = b i) {k : ℕ} (hk : 1 < k * eps) :
    ∃ Y, ipmFeasible A b X0 ls rho eps k = .ok Y := by
  have f0 : Feasible (padProb A b X0) (pad X0 1) := by
    intro i
    show (pad (A i) _ * _).trace = b i
    rw [trace_pad]
    simp [pad]
  have zt : ∀ X, (padProb A b X0).z X = X (.inr ()) (.inr ()) := by
    intro X
    show (pad 0 1 * X).trace = _
    rw [trace_pad]
    simp
  obtain ⟨R, hR⟩ := ipm_terminates (padProb A b X0) (fun i => pad_symm (hA i) _) (pad_symm transpose_zero 1) hls (eps := eps) h0 h1 (L := 0)
    (by
      intro lam e
      have key : ∀ W : Matrix ι ι ℝ, ∀ s : ℝ, (((padProb A b X0).C + ∑ j, lam j • (padProb A b X0).A j) * pad W s).trace
          = s + ∑ j, lam j * ((A j * W).trace + (b j - (A j * X0).trace) * s) := by
        intro W s
        rw [Matrix.add_mul, trace_add, Matrix.sum_mul, trace_sum]
        congr 1
        · show (pad (0 : Matrix ι ι ℝ) 1 * pad W s).trace = _
          rw [trace_pad]
          simp [pad]
        · refine Finset.sum_congr rfl fun j _ => ?_
          rw [Matrix.smul_mul, trace_smul, smul_eq_mul]
          congr 1
          show (pad (A j) _ * pad W s).trace = _
          rw [trace_pad]
          simp [pad]
      have k1 := key (X0 - Z) 1
      rw [e, Matrix.zero_mul, trace_zero] at k1
      have : ∑ j, lam j * ((A j * (X0 - Z)).trace + (b j - (A j * X0).trace) * 1) = 0 :=
        Finset.sum_eq_zero fun j _ => by rw [Matrix.mul_sub, trace_sub, hZ]; ring
      rw [this] at k1
      norm_num at k1)
    (fun X hX _ => by rw [zt]; exact hX.diag_pos.le) k (pad_posDef hX one_pos) f0 (by rw [zt]; simpa [pad] using hk)
  refine ⟨R.1.toBlocks₁₁, ?_⟩
  unfold ipmFeasible
  rw [if_neg hm, hR]

/-- **`sdp_dual_feasible`** returns a positive definite matrix with the traces of the identity. -/
theorem dual_sound {C : Matrix ι ι ℝ} (hC : Cᵀ = C) {A : Fin m → Matrix ι ι ℝ} (hA : ∀ i, (A i)ᵀ = A i) {ls : Matrix ι ι ℝ → Fin m → ℝ}
    (hls : ∀ X, X.PosDef → (∀ i, (A i * X).trace = (A i).trace) → (Prob.mk A (fun i => (A i).trace) C).Solved X (ls X))
    {rho eps : ℝ} (h0 : 0 < rho) (h1 : rho < 1) {k : ℕ} {R} (h : dualFeasible C A ls rho eps k = .ok R) :
    R.1.PosDef ∧ (∀ i, (A i * R.1).trace = (A i).trace) ∧ (C * R.1).trace ≤ C.trace := by
  unfold dualFeasible at h
  split at h
  · simp at h
  · obtain ⟨a, b, c⟩ := ipm_sound (Prob.mk A (fun i => (A i).trace) C) hA hC hls h0 h1 k PosDef.one (fun i => by simp) h
    exact ⟨a, b, by simpa [Prob.z] using c⟩

/-! ### A concrete program -/

/-- Minimise `x₀₀ - x₁₁` over matrices of trace two. -/
def exP : Prob (Fin 2) 1 := ⟨fun _ => 1, fun _ => 2, !![1, 0; 0, -1]⟩

/-- The solution of the one equation. -/
noncomputable def exLs (X : Matrix (Fin 2) (Fin 2) ℝ) (_ : Fin 1) : ℝ := (-2 * exP.z X - exP.cxax X 0) / (exP.M X 0 0 + 4)

theorem exLs_ok (X : Matrix (Fin 2) (Fin 2) ℝ) (hX : X.PosDef) : exP.Solved X (exLs X) := by
  have hXt : Xᵀ = X := by simpa [conjTranspose_eq_transpose_of_trivial] using hX.isHermitian.eq
  have hM : 0 ≤ exP.M X 0 0 := by
    have := (trace_sq_nonneg X hXt).1
    simpa [Prob.M, exP] using this
  intro i
  have : i = 0 := Subsingleton.elim _ _
  subst this
  simp only [Fin.sum_univ_one, exLs]
  have h4 : exP.M X 0 0 + 4 ≠ 0 := by linarith
  have hb : exP.b 0 = 2 := rfl
  rw [hb]
  field_simp
  ring

theorem exP_feasible : Feasible exP 1 := by intro i; simp [exP, trace]

theorem exLs_one : exLs 1 = 0 := by
  funext i
  simp [exLs, Prob.z, Prob.cxax, exP, trace, Fin.sum_univ_two]

theorem exTop : exP.top 1 0 = 1 := by
  simp [Prob.top, Prob.v, Prob.mean, Prob.std, Prob.VX, Prob.z, exP, trace, Fin.sum_univ_two]
  norm_num

/-- The first step from the identity. -/
theorem exNext : exP.next (1 / 2) 1 0 = !![1 / 2, 0; 0, 3 / 2] := by
  have hv : exP.v 1 0 = 0 := by simp [Prob.v, Prob.z, exP, trace, Fin.sum_univ_two]
  have hx : exP.VX 1 0 = !![1, 0; 0, -1] := by simp [Prob.VX, exP]
  unfold Prob.next Prob.r Prob.beta
  rw [exTop, hv, hx]
  ext i j
  fin_cases i <;> fin_cases j <;> simp <;> norm_num

/-- **The hypotheses of the soundness theorem are met** and the loop returns. -/
theorem exRun : exP.ipm exLs (1 / 2) 2 5 1 = .ok (!![1 / 2, 0; 0, 3 / 2], 0) ∧ (!![1 / 2, 0; 0, 3 / 2] : Matrix (Fin 2) (Fin 2) ℝ).PosDef := by
  have hv : exP.v 1 0 = 0 := by simp [Prob.v, Prob.z, exP, trace, Fin.sum_univ_two]
  have hd : exP.diff (1 / 2) 1 0 < 2 := by
    unfold Prob.diff Prob.r Prob.beta
    rw [exTop, hv]
    simp [Prob.cxcx, exP, trace, Fin.sum_univ_two]
    norm_num
  have e : exP.ipm exLs (1 / 2) 2 5 1 = .ok (!![1 / 2, 0; 0, 3 / 2], 0) := by
    unfold Prob.ipm
    rw [exLs_one, exTop, if_neg one_ne_zero, if_pos hd, exNext]
  exact ⟨e, (ipm_sound exP (fun _ => transpose_one) (by ext i j; fin_cases i <;> fin_cases j <;> simp [exP]) (fun X hX _ => exLs_ok X hX)
    (by norm_num) (by norm_num) 5 PosDef.one exP_feasible e).1⟩

/-- The condition `x = -1` on one by one matrices. -/
noncomputable def exFLs (X : Matrix (Unit ⊕ Unit) (Unit ⊕ Unit) ℝ) (_ : Fin 1) : ℝ :=
  let Q := padProb (fun _ : Fin 1 => (1 : Matrix Unit Unit ℝ)) (fun _ => -1) 1
  (Q.z X - Q.cxax X 0) / (Q.M X 0 0 + 1)

/-- **No positive matrix has entry `-1`, but the search for one returns** for every tolerance. -/
theorem exInfeasible {eps : ℝ} (he : 0 < eps) : (¬∃ Y : Matrix Unit Unit ℝ, Y.PosSemidef ∧ ((1 : Matrix Unit Unit ℝ) * Y).trace = -1) ∧
    ∃ k Y, ipmFeasible (fun _ : Fin 1 => (1 : Matrix Unit Unit ℝ)) (fun _ => -1) 1 exFLs (1 / 2) eps k = .ok Y := by
  refine ⟨?_, ?_⟩
  · rintro ⟨Y, hY, e⟩
    rw [Matrix.one_mul] at e
    have := hY.trace_nonneg
    linarith
  · obtain ⟨k, hk⟩ := exists_nat_gt (1 / eps)
    refine ⟨k, feasible_answers one_ne_zero (fun _ => transpose_one) PosDef.one ?_ (by norm_num) (by norm_num) (Z := -1) (by simp)
      ((div_lt_iff₀ he).mp hk)⟩
    intro X hX _ i
    have : i = 0 := Subsingleton.elim _ _
    subst this
    have hM : 0 ≤ (padProb (fun _ : Fin 1 => (1 : Matrix Unit Unit ℝ)) (fun _ => -1) 1).M X 0 0 := by
      have := (VX_sq (⟨fun _ : Fin 0 => 0, fun _ => 0, pad 1 (-1 - ((1 : Matrix Unit Unit ℝ) * 1).trace)⟩ : Prob (Unit ⊕ Unit) 0) (fun i => i.elim0)
        (pad_symm transpose_one _) hX (fun _ => 0)).1
      simpa [Prob.VX, Prob.M, padProb] using this
    simp only [Fin.sum_univ_one, exFLs]
    have hb : (padProb (fun _ : Fin 1 => (1 : Matrix Unit Unit ℝ)) (fun _ => -1) 1).b 0 = -1 := rfl
    rw [hb]
    set M0 := (padProb (fun _ : Fin 1 => (1 : Matrix Unit Unit ℝ)) (fun _ => -1) 1).M X 0 0
    have h4 : M0 + 1 ≠ 0 := by linarith
    field_simp

/-- **A constant objective ends in an exception**: the program of the example with `C = 0`. -/
theorem exConst (ls : Matrix (Fin 2) (Fin 2) ℝ → Fin 1 → ℝ) (h : (Prob.mk (fun _ : Fin 1 => (1 : Matrix (Fin 2) (Fin 2) ℝ)) (fun _ => 2) 0).Solved 1 (ls 1))
    (rho eps : ℝ) (k : ℕ) : ∃ e, (Prob.mk (fun _ : Fin 1 => (1 : Matrix (Fin 2) (Fin 2) ℝ)) (fun _ => 2) 0).ipm ls rho eps k 1 = .error e := by
  have u : ∀ l, (Prob.mk (fun _ : Fin 1 => (1 : Matrix (Fin 2) (Fin 2) ℝ)) (fun _ => 2) 0).Solved 1 l → l 0 = 0 := by
    intro l hl
    have := hl 0
    simp [Prob.M, Prob.z, Prob.cxax] at this
    rcases this with h | h
    · norm_num at h
    · exact h
  refine const_fails _ (fun _ => transpose_one) transpose_zero PosDef.one (fun _ => by simp) (fun l hl => ?_) (c := 0) (by simp) rho eps k
  funext i
  have : i = 0 := Subsingleton.elim _ _
  rw [this, u l hl, u _ h]

end Verif.IPM
