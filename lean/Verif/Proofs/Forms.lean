import Verif.Proofs.HomForm
import Mathlib.Tactic.Ring

/-!
# Explicit coefficient forms of homogeneous polynomials in three and four variables
-/

namespace Verif.Coeff

variable {K : Type*} [CommRing K] [DecidableEq K]

theorem form32 (co : Coeff K) (h : co.WF) (hn : co.nvars = 3) (hd : co.Hom 2) (a b c : K) :
    evalDict co.coeffs [a,b,c] =
      co.call [2,0,0] * (a^2) +
      co.call [1,1,0] * (a * b) +
      co.call [1,0,1] * (a * c) +
      co.call [0,2,0] * (b^2) +
      co.call [0,1,1] * (b * c) +
      co.call [0,0,2] * (c^2) := by
  rw [evalDict_hom co h 2 hd, hn]
  have : generatePartitions 3 2 true = [[2,0,0], [1,1,0], [1,0,1], [0,2,0], [0,1,1], [0,0,2]] := by decide +kernel
  rw [this]
  simp only [List.map_cons, List.map_nil, List.sum_cons, List.sum_nil, evalMonom, List.zipWith_cons_cons,
    List.zipWith_nil_left, List.prod_cons, List.prod_nil, pow_zero, pow_one, mul_one, one_mul, add_zero]
  ring

theorem form33 (co : Coeff K) (h : co.WF) (hn : co.nvars = 3) (hd : co.Hom 3) (a b c : K) :
    evalDict co.coeffs [a,b,c] =
      co.call [3,0,0] * (a^3) +
      co.call [2,1,0] * (a^2 * b) +
      co.call [2,0,1] * (a^2 * c) +
      co.call [1,2,0] * (a * b^2) +
      co.call [1,1,1] * (a * b * c) +
      co.call [1,0,2] * (a * c^2) +
      co.call [0,3,0] * (b^3) +
      co.call [0,2,1] * (b^2 * c) +
      co.call [0,1,2] * (b * c^2) +
      co.call [0,0,3] * (c^3) := by
  rw [evalDict_hom co h 3 hd, hn]
  have : generatePartitions 3 3 true = [[3,0,0], [2,1,0], [2,0,1], [1,2,0], [1,1,1], [1,0,2], [0,3,0], [0,2,1], [0,1,2], [0,0,3]] := by decide +kernel
  rw [this]
  simp only [List.map_cons, List.map_nil, List.sum_cons, List.sum_nil, evalMonom, List.zipWith_cons_cons,
    List.zipWith_nil_left, List.prod_cons, List.prod_nil, pow_zero, pow_one, mul_one, one_mul, add_zero]
  ring

theorem form34 (co : Coeff K) (h : co.WF) (hn : co.nvars = 3) (hd : co.Hom 4) (a b c : K) :
    evalDict co.coeffs [a,b,c] =
      co.call [4,0,0] * (a^4) +
      co.call [3,1,0] * (a^3 * b) +
      co.call [3,0,1] * (a^3 * c) +
      co.call [2,2,0] * (a^2 * b^2) +
      co.call [2,1,1] * (a^2 * b * c) +
      co.call [2,0,2] * (a^2 * c^2) +
      co.call [1,3,0] * (a * b^3) +
      co.call [1,2,1] * (a * b^2 * c) +
      co.call [1,1,2] * (a * b * c^2) +
      co.call [1,0,3] * (a * c^3) +
      co.call [0,4,0] * (b^4) +
      co.call [0,3,1] * (b^3 * c) +
      co.call [0,2,2] * (b^2 * c^2) +
      co.call [0,1,3] * (b * c^3) +
      co.call [0,0,4] * (c^4) := by
  rw [evalDict_hom co h 4 hd, hn]
  have : generatePartitions 3 4 true = [[4,0,0], [3,1,0], [3,0,1], [2,2,0], [2,1,1], [2,0,2], [1,3,0], [1,2,1], [1,1,2], [1,0,3], [0,4,0], [0,3,1], [0,2,2], [0,1,3], [0,0,4]] := by decide +kernel
  rw [this]
  simp only [List.map_cons, List.map_nil, List.sum_cons, List.sum_nil, evalMonom, List.zipWith_cons_cons,
    List.zipWith_nil_left, List.prod_cons, List.prod_nil, pow_zero, pow_one, mul_one, one_mul, add_zero]
  ring

theorem form36 (co : Coeff K) (h : co.WF) (hn : co.nvars = 3) (hd : co.Hom 6) (a b c : K) :
    evalDict co.coeffs [a,b,c] =
      co.call [6,0,0] * (a^6) +
      co.call [5,1,0] * (a^5 * b) +
      co.call [5,0,1] * (a^5 * c) +
      co.call [4,2,0] * (a^4 * b^2) +
      co.call [4,1,1] * (a^4 * b * c) +
      co.call [4,0,2] * (a^4 * c^2) +
      co.call [3,3,0] * (a^3 * b^3) +
      co.call [3,2,1] * (a^3 * b^2 * c) +
      co.call [3,1,2] * (a^3 * b * c^2) +
      co.call [3,0,3] * (a^3 * c^3) +
      co.call [2,4,0] * (a^2 * b^4) +
      co.call [2,3,1] * (a^2 * b^3 * c) +
      co.call [2,2,2] * (a^2 * b^2 * c^2) +
      co.call [2,1,3] * (a^2 * b * c^3) +
      co.call [2,0,4] * (a^2 * c^4) +
      co.call [1,5,0] * (a * b^5) +
      co.call [1,4,1] * (a * b^4 * c) +
      co.call [1,3,2] * (a * b^3 * c^2) +
      co.call [1,2,3] * (a * b^2 * c^3) +
      co.call [1,1,4] * (a * b * c^4) +
      co.call [1,0,5] * (a * c^5) +
      co.call [0,6,0] * (b^6) +
      co.call [0,5,1] * (b^5 * c) +
      co.call [0,4,2] * (b^4 * c^2) +
      co.call [0,3,3] * (b^3 * c^3) +
      co.call [0,2,4] * (b^2 * c^4) +
      co.call [0,1,5] * (b * c^5) +
      co.call [0,0,6] * (c^6) := by
  rw [evalDict_hom co h 6 hd, hn]
  have : generatePartitions 3 6 true = [[6,0,0], [5,1,0], [5,0,1], [4,2,0], [4,1,1], [4,0,2], [3,3,0], [3,2,1], [3,1,2], [3,0,3], [2,4,0], [2,3,1], [2,2,2], [2,1,3], [2,0,4], [1,5,0], [1,4,1], [1,3,2], [1,2,3], [1,1,4], [1,0,5], [0,6,0], [0,5,1], [0,4,2], [0,3,3], [0,2,4], [0,1,5], [0,0,6]] := by decide +kernel
  rw [this]
  simp only [List.map_cons, List.map_nil, List.sum_cons, List.sum_nil, evalMonom, List.zipWith_cons_cons,
    List.zipWith_nil_left, List.prod_cons, List.prod_nil, pow_zero, pow_one, mul_one, one_mul, add_zero]
  ring

theorem form43 (co : Coeff K) (h : co.WF) (hn : co.nvars = 4) (hd : co.Hom 3) (a b c d : K) :
    evalDict co.coeffs [a,b,c,d] =
      co.call [3,0,0,0] * (a^3) +
      co.call [2,1,0,0] * (a^2 * b) +
      co.call [2,0,1,0] * (a^2 * c) +
      co.call [2,0,0,1] * (a^2 * d) +
      co.call [1,2,0,0] * (a * b^2) +
      co.call [1,1,1,0] * (a * b * c) +
      co.call [1,1,0,1] * (a * b * d) +
      co.call [1,0,2,0] * (a * c^2) +
      co.call [1,0,1,1] * (a * c * d) +
      co.call [1,0,0,2] * (a * d^2) +
      co.call [0,3,0,0] * (b^3) +
      co.call [0,2,1,0] * (b^2 * c) +
      co.call [0,2,0,1] * (b^2 * d) +
      co.call [0,1,2,0] * (b * c^2) +
      co.call [0,1,1,1] * (b * c * d) +
      co.call [0,1,0,2] * (b * d^2) +
      co.call [0,0,3,0] * (c^3) +
      co.call [0,0,2,1] * (c^2 * d) +
      co.call [0,0,1,2] * (c * d^2) +
      co.call [0,0,0,3] * (d^3) := by
  rw [evalDict_hom co h 3 hd, hn]
  have : generatePartitions 4 3 true = [[3,0,0,0], [2,1,0,0], [2,0,1,0], [2,0,0,1], [1,2,0,0], [1,1,1,0], [1,1,0,1], [1,0,2,0], [1,0,1,1], [1,0,0,2], [0,3,0,0], [0,2,1,0], [0,2,0,1], [0,1,2,0], [0,1,1,1], [0,1,0,2], [0,0,3,0], [0,0,2,1], [0,0,1,2], [0,0,0,3]] := by decide +kernel
  rw [this]
  simp only [List.map_cons, List.map_nil, List.sum_cons, List.sum_nil, evalMonom, List.zipWith_cons_cons,
    List.zipWith_nil_left, List.prod_cons, List.prod_nil, pow_zero, pow_one, mul_one, one_mul, add_zero]
  ring

theorem form44 (co : Coeff K) (h : co.WF) (hn : co.nvars = 4) (hd : co.Hom 4) (a b c d : K) :
    evalDict co.coeffs [a,b,c,d] =
      co.call [4,0,0,0] * (a^4) +
      co.call [3,1,0,0] * (a^3 * b) +
      co.call [3,0,1,0] * (a^3 * c) +
      co.call [3,0,0,1] * (a^3 * d) +
      co.call [2,2,0,0] * (a^2 * b^2) +
      co.call [2,1,1,0] * (a^2 * b * c) +
      co.call [2,1,0,1] * (a^2 * b * d) +
      co.call [2,0,2,0] * (a^2 * c^2) +
      co.call [2,0,1,1] * (a^2 * c * d) +
      co.call [2,0,0,2] * (a^2 * d^2) +
      co.call [1,3,0,0] * (a * b^3) +
      co.call [1,2,1,0] * (a * b^2 * c) +
      co.call [1,2,0,1] * (a * b^2 * d) +
      co.call [1,1,2,0] * (a * b * c^2) +
      co.call [1,1,1,1] * (a * b * c * d) +
      co.call [1,1,0,2] * (a * b * d^2) +
      co.call [1,0,3,0] * (a * c^3) +
      co.call [1,0,2,1] * (a * c^2 * d) +
      co.call [1,0,1,2] * (a * c * d^2) +
      co.call [1,0,0,3] * (a * d^3) +
      co.call [0,4,0,0] * (b^4) +
      co.call [0,3,1,0] * (b^3 * c) +
      co.call [0,3,0,1] * (b^3 * d) +
      co.call [0,2,2,0] * (b^2 * c^2) +
      co.call [0,2,1,1] * (b^2 * c * d) +
      co.call [0,2,0,2] * (b^2 * d^2) +
      co.call [0,1,3,0] * (b * c^3) +
      co.call [0,1,2,1] * (b * c^2 * d) +
      co.call [0,1,1,2] * (b * c * d^2) +
      co.call [0,1,0,3] * (b * d^3) +
      co.call [0,0,4,0] * (c^4) +
      co.call [0,0,3,1] * (c^3 * d) +
      co.call [0,0,2,2] * (c^2 * d^2) +
      co.call [0,0,1,3] * (c * d^3) +
      co.call [0,0,0,4] * (d^4) := by
  rw [evalDict_hom co h 4 hd, hn]
  have : generatePartitions 4 4 true = [[4,0,0,0], [3,1,0,0], [3,0,1,0], [3,0,0,1], [2,2,0,0], [2,1,1,0], [2,1,0,1], [2,0,2,0], [2,0,1,1], [2,0,0,2], [1,3,0,0], [1,2,1,0], [1,2,0,1], [1,1,2,0], [1,1,1,1], [1,1,0,2], [1,0,3,0], [1,0,2,1], [1,0,1,2], [1,0,0,3], [0,4,0,0], [0,3,1,0], [0,3,0,1], [0,2,2,0], [0,2,1,1], [0,2,0,2], [0,1,3,0], [0,1,2,1], [0,1,1,2], [0,1,0,3], [0,0,4,0], [0,0,3,1], [0,0,2,2], [0,0,1,3], [0,0,0,4]] := by decide +kernel
  rw [this]
  simp only [List.map_cons, List.map_nil, List.sum_cons, List.sum_nil, evalMonom, List.zipWith_cons_cons,
    List.zipWith_nil_left, List.prod_cons, List.prod_nil, pow_zero, pow_one, mul_one, one_mul, add_zero]
  ring

end Verif.Coeff
