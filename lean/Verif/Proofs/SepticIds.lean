import Verif.Model.TernarySeptic
import Mathlib.Tactic.Ring
import Mathlib.Tactic.LinearCombination
import Mathlib.Tactic.FieldSimp
import Mathlib.Tactic.Linarith
import Mathlib.Tactic.Positivity

/-!
# The polynomial identities of the ternary septic solver
-/

namespace Verif.Ternary

variable {K : Type*} [Field K] [LinearOrder K] [IsStrictOrderedRing K]

/-- The value of a cyclic septic. -/
def Septic.poly (f : Septic K) (a b c : K) : K :=
  f.c700 * (a ^ 7 + b ^ 7 + c ^ 7) + f.c610 * (a ^ 6 * b + b ^ 6 * c + c ^ 6 * a) + f.c601 * (a ^ 6 * c + b ^ 6 * a + c ^ 6 * b) +
    f.c520 * (a ^ 5 * b ^ 2 + b ^ 5 * c ^ 2 + c ^ 5 * a ^ 2) + f.c511 * (a ^ 5 * b * c + b ^ 5 * c * a + c ^ 5 * a * b) +
    f.c502 * (a ^ 5 * c ^ 2 + b ^ 5 * a ^ 2 + c ^ 5 * b ^ 2) + f.c430 * (a ^ 4 * b ^ 3 + b ^ 4 * c ^ 3 + c ^ 4 * a ^ 3) +
    f.c421 * (a ^ 4 * b ^ 2 * c + b ^ 4 * c ^ 2 * a + c ^ 4 * a ^ 2 * b) + f.c412 * (a ^ 4 * b * c ^ 2 + b ^ 4 * c * a ^ 2 + c ^ 4 * a * b ^ 2) +
    f.c403 * (a ^ 4 * c ^ 3 + b ^ 4 * a ^ 3 + c ^ 4 * b ^ 3) + f.c331 * (a ^ 3 * b ^ 3 * c + b ^ 3 * c ^ 3 * a + c ^ 3 * a ^ 3 * b) +
    f.c322 * (a ^ 3 * b ^ 2 * c ^ 2 + b ^ 3 * c ^ 2 * a ^ 2 + c ^ 3 * a ^ 2 * b ^ 2)

/-- The denominator and `Det` differ by a square (the remark before septic.py 374). -/
theorem hexD_eq (p q z : K) : hexD p q z = ((z + 8) ^ 2 - 4 * p * q) ^ 2 + hexDet p q z := by
  unfold hexD hexDet
  ring

/-- Theorem 1 of septic.py 367-374. -/
theorem hex_thm1 (p q z a b c : K) :
    hexD p q z * cyc3 (fun a b c => a ^ 4 * b + p * a ^ 3 * b ^ 2 + q * a ^ 2 * b ^ 3 + a * b ^ 4 + z * a ^ 3 * b * c - (p + q + z + 2) * a ^ 2 * b ^ 2 * c) a b c =
      cyc3 (fun a b c => c * (((z + 8) ^ 2 - 4 * p * q) * (a ^ 2 - b ^ 2) + 4 * (2 * p ^ 2 - q * (z + 8)) * (a * b - a * c) +
        4 * (2 * q ^ 2 - p * (z + 8)) * (b * c - a * b)) ^ 2) a b c + hexDet p q z * cyc3 (fun a b c => c * (a - b) ^ 4) a b c := by
  unfold hexD hexDet cyc3
  ring

/-- Theorem 2 of septic.py 401-404. -/
theorem hex_thm2 (g u v a b c : K) :
    (a * b + b * c + c * a) * cyc3 (fun a b c => c * (g * (a ^ 2 - b ^ 2) + u * (a * b - a * c) + v * (b * c - a * b)) ^ 2) a b c =
      2 * (a * b * c) * cyc3 (fun a b c => (g * (a ^ 2 - b ^ 2) + u * (a * b - a * c) + v * (b * c - a * b)) ^ 2) a b c +
      cyc3 (fun a b c => c * (a * (g * (b ^ 2 - c ^ 2) + u * (b * c - b * a) + v * (c * a - b * c)) +
        b * (g * (c ^ 2 - a ^ 2) + u * (c * a - c * b) + v * (a * b - c * a))) ^ 2) a b c := by
  unfold cyc3
  ring

theorem hex_thm2' (a b c : K) :
    (a * b + b * c + c * a) * cyc3 (fun a b c => c * (a - b) ^ 4) a b c =
      4 * (a * b * c) * (a ^ 2 + b ^ 2 + c ^ 2 - a * b - b * c - c * a) ^ 2 +
      cyc3 (fun a b c => a * (b - c) ^ 2 * (a ^ 2 - 2 * a * b - 2 * a * c + 3 * b * c) ^ 2) a b c := by
  unfold cyc3
  ring

/-- The identity of `_sos_struct_septic_biased`. -/
theorem biased_id {f : Septic K} {k m p n q x n2 q2 u v : K} (hf : f.c700 = 0 ∧ f.c610 = 0 ∧ f.c601 = 0 ∧ f.c520 = 0 ∧ f.c430 = 0) (h1 : f.c403 = k) (h2 : f.c502 = k)
    (hk : k ≠ 0) (h3 : f.c511 = m * k) (h4 : f.c421 = (p - 2) * k) (h5 : f.c331 = n * k) (h6 : f.c412 = q * k) (hm : m ≠ 0)
    (hn2 : n2 = n - (x ^ 2 + 4 * x + 3)) (hq2 : q2 = q + (2 * x + 3)) (hu : u * (3 * m) = -(p + 2 * q2)) (hv : v * (3 * m) = -(2 * p + q2)) (a b c : K) :
    k * cyc3 (fun a b c => a * c * (a ^ 2 * c - a * b ^ 2 * (x + 2) + a * b * c + b ^ 2 * c * (x + 1) - b * c ^ 2) ^ 2) a b c +
    1 / 2 * k * cyc3 (fun a b c => (a ^ 3 * c - a ^ 2 * b ^ 2 - a ^ 2 * b * c * (x + 1) - a * b ^ 3 + a * b ^ 2 * c * (x + 2) - a * b * c ^ 2 + b ^ 2 * c ^ 2) ^ 2) a b c +
    m / 2 * k * (cyc3 (fun a b c => (a ^ 2 - b ^ 2 + (u - v) * a * b - u * a * c + v * b * c) ^ 2) a b c * (a + b + c) * (a * b * c)) +
    (3 * (m + n2) - (p ^ 2 + q2 ^ 2 + p * q2) / m) / 6 * k * (cyc3 (fun a b c => a ^ 2 * (b - c) ^ 2) a b c * (a + b + c) * (a * b * c)) +
    (m + p + n + q + f.c322 / k) * k * ((a + b + c) ^ 2 * (a ^ 2 * b ^ 2 * c ^ 2)) = (a + b + c) * f.poly a b c := by
  obtain ⟨e1, e2, e3, e4, e5⟩ := hf
  have hu' : u = -(p + 2 * q2) / (3 * m) := by rw [eq_div_iff (by simpa using hm)]; exact hu
  have hv' : v = -(2 * p + q2) / (3 * m) := by rw [eq_div_iff (by simpa using hm)]; exact hv
  have key : f.c322 / k * k = f.c322 := div_mul_cancel₀ _ hk
  have e6 : (m + p + n + q + f.c322 / k) * k = (m + p + n + q) * k + f.c322 := by rw [add_mul, key]
  rw [e6]
  unfold Septic.poly cyc3
  rw [e1, e2, e3, e4, e5, h1, h2, h3, h4, h5, h6, hu', hv']
  subst hn2
  subst hq2
  field_simp
  ring

end Verif.Ternary
