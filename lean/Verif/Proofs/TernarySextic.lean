import Verif.Model.TernarySextic
import Mathlib.Tactic.Ring
import Mathlib.Tactic.LinearCombination
import Mathlib.Tactic.FieldSimp
import Mathlib.Algebra.Order.Field.Basic

/-! # Identities behind the answers of the ternary sextic solver -/

namespace Verif.Ternary

variable {K : Type*} [Field K] [LinearOrder K] [IsStrictOrderedRing K]

set_option linter.unusedSectionVars false

/-- A hexagram, as a polynomial. -/
def hexP (A B p q w : K) : Val3 K := fun a b c => A * (a ^ 3 * b ^ 3 + b ^ 3 * c ^ 3 + c ^ 3 * a ^ 3) + B * (a ^ 4 * b * c + b ^ 4 * c * a + c ^ 4 * a * b) +
  p * (a ^ 3 * b ^ 2 * c + b ^ 3 * c ^ 2 * a + c ^ 3 * a ^ 2 * b) + q * (a ^ 3 * b * c ^ 2 + b ^ 3 * c * a ^ 2 + c ^ 3 * a * b ^ 2) + w * (a ^ 2 * b ^ 2 * c ^ 2)

/-- The trivial hexagram (sextic.py 98-137), with the coefficients divided by the first. -/
theorem id_trivial (B p x v w a b c : K) :
    hexP 1 B p (p - 6 * (v + 1) * x) w a b c = (B - v ^ 2) * (prodA a b c * cyc3 (fun a b c => a * (a - b) * (a - c)) a b c) +
      cyc3 (fun a b c => a * b * (a * b + v * c ^ 2 - (1 + v) / 2 * a * c - (1 + v) / 2 * b * c + x * a * c - x * b * c) ^ 2) a b c +
      (p - (x ^ 2 + 3 * (v + 1) * x - 3 * (v + 1) ^ 2 / 4) + (B - v ^ 2)) * (prodA a b c * cyc3 (fun a b c => a * (b - c) ^ 2) a b c) +
      ((1 + B + p + (p - 6 * (v + 1) * x)) * 3 + w) * cycp3 (fun a _ _ => a ^ 2) a b c := by
  simp only [hexP, cyc3, cycp3, prodA]
  field_simp
  ring

/-- The case of equal coefficients (sextic.py 184-195). -/
theorem id_equal (x y u v e w a b c : K) (hx : x = 4 * u + v ^ 2 + e) (hy : y = 4 * v + u ^ 2 + e) :
    hexP 1 1 x y w a b c = cyc3 (fun a b c => a * b * (a * b + c ^ 2 + u * a * c + v * b * c) ^ 2) a b c +
      e * (prodA a b c * cyc3 (fun a b c => a * (b - c) ^ 2) a b c) + ((1 + 1 + x + y) * 3 + w - (u + v + 2) ^ 2 * 3) * cycp3 (fun a _ _ => a ^ 2) a b c := by
  subst hx hy
  simp only [hexP, cyc3, cycp3, prodA]
  ring

/-- The star (sextic.py 332-349). -/
theorem id_star (A B p q n w z rem c222 P Q a b c : K) (hB : B ≠ 0) (hp : p * B = P + B - A * (w * w - 2 * z)) (hq : q * B = Q + B - A * (z * z - 2 * w))
    (hn : n * B = P + Q + A - -A * 2 * w * z) (hr : rem = (A + B + P + Q) * 3 + c222) :
    sumA a b c * hexP A B P Q c222 a b c = A * cyc3 (fun a b c => c * (a ^ 2 * c - b ^ 2 * c - w * a ^ 2 * b + z * a * b ^ 2 + (w - z) * a * b * c) ^ 2) a b c +
      B / 2 * (cyc3 (fun a b c => (a ^ 2 - b ^ 2 + (p + 2 * q) / 3 * (a * c - a * b) - (2 * p + q) / 3 * (b * c - a * b)) ^ 2) a b c * prodA a b c) +
      (3 * (1 + n) - (p ^ 2 + p * q + q ^ 2)) / 6 * B * (cyc3 (fun a b c => a ^ 2 * (b - c) ^ 2) a b c * prodA a b c) +
      rem * (sumA a b c * cycp3 (fun a _ _ => a ^ 2) a b c) := by
  have e1 : P = p * B - B + A * (w * w - 2 * z) := by linear_combination -hp
  have e2 : Q = q * B - B + A * (z * z - 2 * w) := by linear_combination -hq
  have e3 : n * B = p * B + q * B - 2 * B + A * (w * w - 2 * z) + A * (z * z - 2 * w) + A + 2 * A * w * z := by rw [hn, e1, e2]; ring
  have e4 : (3 * (1 + n) - (p ^ 2 + p * q + q ^ 2)) / 6 * B = (3 * B + 3 * (p * B + q * B - 2 * B + A * (w * w - 2 * z) + A * (z * z - 2 * w) + A + 2 * A * w * z) -
      (p ^ 2 + p * q + q ^ 2) * B) / 6 := by rw [← e3]; ring
  rw [e4, hr, e1, e2]
  simp only [hexP, cyc3, cycp3, prodA, sumA]
  field_simp
  ring

/-- The parameters of the equal case (sextic.py 172-195). -/
theorem equal_pars {x y t : K} (ht : t ≠ 0) : x = 4 * (hexUV x y t).1 + (hexUV x y t).2 ^ 2 + -hexEqt x y t / 4 / t ^ 2 ∧
    y = 4 * (hexUV x y t).2 + (hexUV x y t).1 ^ 2 + -hexEqt x y t / 4 / t ^ 2 := by
  constructor
  · simp only [hexUV, hexEqt]
    field_simp
    ring
  · simp only [hexUV, hexEqt]
    field_simp
    ring

/-- At an exact solution `eqt` vanishes. -/
theorem eqt_exact (u v : K) : hexEqt (4 * u + v ^ 2) (4 * v + u ^ 2) (u - v) = 0 := by
  unfold hexEqt
  ring

/-- The exact solution solves the second equation (sextic.py 162-168). -/
theorem exact_pars {x y z N D : K} (hN : N = 6 * x ^ 2 + y * z - 102 * y) (hD : D = 36 * x * y - z ^ 2 + 204 * z - 10404) (hd : D ≠ 0) (h : hexDet0 x y z = 0) :
    y = 4 * (24 * N / D) + ((x - (24 * N / D) ^ 2) / 4) ^ 2 := by
  have key : (x * D ^ 2 - 576 * N ^ 2) ^ 2 / 16 + 96 * N * D ^ 3 - y * D ^ 4 = 0 := by
    rw [hN, hD]
    unfold hexDet0 at h
    linear_combination ((-1296)*x^5 + (81)*x^4*y^2 + (-9/2)*x^3*y^1*z^2 + (702)*x^3*y^1*z^1 + (-24786)*x^3*y^1 + (1/16)*x^2*z^4 + (-63/2)*x^2*z^3 + (11475/2)*x^2*z^2 +
      (-452574)*x^2*z^1 + (13132449)*x^2 + (-1)*y^1*z^4 + (408)*y^1*z^3 + (-62424)*y^1*z^2 + (4244832)*y^1*z^1 + (-108243216)*y^1) * h
  clear hN hD h
  field_simp
  linear_combination -16 * key

/-- The exact solution solves the third equation. -/
theorem exact_pars' {x y z N D : K} (hN : N = 6 * x ^ 2 + y * z - 102 * y) (hD : D = 36 * x * y - z ^ 2 + 204 * z - 10404) (hd : D ≠ 0) (h : hexDet0 x y z = 0) :
    z = 6 * ((x - (24 * N / D) ^ 2) / 4) * (24 * N / D) + 6 := by
  have key : 36 * (x * D ^ 2 - 576 * N ^ 2) * N + (6 - z) * D ^ 3 = 0 := by
    rw [hN, hD]
    unfold hexDet0 at h
    linear_combination ((216)*x^3 + (1)*z^3 + (-306)*z^2 + (31212)*z^1 + (-1061208)) * h
  clear hN hD h
  field_simp
  linear_combination -4 * key

/-- A rotated tree, divided by its first coefficient. -/
def rtPoly (u v w : K) : Val3 K := fun a b c => (a ^ 4 * c ^ 2 + b ^ 4 * a ^ 2 + c ^ 4 * b ^ 2) + u * (a ^ 3 * b ^ 2 * c + b ^ 3 * c ^ 2 * a + c ^ 3 * a ^ 2 * b) +
  v * (a ^ 3 * b * c ^ 2 + b ^ 3 * c * a ^ 2 + c ^ 3 * a * b ^ 2) + w * (a ^ 2 * b ^ 2 * c ^ 2)

theorem rtN_eq {u v y : K} (h1 : u + 4 * y + 6 ≠ 0) (h2 : y + 2 ≠ 0) : rtN u v y = u + v - 2 * y - 2 * rtX u v y * y - 4 * rtX u v y := by
  have hx : (rtX u v y - 1) * (2 * (u + 4 * y + 6)) = -((y + 2) * (-u - v + 4 * y + 4)) := by
    have h3 : 2 * (u + 4 * y + 6) ≠ 0 := mul_ne_zero two_ne_zero h1
    unfold rtX
    rw [show 1 - (y + 2) * (-u - v + 4 * y + 4) / (2 * (u + 4 * y + 6)) - 1 = -((y + 2) * (-u - v + 4 * y + 4)) / (2 * (u + 4 * y + 6)) by ring, div_mul_cancel₀ _ h3]
  have hn : rtN u v y * (y + 2) = 2 * (rtX u v y - 1) * (u + 2 - y ^ 2) := by
    unfold rtN rtP
    field_simp
  apply mul_right_cancel₀ h2
  rw [hn]
  linear_combination hx

/-- The simple rotated tree (sextic.py 481-528). -/
theorem id_rtSimple {u v y : K} (w : K) (h1 : u + 4 * y + 6 ≠ 0) (h2 : y + 2 ≠ 0) (a b c : K) :
    sumA a b c * rtPoly u v w a b c =
      cyc3 (fun a b c => a * (a ^ 2 * c - a * b ^ 2 + rtX u v y * b * c ^ 2 + y * b ^ 2 * c - (rtX u v y + y) * a * b * c) ^ 2) a b c +
      prodA a b c * cyc3 (fun a b c => a * b * (rtP u y * (a - c) ^ 2 + rtN u v y * ((a - c) * (b - c)) + rtQ u v y * (b - c) ^ 2)) a b c +
      ((1 + v + u) * 3 + w) * (cycp3 (fun a _ _ => a ^ 2) a b c * sumA a b c) := by
  rw [rtN_eq h1 h2]
  unfold rtP rtQ
  generalize rtX u v y = x
  simp only [rtPoly, cyc3, cycp3, prodA, sumA]
  ring

/-- The square completed (sextic.py 515-523). -/
theorem rt_square {p q n : K} (hp : p ≠ 0) (a b c : K) :
    p * (a - (-n / 2 / p) * b + (-n / 2 / p - 1) * c) ^ 2 + (q - n ^ 2 / 4 / p) * (b - c) ^ 2 = p * (a - c) ^ 2 + n * ((a - c) * (b - c)) + q * (b - c) ^ 2 := by
  field_simp
  ring

/-- The last rotated tree (sextic.py 531-563). -/
theorem id_rtLast (x u v w a b c : K) :
    rtMult (x * (x + 1) / 3) a b c * sumA a b c * rtPoly u v w a b c =
      sumA a b c * cyc3 (fun a b c => a ^ 2 * c * (a ^ 2 * c - x * a * b ^ 2 - x * b * c ^ 2 + (x * x - 1) * b ^ 2 * c - x * (x - 2) * a * b * c) ^ 2) a b c +
      (x + 1) / 2 * (cycp3 (fun a _ _ => a ^ 2) a b c * cyc3 (fun a b c => ((x - 1) * a - b) ^ 2 * (a + (x - 1) * b - x * c) ^ 2) a b c) +
      (x + 1) * (prodA a b c * cyc3 (fun a b c => c * ((x - 1) * a - b) ^ 2 * (x * a * b - a * c - (x - 1) * b * c) ^ 2) a b c) +
      (v + 3 * x * (x - 1)) * (prodA a b c * sumA a b c * rtMult (x * (x + 1) / 3) a b c * cyc3 (fun a b c => a ^ 2 * c - a * b * c) a b c) +
      (u - (x ^ 3 - 3 * x)) * (prodA a b c * sumA a b c * rtMult (x * (x + 1) / 3) a b c * cyc3 (fun a b c => a ^ 2 * b - a * b * c) a b c) +
      ((1 + v + u) * 3 + w) * (cycp3 (fun a _ _ => a ^ 2) a b c * sumA a b c * rtMult (x * (x + 1) / 3) a b c) := by
  simp only [rtPoly, rtMult, cyc3, cycp3, prodA, sumA]
  field_simp
  ring

end Verif.Ternary
