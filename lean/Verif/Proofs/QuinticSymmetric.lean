import Verif.Model.QuinticSymmetric
import Verif.Props.TernaryQuartic
import Mathlib.Tactic.Ring
import Mathlib.Tactic.FieldSimp
import Mathlib.Tactic.LinearCombination

/-!
# Identities of the symmetric quintic solver
-/

set_option linter.unusedSectionVars false

namespace Verif.Ternary

open Verif Verif.Acute

variable {K : Type*} [Field K] [LinearOrder K] [IsStrictOrderedRing K]

/-- The value of a cyclic quintic with coefficients `c500, c410, ...`. -/
def Quintic.poly (f : Quintic K) : Val3 K := fun a b c =>
  f.c500 * (a ^ 5 + b ^ 5 + c ^ 5) + f.c410 * (a ^ 4 * b + b ^ 4 * c + c ^ 4 * a) + f.c320 * (a ^ 3 * b ^ 2 + b ^ 3 * c ^ 2 + c ^ 3 * a ^ 2) +
    f.c230 * (a ^ 2 * b ^ 3 + b ^ 2 * c ^ 3 + c ^ 2 * a ^ 3) + f.c140 * (a * b ^ 4 + b * c ^ 4 + c * a ^ 4) +
    f.c311 * (a ^ 3 * b * c + b ^ 3 * c * a + c ^ 3 * a * b) + f.c221 * (a ^ 2 * b ^ 2 * c + b ^ 2 * c ^ 2 * a + c ^ 2 * a ^ 2 * b)

/-- A symmetric quintic. -/
def symQ (m p q r w : K) : Val3 K := (⟨m, p, q, q, p, r, w⟩ : Quintic K).poly

/-- A symmetric septic. -/
def s7 (d1 d2 d3 d4 d5 d6 d7 d8 : K) : Val3 K := fun a b c =>
  d1 * (a ^ 7 + b ^ 7 + c ^ 7) + d2 * (a ^ 6 * b + a ^ 6 * c + b ^ 6 * c + b ^ 6 * a + c ^ 6 * a + c ^ 6 * b) +
    d3 * (a ^ 5 * b ^ 2 + a ^ 5 * c ^ 2 + b ^ 5 * c ^ 2 + b ^ 5 * a ^ 2 + c ^ 5 * a ^ 2 + c ^ 5 * b ^ 2) + d4 * (a ^ 5 * b * c + b ^ 5 * c * a + c ^ 5 * a * b) +
    d5 * (a ^ 4 * b ^ 3 + a ^ 4 * c ^ 3 + b ^ 4 * c ^ 3 + b ^ 4 * a ^ 3 + c ^ 4 * a ^ 3 + c ^ 4 * b ^ 3) +
    d6 * (a ^ 4 * b ^ 2 * c + a ^ 4 * c ^ 2 * b + b ^ 4 * c ^ 2 * a + b ^ 4 * a ^ 2 * c + c ^ 4 * a ^ 2 * b + c ^ 4 * b ^ 2 * a) +
    d7 * (a ^ 3 * b ^ 3 * c + b ^ 3 * c ^ 3 * a + c ^ 3 * a ^ 3 * b) + d8 * (a ^ 3 * b ^ 2 * c ^ 2 + b ^ 3 * c ^ 2 * a ^ 2 + c ^ 3 * a ^ 2 * b ^ 2)

theorem s7_cg2 (g1 g2 g3 g4 g5 g6 a b c : K) :
    cyc3 (fun a b c => c * (g1 * c ^ 3 + g2 * c ^ 2 * (a + b) + g3 * c * (a ^ 2 + b ^ 2) + g4 * a * b * c + g5 * (a ^ 3 + b ^ 3) + g6 * (a ^ 2 * b + a * b ^ 2)) ^ 2) a b c =
    s7 (g1 ^ 2) (g5 ^ 2 + 2 * g1 * g2) (2 * g3 * g5 + g2 ^ 2 + 2 * g1 * g3) (4 * g5 * g6 + 2 * g2 ^ 2 + 2 * g1 * g4) (g3 ^ 2 + 2 * g2 * g5 + 2 * g2 * g3 + 2 * g1 * g5)
      (g6 ^ 2 + 2 * g5 * g6 + 2 * g4 * g5 + 2 * g3 * g6 + 2 * g2 * g4 + 2 * g2 * g3 + 2 * g1 * g6) (2 * g6 ^ 2 + 2 * g5 ^ 2 + 4 * g3 * g4 + 4 * g2 * g6 + 4 * g2 * g5)
      (g4 ^ 2 + 4 * g4 * g6 + 2 * g3 ^ 2 + 4 * g3 * g6 + 4 * g3 * g5 + 4 * g2 * g6) a b c := by
  unfold cyc3 s7
  ring

theorem s7_multQ (k m z u v w a b c : K) :
    (1 * (a ^ 2 + b ^ 2 + c ^ 2) + k * (a * b + b * c + c * a)) * symQ m z u v w a b c =
    s7 m (z + k * m) (u + m + k * z) (v + 2 * k * z + k * m) (z + u + k * u) (z + w + k * z + k * v + k * u) (2 * v + k * w + 2 * k * u) (w + 2 * u + 2 * k * w + k * v) a b c := by
  unfold symQ Quintic.poly s7
  ring

theorem s7_disc (a b c : K) : sumA a b c * discV3 a b c = s7 0 0 1 (-2) (-1) 1 2 (-2) a b c := by
  unfold sumA discV3 cyc3 cycp3 s7
  ring

theorem s7_bsq (p q a b c : K) : cyc3 (fun a b c => c * (a - b) ^ 2 * (p * a * b - q * a * c - q * b * c) ^ 2) a b c =
    s7 0 0 0 0 (q ^ 2) (p ^ 2 - 2 * p * q) (-2 * p ^ 2) (-2 * q ^ 2 + 4 * p * q) a b c := by
  unfold cyc3 s7
  ring

theorem s7_multTgc (k t a b c : K) : (1 * (a ^ 2 + b ^ 2 + c ^ 2) + k * (a * b + b * c + c * a)) * tgc t a b c =
    s7 0 1 (t ^ 2 - 2 * t + k) (-2 * t ^ 2 + 2 * k) (t ^ 2 - 2 * t + k * t ^ 2 - 2 * k * t + 1) (4 * t - k * t ^ 2 - 2 * k * t + k - 1) (-4 * t ^ 2 + 2 * k * t ^ 2 - 2 * k)
      (2 * t ^ 2 - 2 * k * t ^ 2 + 8 * k * t - 4 * k - 2) a b c := by
  unfold tgc cyc3 s7
  ring

theorem s7_pqt (t a b c : K) : prodA a b c * cyc3 (fun a b c => (a - b) ^ 2 * (a + b - t * c) ^ 2) a b c = s7 0 0 0 2 0 (-2 * t) (2 * t ^ 2 - 2) (-2 * t ^ 2 + 4 * t) a b c := by
  unfold prodA cyc3 cycp3 s7
  ring

theorem s7_multTail (k a b c : K) : (1 * (a ^ 2 + b ^ 2 + c ^ 2) + k * (a * b + b * c + c * a)) * tail5 a b c = s7 0 0 0 0 0 1 k (2 * k + 1) a b c := by
  unfold tail5 prodA sab3 cyc3 cycp3 s7
  ring

theorem s7_multE1 (k a b c : K) : (1 * (a ^ 2 + b ^ 2 + c ^ 2) + k * (a * b + b * c + c * a)) * cyc3 (fun a b c => a ^ 2 * (b + c) * (b - c) ^ 2) a b c =
    s7 0 0 1 0 (k + 1) (k - 2) 0 (-4 * k) a b c := by
  unfold cyc3 s7
  ring

theorem s7_multE2 (k a b c : K) : (1 * (a ^ 2 + b ^ 2 + c ^ 2) + k * (a * b + b * c + c * a)) * (prodA a b c * sd3 a b c) =
    s7 0 0 0 2 0 (2 * k - 2) (-2 * k + 4) (-2 * k - 2) a b c := by
  unfold prodA sd3 cyc3 cycp3 s7
  ring

theorem s7_add (d1 d2 d3 d4 d5 d6 d7 d8 e1 e2 e3 e4 e5 e6 e7 e8 a b c : K) : s7 d1 d2 d3 d4 d5 d6 d7 d8 a b c + s7 e1 e2 e3 e4 e5 e6 e7 e8 a b c =
    s7 (d1 + e1) (d2 + e2) (d3 + e3) (d4 + e4) (d5 + e5) (d6 + e6) (d7 + e7) (d8 + e8) a b c := by
  unfold s7
  ring

theorem s7_smul (w d1 d2 d3 d4 d5 d6 d7 d8 a b c : K) : w * s7 d1 d2 d3 d4 d5 d6 d7 d8 a b c =
    s7 (w * d1) (w * d2) (w * d3) (w * d4) (w * d5) (w * d6) (w * d7) (w * d8) a b c := by
  unfold s7
  ring

theorem s7_congr {d1 d2 d3 d4 d5 d6 d7 d8 e1 e2 e3 e4 e5 e6 e7 e8 : K} (h1 : d1 = e1) (h2 : d2 = e2) (h3 : d3 = e3) (h4 : d4 = e4) (h5 : d5 = e5) (h6 : d6 = e6) (h7 : d7 = e7)
    (h8 : d8 = e8) (a b c : K) : s7 d1 d2 d3 d4 d5 d6 d7 d8 a b c = s7 e1 e2 e3 e4 e5 e6 e7 e8 a b c := by
  rw [h1, h2, h3, h4, h5, h6, h7, h8]

/-! ### Without a fifth power -/

theorem hexFirst_id (m u v w a b c : K) :
    m * cyc3 (fun a b c => a * (b - c) ^ 4) a b c + u * cyc3 (fun a b c => a ^ 3 * (b - c) ^ 2) a b c + (m * 4 + u + v / 2) * (prodA a b c * sd3 a b c) +
      ((m + u) * 2 + v + w) * tail5 a b c = symQ 0 m u v w a b c := by
  unfold symQ Quintic.poly tail5 prodA sab3 sd3 cyc3 cycp3
  ring

theorem hexSecond_id (m u v w a b c : K) :
    m * cyc3 (fun a b c => a * (b - c) ^ 2 * (b + c - a) ^ 2) a b c + (u + 1) * m * cyc3 (fun a b c => a ^ 3 * (b - c) ^ 2) a b c +
      (v + 2 * u + 4) * m / 2 * (prodA a b c * sd3 a b c) + ((m + m * u) * 2 + m * v + w) * tail5 a b c = symQ 0 m (m * u) (m * v) w a b c := by
  unfold symQ Quintic.poly tail5 prodA sab3 sd3 cyc3 cycp3
  ring

theorem hexThird_id (m t s w a b c : K) :
    (1 - s) * m * cyc3 (fun a b c => a * (b - c) ^ 4) a b c + s * m * cyc3 (fun a b c => a * (b - c) ^ 2 * (b + c - t * a) ^ 2) a b c +
      ((m + m * (s * (t ^ 2 - 2 * t))) * 2 + m * (-8 * (1 - s) - 2 * s * t ^ 2) + w) * tail5 a b c =
    symQ 0 m (m * (s * (t ^ 2 - 2 * t))) (m * (-8 * (1 - s) - 2 * s * t ^ 2)) w a b c := by
  unfold symQ Quintic.poly tail5 prodA sab3 cyc3 cycp3
  ring

theorem first_id (m z u v w x y a b c : K) :
    symQ 0 (m * (2 * x - y ^ 2 + z)) (m * (u - x ^ 2 - 2 * x * y + 2 * y)) (m * (v - 2 * x ^ 2 + 8 * x * y - 4 * x + 8 * y ^ 2 - 8 * y + 2))
      (w + m * (4 * x ^ 2 - 4 * x * y - 6 * y ^ 2 + 4 * y - 1)) a b c + m * firstSq x y a b c = symQ m (m * z) (m * u) (m * v) w a b c := by
  unfold symQ Quintic.poly firstSq cyc3
  ring

/-! ### The curve -/

theorem tgt_id (z t a b c : K) :
    tgt (2 * z - 1 + 2 * t) t a b c = 2 * (symQ 1 z (curveU z t) (curveV z t) 0 a b c - (1 + curveV z t + (z + curveU z t) * 2) * tail5 a b c) := by
  unfold tgt symQ Quintic.poly curveU curveV tail5 prodA sab3 cyc3 cycp3
  ring

/-- Moving along `u` and `v`. -/
theorem move_id (m z u v w a b c : K) : symQ m (m * z) (m * u) (m * v) w a b c =
    m * symQ 1 z u v 0 a b c + w * tail5 a b c := by
  unfold symQ Quintic.poly tail5 prodA sab3 cyc3 cycp3
  ring

theorem move_u (z u v s a b c : K) : symQ 1 z (u + s) (v - 2 * s) 0 a b c = symQ 1 z u v 0 a b c + s * cyc3 (fun a b c => a ^ 3 * (b - c) ^ 2) a b c := by
  unfold symQ Quintic.poly cyc3
  ring

theorem move_v (z u v s a b c : K) : symQ 1 z u (v + 2 * s) 0 a b c = symQ 1 z u v 0 a b c + s * (prodA a b c * sd3 a b c) + 2 * s * tail5 a b c := by
  unfold symQ Quintic.poly tail5 prodA sab3 sd3 cyc3 cycp3
  ring

/-- Two points of the curve and a weight. -/
theorem move_w (z u1 v1 u2 v2 s a b c : K) : symQ 1 z (s * u1 + (1 - s) * u2) (s * v1 + (1 - s) * v2) 0 a b c = s * symQ 1 z u1 v1 0 a b c + (1 - s) * symQ 1 z u2 v2 0 a b c := by
  unfold symQ Quintic.poly
  ring

theorem tgt_split (k t a b c : K) : tgt k t a b c = tgt (-1) t a b c + (k + 1) * tgc t a b c := by
  unfold tgt tgc cyc3
  ring

theorem tgt_schur (t a b c : K) : halfSd a b c * tgt (-1) t a b c = schurTimes t a b c + 2 * (2 - t) * (t + 1) * (sumA a b c * discV3 a b c) := by
  unfold halfSd tgt sd3 schurTimes sumA discV3 cyc3 cycp3
  ring

theorem tgt_sq (t a b c : K) : sd3 a b c * tgt (-1) t a b c = midSq t a b c + (3 - t) * (1 + t) * (sumA a b c * discV3 a b c) := by
  unfold tgt sd3 midSq sumA discV3 cyc3 cycp3
  ring

theorem tgt_schur5 (z a b c : K) : tgt (2 * z + 1) 1 a b c = 2 * cyc3 (fun a b c => a ^ 3 * (a - b) * (a - c)) a b c + 2 * (z + 1) * tgc 1 a b c := by
  unfold tgt tgc cyc3
  ring

theorem upTriv_id (m z u v w a b c : K) :
    m / 2 * tgt (2 * z + 1) 1 a b c + (u + 1 + z) * m * cyc3 (fun a b c => a ^ 3 * (b - c) ^ 2) a b c + (v + 3 + 4 * z + 2 * u) * m / 2 * (prodA a b c * sd3 a b c) +
      ((1 + v + (z + u) * 2) * m + w) * tail5 a b c = symQ m (m * z) (m * u) (m * v) w a b c := by
  unfold tgt symQ Quintic.poly tail5 prodA sab3 sd3 cyc3 cycp3
  ring

theorem upSecond_id (m z u v w a b c : K) :
    m / 2 * tgt ((2 * z - 1) / 3) (-((2 * z - 1) / 3)) a b c + (m * u - m * (z + 1) * (4 * z ^ 2 + 8 * z - 23) / 27) * cyc3 (fun a b c => a ^ 3 * (b - c) ^ 2) a b c +
      (m * v + 2 * (m * u - m * (z + 1) * (4 * z ^ 2 + 8 * z - 23) / 27) + m * (2 * z - 1) ^ 3 / 27) / 2 * (prodA a b c * sd3 a b c) +
      ((1 + v + (z + u) * 2) * m + w) * tail5 a b c = symQ m (m * z) (m * u) (m * v) w a b c := by
  unfold tgt symQ Quintic.poly tail5 prodA sab3 sd3 cyc3 cycp3
  ring

theorem midTriv_id (m z u v w a b c : K) :
    m / 4 * cyc3 (fun a b c => c * (a - c) ^ 2 * (b - c) ^ 2 * ((z + 1) * (a + b) + 2 * c) ^ 2) a b c + (3 + z) * (1 - z) * m / 4 * (sumA a b c * discV3 a b c) +
      (u + z + 1) * m / 2 * (sd3 a b c * cyc3 (fun a b c => a ^ 3 * (b - c) ^ 2) a b c) + (v - z ^ 2 + 2 * (u + z + 1)) * m / 4 * (prodA a b c * sd3 a b c ^ 2) +
      ((1 + v + (z + u) * 2) * m + w) / 2 * (sd3 a b c * tail5 a b c) = halfSd a b c * symQ m (m * z) (m * u) (m * v) w a b c := by
  unfold halfSd symQ Quintic.poly tail5 prodA sab3 sd3 sumA discV3 cyc3 cycp3
  ring

theorem lowTriv_id (m z u v w a b c : K) :
    m * cyc3 (fun a b c => c * (a ^ 2 * c + b ^ 2 * c + c ^ 3 - (1 - z) / 2 * a * c ^ 2 - (1 - z) / 2 * b * c ^ 2 - (2 * z + 3) * a * b * c + (z + 1) / 2 * a ^ 2 * b +
      (z + 1) / 2 * a * b ^ 2) ^ 2) a b c + m * duOf z u / 2 * (cyc3 (fun a b c => c ^ 3 * (a - b) ^ 2) a b c * sd3 a b c) +
      m * (v - (z ^ 2 - 6 * z - 9) / 2 + 2 * duOf z u) / 4 * (sd3 a b c ^ 2 * prodA a b c) + ((1 + v + (z + u) * 2) * m + w) / 2 * (sd3 a b c * tail5 a b c) =
    halfSd a b c * symQ m (m * z) (m * u) (m * v) w a b c := by
  unfold duOf halfSd symQ Quintic.poly tail5 prodA sab3 sd3 cyc3 cycp3
  ring

/-! ### Case a -/

theorem caseA_id (m r v x y w a b c : K) :
    (1 * (a ^ 2 + b ^ 2 + c ^ 2) + (y ^ 2 + 2 * y - 1) * (a * b + b * c + c * a)) *
      symQ m (m * (1 - 2 * r)) (m * (((1 - 2 * r) ^ 2 + 2 * (1 - 2 * r) + 5) / 4)) (m * v) w a b c =
    prodA a b c * ((⟨m * (aQuartic r v x y).m, m * (aQuartic r v x y).p, m * (aQuartic r v x y).n, m * (aQuartic r v x y).p,
        -(m * (aQuartic r v x y).m) - m * (aQuartic r v x y).p * 2 - m * (aQuartic r v x y).n⟩ : Quartic K).poly a b c +
      ((1 + v + (1 - 2 * r + ((1 - 2 * r) ^ 2 + 2 * (1 - 2 * r) + 5) / 4) * 2) * m + w) *
        (sab3 a b c * (1 * (a ^ 2 + b ^ 2 + c ^ 2) + (y ^ 2 + 2 * y - 1) * (a * b + b * c + c * a)))) +
      m * cyc3 (fun a b c => c * aFunc r x y a b c ^ 2) a b c := by
  have e0 : ∀ a b c : K, aFunc r x y a b c = 1 * c ^ 3 + (y - r) * c ^ 2 * (a + b) + (-r * y + 1) * c * (a ^ 2 + b ^ 2) + (-2 * x + 2 * r - 3) * a * b * c + y * (a ^ 3 + b ^ 3) + (-2 * y + x + r * y) * (a ^ 2 * b + a * b ^ 2) := by
    intro a b c
    unfold aFunc
    ring
  have e1 := s7_cg2 1 (y - r) (-r * y + 1) (-2 * x + 2 * r - 3) y (-2 * y + x + r * y) a b c
  simp only [← e0] at e1
  have e2 : ∀ m p n q : K, prodA a b c * (⟨m, p, n, p, q⟩ : Quartic K).poly a b c = s7 0 0 0 m 0 p n q a b c := by
    intro m p n q
    unfold prodA cycp3 Quartic.poly s7
    ring
  have e3 : ∀ R k : K, prodA a b c * (R * (sab3 a b c * k)) = R * (k * tail5 a b c) := by
    intro R k
    unfold tail5
    ring
  rw [mul_add (prodA a b c), e1, e2, e3, s7_multQ, s7_multTail, s7_smul, s7_smul, s7_add, s7_add]
  apply s7_congr <;> ((try simp only [aQuartic]); ring)

/-! ### Case b -/

theorem caseB_id (m z t x y W ex w a b c : K) (ht : t - 1 ≠ 0) (hz : W + ex = 2 * z - 1 + 2 * t) :
    (1 * (a ^ 2 + b ^ 2 + c ^ 2) + (bCoef t x y W).u * (a * b + b * c + c * a)) * symQ m (m * z) (m * curveU z t) (m * curveV z t) w a b c =
    m * cyc3 (fun a b c => c * bFunc t x y a b c ^ 2) a b c + m * (bCoef t x y W).v * (sumA a b c * discV3 a b c) +
      m * (bCoef t x y W).q * cyc3 (fun a b c => c * (a - b) ^ 2 * (t * a * b - (t - 1) * a * c - (t - 1) * b * c) ^ 2) a b c +
      m * ex / 2 * ((1 * (a ^ 2 + b ^ 2 + c ^ 2) + (bCoef t x y W).u * (a * b + b * c + c * a)) * tgc t a b c) +
      m * (bCoef t x y W).ind / 2 * (prodA a b c * cyc3 (fun a b c => (a - b) ^ 2 * (a + b - t * c) ^ 2) a b c) +
      ((1 + curveV z t + (z + curveU z t) * 2) * m + w) * ((1 * (a ^ 2 + b ^ 2 + c ^ 2) + (bCoef t x y W).u * (a * b + b * c + c * a)) * tail5 a b c) := by
  have e0 : ∀ a b c : K, bFunc t x y a b c = 1 * c ^ 3 + (-2 * x + t * x - t + 1 / 2) * c ^ 2 * (a + b) + (-t * y + t * x - 1 / 2 * t - 1 / 2) * c * (a ^ 2 + b ^ 2) + (-2 * t ^ 2 * x + t ^ 2 + 2 * t * y + 2 * t * x + t) * a * b * c + (y + x - t * x + 1 / 2 * t) * (a ^ 3 + b ^ 3) + (-y + x + t ^ 2 * x - 1 / 2 * t ^ 2 - 2 * t * x + 1 / 2 * t - 1 / 2) * (a ^ 2 * b + a * b ^ 2) := by
    intro a b c
    unfold bFunc
    ring
  have e1 := s7_cg2 1 (-2 * x + t * x - t + 1 / 2) (-t * y + t * x - 1 / 2 * t - 1 / 2) (-2 * t ^ 2 * x + t ^ 2 + 2 * t * y + 2 * t * x + t) (y + x - t * x + 1 / 2 * t) (-y + x + t ^ 2 * x - 1 / 2 * t ^ 2 - 2 * t * x + 1 / 2 * t - 1 / 2) a b c
  simp only [← e0] at e1
  obtain rfl : ex = 2 * z - 1 + 2 * t - W := by linear_combination hz
  obtain ⟨U, hU⟩ : ∃ U, (bCoef t x y W).u = U := ⟨_, rfl⟩
  obtain ⟨V, hV⟩ : ∃ V, (bCoef t x y W).v = V := ⟨_, rfl⟩
  obtain ⟨Q, hQ⟩ : ∃ Q, (bCoef t x y W).q = Q := ⟨_, rfl⟩
  obtain ⟨I, hI⟩ : ∃ I, (bCoef t x y W).ind = I := ⟨_, rfl⟩
  rw [hU, hV, hQ, hI, e1, s7_multQ, s7_disc, s7_bsq, s7_multTgc, s7_pqt, s7_multTail, s7_smul, s7_smul, s7_smul, s7_smul, s7_smul, s7_smul, s7_add, s7_add, s7_add, s7_add, s7_add]
  have kQ : 4 * (t - 1) ^ 2 * Q = -(-2 * t ^ 2 * U * W - 2 * t ^ 2 * U - 2 * t ^ 2 * W + 4 * t ^ 2 * x ^ 2 - 16 * t ^ 2 * x * y - 4 * t ^ 2 * x + 4 * t ^ 2 * y ^ 2 + 12 * t ^ 2 * y - t ^ 2 +
      4 * t * U * W + 4 * t * W + 8 * t * x ^ 2 + 24 * t * x * y - 24 * t * x - 8 * t * y + 14 * t + 4 * U - 4 * V - 2 * W - 16 * x ^ 2 - 16 * x * y + 20 * x + 12 * y + 1) := by
    rw [← hQ, ← hU, ← hV]
    exact mul_div_cancel₀ _ (mul_ne_zero four_ne_zero (pow_ne_zero 2 ht))
  have kU : U = (4 * t ^ 2 * x ^ 2 - 4 * t ^ 2 * x + t ^ 2 - 8 * t * x ^ 2 - 8 * t * x * y + 12 * t * x + 4 * t * y - 4 * t - 2 * W + 4 * x ^ 2 + 8 * x * y - 16 * x + 4 * y ^ 2 + 2) / 4 := hU.symm
  have kV : V = (2 * t ^ 2 * W + 4 * t ^ 2 * x ^ 2 - 8 * t ^ 2 * x * y + 4 * t ^ 2 * y - 4 * t * U - 4 * t * W + 8 * t * x ^ 2 - 28 * t * x + 8 * t * y ^ 2 + 12 * t * y + 10 * t + 2 * U * W +
      2 * U - 16 * x ^ 2 + 12 * x + 4 * y + 3) / 4 := by
    rw [← hU]
    exact hV.symm
  have kI : I = (8 * t ^ 2 * W * x ^ 2 - 8 * t ^ 2 * W * x + 2 * t ^ 2 * W - 4 * t ^ 2 * x ^ 2 + 4 * t ^ 2 * x - t ^ 2 - 16 * t * W * x ^ 2 - 16 * t * W * x * y + 24 * t * W * x + 8 * t * W * y -
      8 * t * W + 56 * t * x ^ 2 - 40 * t * x * y - 36 * t * x + 20 * t * y + 4 * t - 4 * W ^ 2 + 8 * W * x ^ 2 + 16 * W * x * y - 32 * W * x + 8 * W * y ^ 2 - 2 * W - 68 * x ^ 2 + 24 * x * y +
      28 * y ^ 2 + 16 * y + 10) / 4 := hI.symm
  clear hU hV hQ hI e0 e1
  have ht2 : (t - 1) ^ 2 ≠ 0 := pow_ne_zero 2 ht
  simp only [curveU, curveV]
  apply s7_congr
  · ring
  · rw [kU]
    ring
  · rw [kV, kU]
    ring
  · rw [kI, kV, kU]
    ring
  · linear_combination (-m / 4) * kQ
  · apply mul_left_cancel₀ ht2
    rw [kI, kV, kU]
    rw [kV, kU] at kQ
    linear_combination (-m * (t ^ 2 - 2 * t * (t - 1)) / 4) * kQ
  · apply mul_left_cancel₀ ht2
    rw [kI, kV, kU]
    rw [kV, kU] at kQ
    linear_combination (-m * (-2 * t ^ 2) / 4) * kQ
  · apply mul_left_cancel₀ ht2
    rw [kI, kV, kU]
    rw [kV, kU] at kQ
    linear_combination (-m * (-2 * (t - 1) ^ 2 + 4 * t * (t - 1)) / 4) * kQ

/-! ### Case c -/

theorem caseC_first_id (m z u v w t a b c : K) (ht : t ≠ 0) :
    m / 2 * tgt (2 * lowW t + 2 * z - (t ^ 2 + 6 * t - 9) / (2 * t ^ 2)) ((3 * t ^ 2 + 2 * t + 3) / (4 * t)) a b c +
      -m / (64 * t ^ 3) * eqt1 z u t * cyc3 (fun a b c => a ^ 2 * (b + c) * (b - c) ^ 2) a b c + -m / (64 * t ^ 3) * eqt2 z v t * (prodA a b c * sd3 a b c) +
      ((1 + v + (z + u) * 2) * m + w) * tail5 a b c = symQ m (m * z) (m * u) (m * v) w a b c := by
  unfold tgt symQ Quintic.poly tail5 prodA sab3 sd3 cyc3 cycp3 eqt1 eqt2 lowW
  field_simp
  ring

theorem caseC_second_id (m z u v w t a b c : K) (ht : t ≠ 0) :
    (1 * (a ^ 2 + b ^ 2 + c ^ 2) + -((7 * t ^ 2 + 30 * t - 9) / (16 * t ^ 2)) * (a * b + b * c + c * a)) * symQ m (m * z) (m * u) (m * v) w a b c =
    m * cyc3 (fun a b c => c * cFunc t a b c ^ 2) a b c +
      27 * (t - 3) * (t ^ 2 - t + 2) / t ^ 3 / 32 * m * (prodA a b c * cyc3 (fun a b c => (a - b) ^ 2 * (a + b - (3 * t ^ 2 + 2 * t + 3) / (4 * t) * c) ^ 2) a b c) +
      (2 * lowW t + 2 * z) * m / 2 * ((1 * (a ^ 2 + b ^ 2 + c ^ 2) + -((7 * t ^ 2 + 30 * t - 9) / (16 * t ^ 2)) * (a * b + b * c + c * a)) * tgc ((3 * t ^ 2 + 2 * t + 3) / (4 * t)) a b c) +
      -m / (64 * t ^ 3) * eqt1 z u t * ((1 * (a ^ 2 + b ^ 2 + c ^ 2) + -((7 * t ^ 2 + 30 * t - 9) / (16 * t ^ 2)) * (a * b + b * c + c * a)) *
        cyc3 (fun a b c => a ^ 2 * (b + c) * (b - c) ^ 2) a b c) +
      -m / (64 * t ^ 3) * eqt2 z v t * ((1 * (a ^ 2 + b ^ 2 + c ^ 2) + -((7 * t ^ 2 + 30 * t - 9) / (16 * t ^ 2)) * (a * b + b * c + c * a)) * (prodA a b c * sd3 a b c)) +
      ((1 + v + (z + u) * 2) * m + w) * ((1 * (a ^ 2 + b ^ 2 + c ^ 2) + -((7 * t ^ 2 + 30 * t - 9) / (16 * t ^ 2)) * (a * b + b * c + c * a)) * tail5 a b c) := by
  have e0 : ∀ a b c : K, cFunc t a b c = (-1) * c ^ 3 + (lowW0 t + 1 / 2 * lowW t + 1 / 2) * c ^ 2 * (a + b) + (-(1 / 2) * lowW0 t - 1 / 2 * lowW t * lowW0 t - 1) * c * (a ^ 2 + b ^ 2) + (-2 * lowW1 t - lowW0 t - lowW t * lowW0 t - lowW t + 2) * a * b * c + (lowW0 t) * (a ^ 3 + b ^ 3) + (lowW1 t - lowW0 t + lowW t * lowW0 t) * (a ^ 2 * b + a * b ^ 2) := by
    intro a b c
    unfold cFunc
    ring
  have e1 := s7_cg2 (-1) (lowW0 t + 1 / 2 * lowW t + 1 / 2) (-(1 / 2) * lowW0 t - 1 / 2 * lowW t * lowW0 t - 1) (-2 * lowW1 t - lowW0 t - lowW t * lowW0 t - lowW t + 2) (lowW0 t) (lowW1 t - lowW0 t + lowW t * lowW0 t) a b c
  simp only [← e0] at e1
  rw [e1, s7_multQ, s7_multTgc, s7_pqt, s7_multTail, s7_multE1, s7_multE2]
  simp only [s7_smul, s7_add]
  apply s7_congr <;> (simp only [lowW0, lowW1, lowW, eqt1, eqt2]; field_simp; ring)

end Verif.Ternary
