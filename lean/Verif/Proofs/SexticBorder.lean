import Verif.Model.SexticQuad
import Mathlib.Tactic.FieldSimp
import Mathlib.Tactic.LinearCombination
import Mathlib.Tactic.Ring
import Mathlib.Algebra.Order.Ring.Defs

/-!
# The identity behind the bound that is tight on the border

The two sides of the identity of `_F_tighter_bound_border` are symmetric forms of degree eight; their coefficients are compared one by one.
-/

namespace Verif.Ternary

open Verif Verif.Acute

variable {K : Type*} [Field K] [LinearOrder K]

/-- The sum of `(a-b)(a-c)(a^2-suv*ab+puv*b^2)(a^2-suv*ac+puv*c^2)`. -/
def borderR (s p : K) : Val3 K := cyc3 fun a b c => (a - b) * (a - c) * (a ^ 2 - s * a * b + p * b ^ 2) * (a ^ 2 - s * a * c + p * c ^ 2)

/-- The sum of `bc(a-b)(a-c)(a^2-suv*ab+puv*b^2)(a^2-suv*ac+puv*c^2)`. -/
def borderT (s p : K) : Val3 K := cyc3 fun a b c => b * c * (a - b) * (a - c) * (a ^ 2 - s * a * b + p * b ^ 2) * (a ^ 2 - s * a * c + p * c ^ 2)

/-- The equations between the parameters under which the identity holds. -/
structure BorderFits (s p m phi fc w ps l1 l2 l3 l4 : K) : Prop where
  e0 : (-1) + (-1) * s + 1 * m + 1 * ps + (-1) * l1 = 0
  e1 : 1 + 1 * p + 1 * s + (-(1 / 2)) * m ^ 2 + (-2) * ps + (-2) * ps * m + (-1) * w + 1 * phi + (-1) * phi * s + 2 * phi * m + (-(1 / 2)) * l4 ^ 2 + (-1) * l2 + (-(1 / 2)) * l1 ^ 2 = 0
  e2 : 1 + 2 * s + 1 * s ^ 2 + (-4) * ps * s + 4 * ps * m + 2 * w + (-2) * fc + 1 * fc * m + (-1) * phi + 2 * phi * s + (-4) * phi * m + 1 * l4 ^ 2 + (-2) * l3 + 2 * l1 + 2 * l1 * m = 0
  e3 : (-1) + (-2) * p + 1 * p ^ 2 + (-1) * s + (-1) * m + 3 * ps + 4 * ps * m + 1 * ps * m ^ 2 + 2 * w + (-1) * fc * p ^ 2 + (-3) * phi + 1 * phi * p + 1 * phi * s + (-4) * phi * m + (-1) * phi * m ^ 2 + (-1) * phi * w + (-1) * l4 + (-1) * l2 * l4 + (-1) * l1 * l2 = 0
  e4 : (-1) + (-1) * p ^ 2 + (-2) * s + (-1) * s * p + (-1) * s ^ 2 + (-2) * ps + 2 * ps * p + 4 * ps * s + 1 * ps * s ^ 2 + (-4) * ps * m + (-1) * ps * m ^ 2 + (-2) * w + 2 * fc + 1 * fc * p ^ 2 + 2 * fc * s + (-1) * fc * m + (-1) * fc * m * s + 2 * phi + (-1) * phi * p + (-2) * phi * s + 4 * phi * m + 1 * phi * m ^ 2 + 1 * phi * w + 1 * l3 + 1 * l3 * m + 1 * l2 * m + 1 * l2 * l4 + (-1) * l1 + (-1) * l1 * m + (-1) * l1 * l3 + 1 * l1 ^ 2 = 0
  e5 : 1 + 2 * p + 2 * s + 1 * m ^ 2 + (-4) * ps + (-4) * ps * m + (-2) * ps * m ^ 2 + (-2) * w + 1 * fc * m * p ^ 2 + 4 * phi + (-2) * phi * p + 1 * phi * p ^ 2 + 4 * phi * m + 2 * phi * m ^ 2 + 2 * phi * w + (-1) * l2 ^ 2 + (-2) * l1 * l4 = 0
  e6 : 1 + (-1) * p ^ 2 + 1 * s + (-1) * s * p + 1 * ps + (-2) * ps * p + 1 * ps * p ^ 2 + (-1) * ps * s ^ 2 + 1 * ps * m ^ 2 + 1 * fc * p ^ 2 + (-2) * fc * s + 2 * fc * s * p + (-1) * fc * m * p ^ 2 + 1 * fc * m * s + (-1) * fc * m * s * p + (-1) * phi + 1 * phi * p + (-1) * phi * p ^ 2 + (-1) * phi * s * p + (-1) * phi * m ^ 2 + (-1) * phi * w + 1 * l4 + 1 * l4 * m + (-1) * l3 * m + (-1) * l3 * l4 + (-1) * l2 * l3 + 1 * l1 + 2 * l1 * l4 + 1 * l1 * l2 = 0
  e7 : 2 * p + 3 * p ^ 2 + 2 * s + 6 * s * p + 3 * s ^ 2 + 6 * ps + (-4) * ps * p + (-2) * ps * p ^ 2 + (-4) * ps * s + (-4) * ps * s * p + (-2) * ps * s ^ 2 + 8 * ps * m + 2 * ps * m ^ 2 + 4 * w + (-2) * fc + (-4) * fc * p + (-2) * fc * p ^ 2 + (-4) * fc * s + (-4) * fc * s * p + (-2) * fc * s ^ 2 + 1 * fc * m + 2 * fc * m * p + 2 * fc * m * s + 2 * fc * m * s * p + 1 * fc * m * s ^ 2 + (-5) * phi + 4 * phi * p + 4 * phi * s + 2 * phi * s * p + 1 * phi * s ^ 2 + (-8) * phi * m + (-2) * phi * m ^ 2 + (-2) * phi * w + 2 * l3 * l4 + (-1) * l3 ^ 2 + 2 * l2 + 1 * l2 ^ 2 + (-2) * l1 * l4 + 4 * l1 * l3 + (-3) * l1 ^ 2 = 0
  e8 : (-2) * p + (-1) * p ^ 2 + (-2) * s + (-2) * s * p + (-2) * s ^ 2 + (-4) * ps + 4 * ps * p + 4 * ps * s * p + 2 * ps * s ^ 2 + (-4) * ps * m + (-2) * ps * m ^ 2 + (-2) * w + 4 * fc * p + 4 * fc * s + 2 * fc * s ^ 2 + (-2) * fc * m * p + 1 * fc * m * p ^ 2 + (-2) * fc * m * s + (-1) * fc * m * s ^ 2 + 4 * phi + (-4) * phi * p + 1 * phi * p ^ 2 + (-2) * phi * s + (-1) * phi * s ^ 2 + 4 * phi * m + 2 * phi * m ^ 2 + 2 * phi * w + (-2) * l4 * m + 1 * l3 ^ 2 + (-2) * l2 * m + 2 * l2 * l3 + (-2) * l1 * l3 + 2 * l1 ^ 2 = 0

variable [IsStrictOrderedRing K]

set_option maxRecDepth 20000 in
theorem border_identity {s p m phi fc w ps l1 l2 l3 l4 : K} (h : BorderFits s p m phi fc w ps l1 l2 l3 l4) (a b c : K) :
    (borderR s p a b c - w * discV3 a b c) * (a ^ 2 + b ^ 2 + c ^ 2 + phi * (a * b + b * c + c * a)) =
      1 / 2 * cyc3 (fun a b c => (a - b) ^ 2 * ((a ^ 2 - m * a * b + b ^ 2) * (a + b) + l1 * c * (a ^ 2 + b ^ 2) + l2 * c ^ 2 * (a + b) + l3 * a * b * c + l4 * c ^ 3) ^ 2) a b c
        + (phi - ps) * cyc3 (fun a b c => a * b * (a - b) ^ 2 * bH s p m a b c ^ 2) a b c
        + fc * (p ^ 2 * (a * b + b * c + c * a) * discV3 a b c + (2 - m) * borderT s p a b c) := by
  simp only [borderR, borderT, discV3, cyc3, cycp3, bH]
  linear_combination h.e0 * (a ^ 7 * c ^ 1 + a ^ 7 * b ^ 1 + a ^ 1 * b ^ 7 + b ^ 7 * c ^ 1 + b ^ 1 * c ^ 7 + a ^ 1 * c ^ 7) + h.e1 * (a ^ 6 * b ^ 2 + a ^ 6 * c ^ 2 + a ^ 2 * b ^ 6 + b ^ 6 * c ^ 2 + a ^ 2 * c ^ 6 + b ^ 2 * c ^ 6) + h.e2 * (a ^ 6 * b ^ 1 * c ^ 1 + a ^ 1 * b ^ 6 * c ^ 1 + a ^ 1 * b ^ 1 * c ^ 6) + h.e3 * (a ^ 5 * c ^ 3 + a ^ 5 * b ^ 3 + a ^ 3 * c ^ 5 + a ^ 3 * b ^ 5 + b ^ 5 * c ^ 3 + b ^ 3 * c ^ 5) + h.e4 * (a ^ 5 * b ^ 2 * c ^ 1 + a ^ 5 * b ^ 1 * c ^ 2 + a ^ 1 * b ^ 2 * c ^ 5 + a ^ 1 * b ^ 5 * c ^ 2 + a ^ 2 * b ^ 5 * c ^ 1 + a ^ 2 * b ^ 1 * c ^ 5) + h.e5 * (a ^ 4 * c ^ 4 + a ^ 4 * b ^ 4 + b ^ 4 * c ^ 4) + h.e6 * (a ^ 4 * b ^ 1 * c ^ 3 + a ^ 3 * b ^ 1 * c ^ 4 + a ^ 4 * b ^ 3 * c ^ 1 + a ^ 1 * b ^ 4 * c ^ 3 + a ^ 3 * b ^ 4 * c ^ 1 + a ^ 1 * b ^ 3 * c ^ 4) + h.e7 * (a ^ 4 * b ^ 2 * c ^ 2 + a ^ 2 * b ^ 4 * c ^ 2 + a ^ 2 * b ^ 2 * c ^ 4) + h.e8 * (a ^ 3 * b ^ 3 * c ^ 2 + a ^ 2 * b ^ 3 * c ^ 3 + a ^ 3 * b ^ 2 * c ^ 3)

set_option maxHeartbeats 4000000 in
theorem border_fits {s p m : K} (hm : m ≠ 2) (hd : m + p - 2 ≠ 0) (hs : s - 2 * m - 1 ≠ 0) :
    BorderFits s p m (bPhi s p m) (bFinal s p m) (bW s p m) ((m - 2) * (s - 2 * m) / (m + p - 2)) ((-m ^ 2 + (p + 1) * m - p * (s + 1) + 2) / (m + p - 2))
      (((1 - 2 * p) * m ^ 2 + (p * (s + 1) - 1) * m + p - 2) / (m + p - 2))
      ((2 * (p + s) * m ^ 2 - (p * (s - 1) + (s + 2) ^ 2 - 2) * m + (p - 2) ^ 2 + 2 * s ^ 2) / (m + p - 2)) (((2 * p - 1) * m - p * (s + 1) + 2) / (m + p - 2)) := by
  obtain ⟨e, rfl⟩ : ∃ e, m = e + 2 := ⟨m - 2, by ring⟩
  obtain ⟨d, rfl⟩ : ∃ d, p = d - e := ⟨p + e, by ring⟩
  obtain ⟨k, rfl⟩ : ∃ k, s = k + 2 * e + 5 := ⟨s - 2 * e - 5, by ring⟩
  have he : e ≠ 0 := fun h0 => hm (by rw [h0]; ring)
  have hd' : d ≠ 0 := fun h0 => hd (by rw [h0]; ring)
  have hk : k ≠ 0 := fun h0 => hs (by rw [h0]; ring)
  have e1 : e + 2 - 2 = e := by ring
  have e2 : e + 2 + (d - e) - 2 = d := by ring
  have e3 : k + 2 * e + 5 - 2 * (e + 2) - 1 = k := by ring
  constructor <;> · simp only [bPhi, bFinal, bW, bDenom, bDet1, bDet2, e1, e2, e3]; field_simp; ring

end Verif.Ternary
