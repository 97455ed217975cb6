import Mathlib.Algebra.Order.Field.Basic
import Mathlib.Tactic.Ring
import Mathlib.Tactic.FieldSimp
import Mathlib.Tactic.LinearCombination
import Mathlib.Tactic.Positivity

/-!
# The expressions of the symmetric change of variables for four variables

The expressions of `get_inv_dict` (triples/core/symsos/symmetric.py 181-194), and the identities between them.
-/

namespace Verif.SymSOS

section Expr
variable {K : Type*} [Field K]

/-- `SymmetricSum(f, (a,b,c,d))`: the sum over all 24 permutations. -/
def sym4 (f : K → K → K → K → K) (a b c d : K) : K :=
  f a b c d + f a b d c + f a c b d + f a c d b + f a d b c + f a d c b + f b a c d + f b a d c + f b c a d + f b c d a + f b d a c + f b d c a +
  f c a b d + f c a d b + f c b a d + f c b d a + f c d a b + f c d b a + f d a b c + f d a c b + f d b a c + f d b c a + f d c a b + f d c b a

/-- The elementary symmetric polynomials `p, q, r, s`. -/
def p4 (a b c d : K) : K := a + b + c + d
def q4 (a b c d : K) : K := a * b + a * c + a * d + b * c + b * d + c * d
def r4 (a b c d : K) : K := a * b * c + a * b * d + a * c * d + b * c * d
def s4 (a b c d : K) : K := a * b * c * d

/-- The invariants `q2, r2, s2` of the docstring. -/
def cq (a b c d : K) : K := -3 * p4 a b c d ^ 2 / 8 + q4 a b c d
def cr (a b c d : K) : K := p4 a b c d ^ 3 / 8 - p4 a b c d * q4 a b c d / 2 + r4 a b c d
def cs (a b c d : K) : K := -3 * p4 a b c d ^ 4 / 256 + p4 a b c d ^ 2 * q4 a b c d / 16 - p4 a b c d * r4 a b c d / 4 + s4 a b c d

/-- `rr` and `disc` (symmetric.py 183-184). -/
def rr4 (a b c d : K) : K := (a - b - c + d) * (a - b + c - d) * (a + b - c - d)
def disc4 (a b c d : K) : K := (a - b) ^ 2 * (a - c) ^ 2 * (a - d) ^ 2 * (b - c) ^ 2 * (b - d) ^ 2 * (c - d) ^ 2

/-- `SymmetricSum((a-b)**2)` and `SymmetricSum(a)`. -/
def sd4 (a b c d : K) : K := sym4 (fun a b _ _ => (a - b) ^ 2) a b c d
def sa4 (a b c d : K) : K := sym4 (fun a _ _ _ => a) a b c d

/-- `y_`, `w_`, `J`, `ker1`, `z_`, `x_` (symmetric.py 185-192). -/
def fy (a b c d : K) : K := sym4 (fun a b c _ => (a - b) ^ 2 * (b - c) ^ 2 * (c - a) ^ 2) a b c d / 6
def fw (a b c d : K) : K := disc4 a b c d * sd4 a b c d ^ 3 / (4 * rr4 a b c d ^ 2)
def fJ (a b c d : K) : K := -(a * b - 2 * a * c + a * d + b * c - 2 * b * d + c * d) * (a * b + a * c - 2 * a * d - 2 * b * c + b * d + c * d) *
  (2 * a * b - a * c - a * d - b * c - b * d + 2 * c * d)
def fk (a b c d : K) : K := fw a b c d + 16 * fJ a b c d ^ 2
def fz (a b c d : K) : K := fk a b c d * rr4 a b c d ^ 2 / (8 * fy a b c d ^ 2)
def fx (a b c d : K) : K := sa4 a b c d * sd4 a b c d * fy a b c d / 24 / rr4 a b c d

/-- `ker1` and `ker2` in the new variables (symmetric.py 311). -/
def ker1V (y z w : K) : K := w + (y - z) ^ 2
def ker2V (y z w : K) : K := 8 * w * y + w * z + 8 * y ^ 3 + 12 * y ^ 2 * z + 6 * y * z ^ 2 + z ^ 3

end Expr

section Ident
variable {K : Type*} [Field K] [CharZero K]

theorem sa4_eq (a b c d : K) : sa4 a b c d = 6 * p4 a b c d := by
  unfold sa4 sym4 p4; ring

theorem sd4_eq (a b c d : K) : sd4 a b c d = -32 * cq a b c d := by
  unfold sd4 sym4 cq p4 q4; ring

theorem rr4_eq (a b c d : K) : rr4 a b c d = 8 * cr a b c d := by
  unfold rr4 cr p4 q4 r4; ring

/-- Centred variables: every four numbers are a shift of four with sum zero. -/
theorem centred (a b c d : K) : ∃ t u v w, a = t + u ∧ b = t + v ∧ c = t + w ∧ d = t + (-u - v - w) ∧ cq a b c d = q4 u v w (-u - v - w) ∧
    cr a b c d = r4 u v w (-u - v - w) ∧ cs a b c d = s4 u v w (-u - v - w) := by
  refine ⟨(a + b + c + d) / 4, a - (a + b + c + d) / 4, b - (a + b + c + d) / 4, c - (a + b + c + d) / 4, by ring, by ring, by ring, by ring, ?_, ?_, ?_⟩
  · unfold cq p4 q4; ring
  · unfold cr p4 q4 r4; ring
  · unfold cs p4 q4 r4 s4; ring

theorem fy_eq (a b c d : K) : fy a b c d = -8 * cq a b c d ^ 3 - 36 * cr a b c d ^ 2 + 32 * cq a b c d * cs a b c d := by
  obtain ⟨t, u, v, w, ha, hb, hc, hd, h1, h2, h3⟩ := centred a b c d
  rw [h1, h2, h3, ha, hb, hc, hd]
  unfold fy sym4 q4 r4 s4
  ring

theorem fJ_eq (a b c d : K) : fJ a b c d = -2 * cq a b c d ^ 3 - 27 * cr a b c d ^ 2 + 72 * cq a b c d * cs a b c d := by
  obtain ⟨t, u, v, w, ha, hb, hc, hd, h1, h2, h3⟩ := centred a b c d
  rw [h1, h2, h3, ha, hb, hc, hd]
  unfold fJ q4 r4 s4
  ring

theorem disc4_eq (a b c d : K) : disc4 a b c d = 16 * cq a b c d ^ 4 * cs a b c d - 4 * cq a b c d ^ 3 * cr a b c d ^ 2 - 128 * cq a b c d ^ 2 * cs a b c d ^ 2 +
    144 * cq a b c d * cr a b c d ^ 2 * cs a b c d - 27 * cr a b c d ^ 4 + 256 * cs a b c d ^ 3 := by
  obtain ⟨t, u, v, w, ha, hb, hc, hd, h1, h2, h3⟩ := centred a b c d
  rw [h1, h2, h3, ha, hb, hc, hd]
  have e : disc4 (t + u) (t + v) (t + w) (t + (-u - v - w)) = disc4 u v w (-u - v - w) := by
    unfold disc4; ring
  rw [e]
  unfold disc4 q4 r4 s4
  ring

variable (a b c d : K)

theorem fw_mul (hr : rr4 a b c d ≠ 0) : fw a b c d * cr a b c d ^ 2 = -128 * disc4 a b c d * cq a b c d ^ 3 := by
  have hc : cr a b c d ≠ 0 := fun h => hr (by rw [rr4_eq, h, mul_zero])
  unfold fw
  rw [sd4_eq, rr4_eq]
  field_simp
  ring

theorem fz_eq (hr : rr4 a b c d ≠ 0) (hy : fy a b c d ≠ 0) : fz a b c d = 72 * cr a b c d ^ 2 - 256 * cq a b c d * cs a b c d := by
  have hw := fw_mul a b c d hr
  unfold fz
  rw [div_eq_iff (mul_ne_zero (by norm_num) (pow_ne_zero 2 hy)), rr4_eq]
  unfold fk
  rw [disc4_eq] at hw
  have e : (fw a b c d + 16 * fJ a b c d ^ 2) * (8 * cr a b c d) ^ 2 = 64 * (fw a b c d * cr a b c d ^ 2) + 1024 * fJ a b c d ^ 2 * cr a b c d ^ 2 := by ring
  rw [e, hw, fJ_eq, fy_eq]
  ring

/-- `z_ = y_ - 4*J` (the comment at line 188). -/
theorem fz_fJ (hr : rr4 a b c d ≠ 0) (hy : fy a b c d ≠ 0) : fz a b c d = fy a b c d - 4 * fJ a b c d := by
  rw [fz_eq a b c d hr hy, fy_eq, fJ_eq]; ring

theorem fk_eq (hr : rr4 a b c d ≠ 0) (hy : fy a b c d ≠ 0) : fk a b c d = ker1V (fy a b c d) (fz a b c d) (fw a b c d) := by
  unfold fk ker1V
  rw [fz_fJ a b c d hr hy]; ring

/-- `r2**2 = y**2*z/(8*ker1)`. -/
theorem ker1_r (hr : rr4 a b c d ≠ 0) (hy : fy a b c d ≠ 0) :
    8 * ker1V (fy a b c d) (fz a b c d) (fw a b c d) * cr a b c d ^ 2 = fy a b c d ^ 2 * fz a b c d := by
  rw [← fk_eq a b c d hr hy]
  have : fz a b c d * (8 * fy a b c d ^ 2) = fk a b c d * rr4 a b c d ^ 2 := by
    unfold fz
    rw [div_mul_cancel₀ _ (mul_ne_zero (by norm_num) (pow_ne_zero 2 hy))]
  rw [rr4_eq] at this
  have h8 : (8 : K) ≠ 0 := by norm_num
  apply mul_left_cancel₀ h8
  linear_combination (-1) * this

/-- `ker2*r2**2 = -8*q2**3*y**2*z`. -/
theorem ker2_r (hr : rr4 a b c d ≠ 0) (hy : fy a b c d ≠ 0) :
    ker2V (fy a b c d) (fz a b c d) (fw a b c d) * cr a b c d ^ 2 = -8 * cq a b c d ^ 3 * (fy a b c d ^ 2 * fz a b c d) := by
  have hw := fw_mul a b c d hr
  rw [disc4_eq] at hw
  unfold ker2V
  rw [fz_eq a b c d hr hy, fy_eq]
  linear_combination (8 * (-8 * cq a b c d ^ 3 - 36 * cr a b c d ^ 2 + 32 * cq a b c d * cs a b c d) + (72 * cr a b c d ^ 2 - 256 * cq a b c d * cs a b c d)) * hw

/-- `r2*x == S[a]*S[(a-b)^2]*y/192` (symmetric.py 334). -/
theorem fx_r (hr : rr4 a b c d ≠ 0) : cr a b c d * fx a b c d = sa4 a b c d * sd4 a b c d * fy a b c d / 192 := by
  have hc : cr a b c d ≠ 0 := fun h => hr (by rw [rr4_eq, h, mul_zero])
  unfold fx
  rw [rr4_eq]
  field_simp
  ring

/-- `ker2 == w*y**2*z / 16 / disc` (symmetric.py 327). -/
theorem ker2_disc (hr : rr4 a b c d ≠ 0) (hy : fy a b c d ≠ 0) :
    16 * disc4 a b c d * ker2V (fy a b c d) (fz a b c d) (fw a b c d) = fw a b c d * fy a b c d ^ 2 * fz a b c d := by
  have hc : cr a b c d ≠ 0 := fun h => hr (by rw [rr4_eq, h, mul_zero])
  apply mul_right_cancel₀ (pow_ne_zero 2 hc)
  linear_combination 16 * disc4 a b c d * ker2_r a b c d hr hy - fy a b c d ^ 2 * fz a b c d * fw_mul a b c d hr

end Ident

section Sign
variable {K : Type*} [Field K] [LinearOrder K] [IsStrictOrderedRing K] {a b c d : K}

theorem disc4_pos (h : disc4 a b c d ≠ 0) : 0 < disc4 a b c d :=
  lt_of_le_of_ne (by unfold disc4; positivity) h.symm

theorem fy_pos (h : disc4 a b c d ≠ 0) : 0 < fy a b c d := by
  have h1 : a - b ≠ 0 ∧ a - c ≠ 0 ∧ b - c ≠ 0 := by
    refine ⟨?_, ?_, ?_⟩ <;> (intro e; apply h; unfold disc4; rw [e]; ring)
  have h2 : 0 < (a - b) ^ 2 * (b - c) ^ 2 * (c - a) ^ 2 := by
    have h3 : c - a ≠ 0 := fun e => h1.2.1 (by linear_combination -e)
    have := h1.1
    have := h1.2.2
    positivity
  have e : fy a b c d = (a - b) ^ 2 * (b - c) ^ 2 * (c - a) ^ 2 + (a - b) ^ 2 * (b - d) ^ 2 * (d - a) ^ 2 + (a - c) ^ 2 * (c - d) ^ 2 * (d - a) ^ 2 +
      (b - c) ^ 2 * (c - d) ^ 2 * (d - b) ^ 2 := by
    unfold fy sym4; ring
  rw [e]
  positivity

theorem sd4_pos (h : disc4 a b c d ≠ 0) : 0 < sd4 a b c d := by
  have h1 : a - b ≠ 0 := by
    intro e; apply h; unfold disc4; rw [e]; ring
  have e : sd4 a b c d = 4 * ((a - b) ^ 2 + (a - c) ^ 2 + (a - d) ^ 2 + (b - c) ^ 2 + (b - d) ^ 2 + (c - d) ^ 2) := by
    unfold sd4 sym4; ring
  rw [e]
  positivity

theorem fw_pos (h : disc4 a b c d ≠ 0) (hr : rr4 a b c d ≠ 0) : 0 < fw a b c d := by
  have := disc4_pos h
  have := sd4_pos h
  unfold fw
  positivity

theorem fk_pos (h : disc4 a b c d ≠ 0) (hr : rr4 a b c d ≠ 0) : 0 < fk a b c d := by
  have := fw_pos h hr
  unfold fk
  positivity

theorem fz_pos (h : disc4 a b c d ≠ 0) (hr : rr4 a b c d ≠ 0) : 0 < fz a b c d := by
  have := fk_pos h hr
  have := fy_pos h
  unfold fz
  positivity

theorem fx_ne (h : disc4 a b c d ≠ 0) (hr : rr4 a b c d ≠ 0) (hp : p4 a b c d ≠ 0) : fx a b c d ≠ 0 := by
  have := (fy_pos h).ne'
  have := (sd4_pos h).ne'
  have h3 : sa4 a b c d ≠ 0 := by
    rw [sa4_eq]; positivity
  unfold fx
  positivity

/-- The variables declared nonnegative (symmetric.py 197-208) are, at every point. -/
theorem four_nonneg (a b c d : K) : 0 ≤ fy a b c d ∧ 0 ≤ fz a b c d ∧ 0 ≤ fw a b c d := by
  have e1 : fy a b c d = (a - b) ^ 2 * (b - c) ^ 2 * (c - a) ^ 2 + (a - b) ^ 2 * (b - d) ^ 2 * (d - a) ^ 2 + (a - c) ^ 2 * (c - d) ^ 2 * (d - a) ^ 2 +
      (b - c) ^ 2 * (c - d) ^ 2 * (d - b) ^ 2 := by
    unfold fy sym4; ring
  have e2 : sd4 a b c d = 4 * ((a - b) ^ 2 + (a - c) ^ 2 + (a - d) ^ 2 + (b - c) ^ 2 + (b - d) ^ 2 + (c - d) ^ 2) := by
    unfold sd4 sym4; ring
  have h2 : 0 ≤ sd4 a b c d := by
    rw [e2]; positivity
  have h3 : 0 ≤ disc4 a b c d := by
    unfold disc4; positivity
  have h4 : 0 ≤ fw a b c d := by
    unfold fw; positivity
  refine ⟨by rw [e1]; positivity, ?_, h4⟩
  unfold fz fk
  positivity

end Sign

end Verif.SymSOS
