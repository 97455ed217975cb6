import Verif.Model.TernaryQuintic
import Verif.Proofs.QuinticSymmetric
import Verif.Proofs.SepticIds
import Mathlib.Tactic.Ring
import Mathlib.Tactic.FieldSimp
import Mathlib.Tactic.LinearCombination
import Mathlib.Tactic.Linarith

/-!
# Identities of the solver for cyclic ternary quintics

Products with the multipliers are cyclic septics; their twelve coefficients are compared.
-/

set_option linter.unusedSectionVars false

namespace Verif.Ternary

open Verif Verif.Acute

variable {K : Type*} [Field K] [LinearOrder K] [IsStrictOrderedRing K]

theorem septic_smul (w : K) (S : Septic K) (a b c : K) : w * S.poly a b c =
    (⟨w * S.c700, w * S.c610, w * S.c601, w * S.c520, w * S.c511, w * S.c502, w * S.c430, w * S.c421, w * S.c412, w * S.c403, w * S.c331, w * S.c322⟩ : Septic K).poly a b c := by
  unfold Septic.poly
  ring

theorem septic_add (S T : Septic K) (a b c : K) : S.poly a b c + T.poly a b c =
    (⟨S.c700 + T.c700, S.c610 + T.c610, S.c601 + T.c601, S.c520 + T.c520, S.c511 + T.c511, S.c502 + T.c502, S.c430 + T.c430, S.c421 + T.c421, S.c412 + T.c412,
      S.c403 + T.c403, S.c331 + T.c331, S.c322 + T.c322⟩ : Septic K).poly a b c := by
  unfold Septic.poly
  ring

/-- `CyclicSum(a*(...)**2)` for a cubic form without `a**3` and `c**3`. -/
def sq8 (g1 g2 g3 g4 g5 g6 g7 g8 : K) : Val3 K := cyc3 fun a b c =>
  a * (g1 * a ^ 2 * b + g2 * a ^ 2 * c + g3 * a * b ^ 2 + g4 * a * b * c + g5 * a * c ^ 2 + g6 * b ^ 3 + g7 * b ^ 2 * c + g8 * b * c ^ 2) ^ 2

theorem sq8_eq (g1 g2 g3 g4 g5 g6 g7 g8 a b c : K) : sq8 g1 g2 g3 g4 g5 g6 g7 g8 a b c =
    (⟨0, 0, g6 ^ 2, g1 ^ 2, 2 * g1 * g2 + 2 * g6 * g7, g2 ^ 2 + 2 * g3 * g6, 2 * g1 * g3 + g5 ^ 2, 2 * g1 * g4 + 2 * g2 * g3 + 2 * g5 * g8 + 2 * g6 * g8 + g7 ^ 2,
      2 * g1 * g5 + 2 * g2 * g4 + 2 * g3 * g7 + 2 * g4 * g6 + g8 ^ 2, 2 * g1 * g6 + 2 * g2 * g5 + g3 ^ 2,
      2 * g1 * g7 + 2 * g2 * g6 + 2 * g2 * g8 + 2 * g3 * g4 + 2 * g4 * g5 + 2 * g7 * g8,
      2 * g1 * g8 + 2 * g2 * g7 + 2 * g3 * g5 + 2 * g3 * g8 + g4 ^ 2 + 2 * g4 * g7 + 2 * g4 * g8 + 2 * g5 * g6 + 2 * g5 * g7⟩ : Septic K).poly a b c := by
  unfold sq8 cyc3 Septic.poly
  ring

/-- `CyclicProduct(a) * CyclicSum((...)**2)` for a quadratic form. -/
def pq6 (h1 h2 h3 h4 h5 h6 : K) : Val3 K := fun a b c =>
  prodA a b c * cyc3 (fun a b c => (h1 * a ^ 2 + h2 * b ^ 2 + h3 * c ^ 2 + h4 * a * b + h5 * b * c + h6 * c * a) ^ 2) a b c

theorem pq6_eq (h1 h2 h3 h4 h5 h6 a b c : K) : pq6 h1 h2 h3 h4 h5 h6 a b c =
    (⟨0, 0, 0, 0, h1 ^ 2 + h2 ^ 2 + h3 ^ 2, 0, 0, 2 * (h1 * h4 + h2 * h5 + h3 * h6), 2 * (h1 * h6 + h2 * h4 + h3 * h5), 0,
      2 * h1 * h2 + h4 ^ 2 + (2 * h2 * h3 + h5 ^ 2) + (2 * h1 * h3 + h6 ^ 2),
      2 * h1 * h5 + 2 * h4 * h6 + (2 * h2 * h6 + 2 * h4 * h5) + (2 * h3 * h4 + 2 * h5 * h6)⟩ : Septic K).poly a b c := by
  unfold pq6 prodA cycp3 cyc3 Septic.poly
  ring

/-- A quintic times `CyclicSum(x*a**2 + y*a*b)`. -/
theorem quin_mul (x y : K) (f : Quintic K) (a b c : K) : (x * (a ^ 2 + b ^ 2 + c ^ 2) + y * (a * b + b * c + c * a)) * f.poly a b c =
    (⟨x * f.c500, y * f.c500 + x * f.c410, y * f.c500 + x * f.c140, x * f.c500 + y * f.c410 + x * f.c320, y * f.c500 + y * f.c410 + y * f.c140 + x * f.c311,
      x * f.c500 + x * f.c230 + y * f.c140, x * f.c410 + y * f.c320 + x * f.c230, y * f.c410 + y * f.c320 + x * f.c140 + y * f.c311 + x * f.c221,
      x * f.c410 + y * f.c230 + y * f.c140 + y * f.c311 + x * f.c221, x * f.c320 + y * f.c230 + x * f.c140, y * f.c320 + y * f.c230 + 2 * x * f.c311 + y * f.c221,
      x * f.c320 + x * f.c230 + y * f.c311 + 2 * y * f.c221 + x * f.c221⟩ : Septic K).poly a b c := by
  unfold Quintic.poly Septic.poly
  ring

theorem septic_ext {S T : Septic K} (h : S = T) (a b c : K) : S.poly a b c = T.poly a b c := by rw [h]

/-- `CyclicProduct(a) * CyclicSum(a**2*(b-c)**2)` and the products with `CyclicSum(a*b)`. -/
theorem abcsq_eq (a b c : K) : prodA a b c * cyc3 (fun a b c => a ^ 2 * (b - c) ^ 2) a b c = (⟨0, 0, 0, 0, 0, 0, 0, 0, 0, 0, 2, -2⟩ : Septic K).poly a b c := by
  unfold prodA cycp3 cyc3 Septic.poly
  ring

theorem tail_mulW (w a b c : K) : tail5 a b c * mulW w a b c = (⟨0, 0, 0, 0, 0, 0, 0, 1, 1, 0, w, 1 + 2 * w⟩ : Septic K).poly a b c := by
  unfold tail5 mulW prodA sab3 cycp3 cyc3 Septic.poly
  ring

/-- `CyclicProduct(a) * CyclicSum(a**2 - r*a*b)**2`. -/
theorem abcq_eq (r a b c : K) : prodA a b c * cyc3 (fun a b _ => a ^ 2 - r * a * b) a b c ^ 2 =
    (⟨0, 0, 0, 0, 1, 0, 0, -2 * r, -2 * r, 0, 2 + r ^ 2, -2 * r + 2 * r ^ 2⟩ : Septic K).poly a b c := by
  unfold prodA cycp3 cyc3 Septic.poly
  ring

theorem mulW_form (w a b c : K) : mulW w a b c = 1 * (a ^ 2 + b ^ 2 + c ^ 2) + w * (a * b + b * c + c * a) := by
  unfold mulW cyc3
  ring

theorem sd3_form (a b c : K) : sd3 a b c = 2 * (a ^ 2 + b ^ 2 + c ^ 2) + (-2) * (a * b + b * c + c * a) := by
  unfold sd3 cyc3
  ring

theorem sab3_form (a b c : K) : sab3 a b c = 0 * (a ^ 2 + b ^ 2 + c ^ 2) + 1 * (a * b + b * c + c * a) := by
  unfold sab3 cyc3
  ring

/-! ### The special case -/

theorem spec_identity (w x y z : K) (hm : -w + 2 * x + z ^ 2 + 2 ≠ 0) (a b c : K) :
    1 * cyc3 (fun a b c => c * (a ^ 3 - x * a ^ 2 * b + y * a * b ^ 2 - z * b * c ^ 2 + a ^ 2 * c + (x - y + z - 2) * a * b * c) ^ 2) a b c +
      ((-w + 2 * x + z ^ 2 + 2) / 2 * (prodA a b c * cyc3 (fun a b c => uvForm (-(specP w x y z + specQ w x y z * 2) / 3 / (-w + 2 * x + z ^ 2 + 2))
        (-(2 * specP w x y z + specQ w x y z) / 3 / (-w + 2 * x + z ^ 2 + 2)) a b c ^ 2) a b c) +
      specDet w x y z / 6 / (-w + 2 * x + z ^ 2 + 2) * (prodA a b c * cyc3 (fun a b c => a ^ 2 * (b - c) ^ 2) a b c)) =
    mulW (z ^ 2 + 2) a b c * (⟨0, 0, 0, 0, 1, -w, w - 1⟩ : Quintic K).poly a b c := by
  have e1 : cyc3 (fun a b c => c * (a ^ 3 - x * a ^ 2 * b + y * a * b ^ 2 - z * b * c ^ 2 + a ^ 2 * c + (x - y + z - 2) * a * b * c) ^ 2) a b c =
      sq8 0 (-z) 1 (x - y + z - 2) 0 1 (-x) y a b c := by
    unfold sq8 cyc3
    ring
  have e2 : ∀ u v : K, prodA a b c * cyc3 (fun a b c => uvForm u v a b c ^ 2) a b c = pq6 1 (-1) 0 (u - v) v (-u) a b c := by
    intro u v
    unfold pq6 uvForm cyc3
    ring
  rw [e1, e2, sq8_eq, pq6_eq, abcsq_eq, mulW_form, quin_mul]
  simp only [septic_smul, septic_add]
  refine septic_ext ?_ a b c
  simp only [specDet]
  generalize hp : specP w x y z = p
  generalize hq : specQ w x y z = q
  unfold specP at hp
  unfold specQ at hq
  generalize hM : -w + 2 * x + z ^ 2 + 2 = M at *
  have hw : w = 2 * x + z ^ 2 + 2 - M := by linear_combination -hM
  subst hp hq
  subst hw
  simp only [Septic.mk.injEq]
  refine ⟨?_, ?_, ?_, ?_, ?_, ?_, ?_, ?_, ?_, ?_, ?_, ?_⟩ <;> (field_simp; try ring)

/-! ### The main polynomial -/

/-- `s((b-a+(2u-1)c)(a^2-b^2+u(ab-ac)+v(bc-ab))^2)`. -/
def uvPoly (u v : K) : Val3 K := cyc3 fun a b c => (b - a + (2 * u - 1) * c) * uvForm u v a b c ^ 2

/-- Its coefficients (quintic.py 966-976, 1091-1096). -/
def uvQuin (u v : K) : Quintic K :=
  ⟨0, 0, 2 * windD u v, 2 * (-2 * u ^ 2 + u * v ^ 2 - u * v + 2 * u - v - 1), 2 * (u + v - 1), 2 * (-2 * u ^ 2 * v + u ^ 2 + u * v - v ^ 2),
    2 * (-u ^ 3 + 2 * u ^ 2 * v + 2 * u ^ 2 - u * v ^ 2 + u * v - 4 * u + v ^ 2 + 1)⟩

theorem uvPoly_eq (u v a b c : K) : uvPoly u v a b c = (uvQuin u v).poly a b c := by
  unfold uvPoly uvQuin uvForm windD cyc3 Quintic.poly
  ring

theorem pqForm_eq (u v a b c : K) : prodA a b c * cyc3 (fun a b c => uvForm u v a b c ^ 2) a b c = pq6 1 (-1) 0 (u - v) v (-u) a b c := by
  unfold pq6 uvForm cyc3
  ring

theorem uvP2_eq (u v a b c : K) : cyc3 (fun a b c => a * uvP2 u v a b c ^ 2) a b c = sq8 u (-v - 1) (u - 1) (-2 * u + v) (u + 1) (-1) (-u + v + 1) (1 - v) a b c := by
  unfold uvP2 sq8 cyc3
  ring

theorem uvP4_eq (u v a b c : K) : cyc3 (fun a b c => a * uvP4 u v a b c ^ 2) a b c =
    sq8 0 (-u * v + 1) (u ^ 2 * v - u) (u ^ 3 - u ^ 2 * v - u ^ 2 + u * v + u - v) 0 0 (-u ^ 3 - 1) (u ^ 2 + v) a b c := by
  unfold uvP4 sq8 cyc3
  ring

theorem uv20_identity (u v : K) (h1 : (u - 1) * (u + v - 1) ≠ 0) (h2 : 2 * u - v + 1 ≠ 0) (a b c : K) :
    (u - 1) * (u + v - 1) / ((2 * u - v + 1) / 4) * cyc3 (fun a b c => a * ((b - c) * uvForm u v a b c +
        (-u ^ 2 + u * v + 3 * u - v ^ 2 + 3 * v - 5) / (2 * ((u - 1) * (u + v - 1))) * ((a - b) * uvForm u v b c a)) ^ 2) a b c +
      ((2 * u ^ 2 - u * v - 2 * u + 3) - (-u ^ 2 + u * v + 3 * u - v ^ 2 + 3 * v - 5) ^ 2 / (4 * ((u - 1) * (u + v - 1)))) / ((2 * u - v + 1) / 4) *
        cyc3 (fun a b c => a * ((a - b) * uvForm u v b c a) ^ 2) a b c = sd3 a b c * uvPoly u v a b c := by
  have e1 : ∀ k : K, cyc3 (fun a b c => a * ((b - c) * uvForm u v a b c + k * ((a - b) * uvForm u v b c a)) ^ 2) a b c =
      sq8 (1 - k * u) (-1 + k * v) (u - v + k * (1 + u)) (-2 * u + v + k * (u - 2 * v)) (u - k) (-1 - k) (1 + v + k * (v - u)) (-v + k) a b c := by
    intro k
    unfold sq8 cyc3 uvForm
    ring
  have e2 : cyc3 (fun a b c => a * ((a - b) * uvForm u v b c a) ^ 2) a b c = sq8 (-u) v (1 + u) (u - 2 * v) (-1) (-1) (v - u) 1 a b c := by
    unfold sq8 cyc3 uvForm
    ring
  rw [e1, e2, uvPoly_eq, sd3_form, sq8_eq, sq8_eq, quin_mul]
  simp only [septic_smul, septic_add]
  refine septic_ext ?_ a b c
  have hu : u - 1 ≠ 0 := left_ne_zero_of_mul h1
  have huv : u + v - 1 ≠ 0 := right_ne_zero_of_mul h1
  obtain ⟨d, hd⟩ : ∃ d, d = 2 * u - v + 1 := ⟨_, rfl⟩
  have hv : v = 2 * u + 1 - d := by linarith
  rw [← hd] at h2 ⊢
  clear hd h1
  obtain ⟨s, hs⟩ : ∃ s, s = u - 1 := ⟨_, rfl⟩
  obtain ⟨r, hr⟩ : ∃ r, r = u + v - 1 := ⟨_, rfl⟩
  have hu' : u = s + 1 := by linarith
  have hd : d = 3 * u - r := by linarith
  rw [← hs, ← hr]
  rw [← hs] at hu
  rw [← hr] at huv
  subst hv
  subst hu'
  have hr' : r = 3 * (s + 1) - d := by linarith
  clear hd hs hr e1 e2
  simp only [Septic.mk.injEq, uvQuin, windD]
  refine ⟨?_, ?_, ?_, ?_, ?_, ?_, ?_, ?_, ?_, ?_, ?_, ?_⟩ <;> (field_simp; try (subst hr'; ring))

/-- The first polynomial of Theorem 1 (quintic.py 1172-1174). -/
theorem uvP1_eq (u v a b c : K) : cyc3 (fun a b c => a * ((-u * v + u + 2) * a ^ 2 * b + (-2 * u + v ^ 2 + 3) * a ^ 2 * c + (-u * v + u - v + 1) * a * b ^ 2 +
      (-4 * u ^ 2 + 4 * u * v + 2 * u - v ^ 2 - 3 * v) * a * b * c + (2 * u ^ 2 + u * v - 3 * u - v - 1) * a * c ^ 2 + (-v - 1) * b ^ 3 +
      (2 * u ^ 2 - u * v + 3 * u + v ^ 2 + 2 * v - 3) * b ^ 2 * c + (-2 * u * v - 2 * u - v ^ 2 + 4 * v - 1) * b * c ^ 2) ^ 2) a b c =
    sq8 (-u * v + u + 2) (-2 * u + v ^ 2 + 3) (-u * v + u - v + 1) (-4 * u ^ 2 + 4 * u * v + 2 * u - v ^ 2 - 3 * v) (2 * u ^ 2 + u * v - 3 * u - v - 1) (-v - 1)
      (2 * u ^ 2 - u * v + 3 * u + v ^ 2 + 2 * v - 3) (-2 * u * v - 2 * u - v ^ 2 + 4 * v - 1) a b c := rfl

theorem uv1_identity (u v a b c : K) : ((uv1 u v).2.map fun t => t.1 * t.2 a b c).sum = (uv1 u v).1 a b c * uvPoly u v a b c := by
  unfold uv1
  simp only [List.map_cons, List.map_nil, List.sum_cons, List.sum_nil, add_zero]
  rw [uvP1_eq, uvP2_eq, pqForm_eq, uvPoly_eq, mulW_form, sq8_eq, sq8_eq, pq6_eq, quin_mul]
  simp only [septic_smul, septic_add]
  refine septic_ext ?_ a b c
  simp only [Septic.mk.injEq, uvQuin, windD]
  refine ⟨?_, ?_, ?_, ?_, ?_, ?_, ?_, ?_, ?_, ?_, ?_, ?_⟩ <;> ring

theorem uv21_identity (u v : K) (h1 : u + 1 ≠ 0) (h2 : windD u v ≠ 0) (h3 : uvG u v ≠ 0) (g : K) (hg : g = -(u ^ 2 - u * v + 2 * u + 2) / uvG u v) (a b c : K) :
    (3 * u ^ 2 + 2 * u * v - 4 * u - v ^ 2 - 8) / (2 * (u + 1) ^ 2 * windD u v) * cyc3 (fun a b c => a * uvP4 u v a b c ^ 2) a b c +
      (uvG u v ^ 2 / (2 * (u + 1) ^ 2 * windD u v) * cyc3 (fun a b c => a * (a ^ 2 * c + a * b ^ 2 * (g * u * v - g) + a * b * c * (g * u ^ 2 - g * u - g * v ^ 2 + g * v + u - v) +
        a * c ^ 2 * (-g * u * v + g - u) + b ^ 2 * c * (-g * u ^ 2 - g * v - 1) + b * c ^ 2 * (g * u + g * v ^ 2 + v)) ^ 2) a b c +
      (u + v - 1) * (prodA a b c * cyc3 (fun a b c => uvForm u v a b c ^ 2) a b c)) = sab3 a b c * uvPoly u v a b c := by
  have e1 : cyc3 (fun a b c => a * (a ^ 2 * c + a * b ^ 2 * (g * u * v - g) + a * b * c * (g * u ^ 2 - g * u - g * v ^ 2 + g * v + u - v) +
        a * c ^ 2 * (-g * u * v + g - u) + b ^ 2 * c * (-g * u ^ 2 - g * v - 1) + b * c ^ 2 * (g * u + g * v ^ 2 + v)) ^ 2) a b c =
      sq8 0 1 (g * u * v - g) (g * u ^ 2 - g * u - g * v ^ 2 + g * v + u - v) (-g * u * v + g - u) 0 (-g * u ^ 2 - g * v - 1) (g * u + g * v ^ 2 + v) a b c := by
    unfold sq8 cyc3
    ring
  have hg' : uvG u v * g = -(u ^ 2 - u * v + 2 * u + 2) := by
    rw [hg]
    field_simp
  rw [e1, uvP4_eq, pqForm_eq, uvPoly_eq, sab3_form, sq8_eq, sq8_eq, pq6_eq, quin_mul]
  simp only [septic_smul, septic_add]
  refine septic_ext ?_ a b c
  have hG : uvG u v = 2 * u ^ 3 + u ^ 2 * v - u * v ^ 2 - u + v + 2 := rfl
  have hD : windD u v = u ^ 3 - u ^ 2 - u * v + u + 1 := rfl
  generalize uvG u v = G at *
  generalize hDD : windD u v = D at *
  clear e1 hg
  have hq : uvQuin u v = ⟨0, 0, 2 * D, 2 * (-2 * u ^ 2 + u * v ^ 2 - u * v + 2 * u - v - 1), 2 * (u + v - 1), 2 * (-2 * u ^ 2 * v + u ^ 2 + u * v - v ^ 2),
    2 * (-u ^ 3 + 2 * u ^ 2 * v + 2 * u ^ 2 - u * v ^ 2 + u * v - 4 * u + v ^ 2 + 1)⟩ := by
    unfold uvQuin
    rw [hDD]
  rw [hq]
  clear hq hDD
  simp only [Septic.mk.injEq]
  have hge : g = -(u ^ 2 - u * v + 2 * u + 2) / G := by
    rw [eq_div_iff h3]
    linarith [hg']
  have h1' := h1
  generalize he : u + 1 = e at h1' ⊢
  clear hg' h1
  subst hge
  refine ⟨?_, ?_, ?_, ?_, ?_, ?_, ?_, ?_, ?_, ?_, ?_, ?_⟩ <;> (field_simp; subst hG hD he; try ring)

end Verif.Ternary
