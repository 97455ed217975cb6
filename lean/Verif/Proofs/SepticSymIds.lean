import Verif.Model.SepticSymmetric
import Verif.Proofs.SepticIds

/-!
# The polynomial identities of the symmetric ternary septic solver
-/

namespace Verif.Ternary

variable {K : Type*} [Field K] [LinearOrder K] [IsStrictOrderedRing K]

/-- The symmetric septic with the given coefficients of `a^7, a^6 b, a^5 b^2, a^5 b c, a^4 b^3, a^4 b^2 c, a^3 b^3 c, a^3 b^2 c^2`. -/
def symS (c700 c610 c520 c511 c430 c421 c331 c322 : K) : Septic K := ⟨c700, c610, c610, c520, c511, c520, c430, c421, c421, c430, c331, c322⟩

/-- The family `F_{x,y}` of septic_symmetric.py 31. -/
def fSep (x y : K) : Septic K :=
  symS (x ^ 2 - 2 * x + 1) (-x ^ 2 + 2 * x * y - 2 * y + 1) (x ^ 2 - 2 * x * y + y ^ 2) (3 * x ^ 2 - 2 * x * y - 2 * x + 2 * y ^ 2 - 2 * y + 1)
    (-x ^ 2 + 2 * x - y ^ 2 + 2 * y - 2) (-3 * x ^ 2 + 4 * x * y - y ^ 2) (6 * x ^ 2 - 4 * x * y - 4 * x - y ^ 2 + 4 * y) (-2 * x ^ 2 - 2 * x * y + 4 * x + y ^ 2 - 2 * y)

/-- The family `G_{x,y}` of septic_symmetric.py 32. -/
def gSep (x y : K) : Septic K :=
  symS 0 (x ^ 2 - 2 * x + 1) (x ^ 2 + 2 * x * y - 2 * x - 2 * y + 1) (-6 * x ^ 2 + 4 * x * y + 4 * x - 4 * y + 2) (2 * x ^ 2 + 2 * x * y - 4 * x + y ^ 2 - 2 * y + 2)
    (3 * x ^ 2 - 8 * x * y + 2 * x + 3 * y ^ 2 - 1) (-12 * x ^ 2 + 8 * x * y + 8 * x - 2 * y ^ 2 - 4) (4 * x ^ 2 - 4 * x * y - 6 * y ^ 2 + 12 * y - 4)

/-- `s(a(a-b)^2(a-c)^2(2a-b-c)^2)/4`. -/
def t1Sep : Septic K := symS 1 (-3) (13 / 4) (17 / 2) (-5 / 4) (-35 / 4) (15 / 2) (5 / 2)

/-- `s(a(b-c)^4(2a-b-c)^2)`. -/
def t2Sep : Septic K := symS 0 1 (-4) (-4) 4 11 (-28) 8

/-- `s(a^2+rab)^2 s(a(a-b)(a-c))`, or `s(ab)^2 s(a(a-b)(a-c))`. -/
def r1Sep : Option K → Septic K
  | some r => symS 1 (2 * r - 1) (r ^ 2 - 2 * r + 1) (2 * r ^ 2 - 2 * r + 3) (-r ^ 2 - 1) (-r ^ 2 + 4 * r - 3) (-r ^ 2 - 4 * r + 6) (r ^ 2 - 2 * r - 2)
  | none => symS 0 0 1 2 (-1) (-1) (-1) 1

/-- `s(a^2+rab)^2 s(a(b-c)^2)`, or `s(ab)^2 s(a(b-c)^2)`. -/
def r2Sep : Option K → Septic K
  | some r => symS 0 1 (2 * r + 1) (4 * r - 6) (r ^ 2 + 2 * r + 2) (3 * r ^ 2 - 8 * r + 3) (-2 * r ^ 2 + 8 * r - 12) (-6 * r ^ 2 - 4 * r + 4)
  | none => symS 0 0 0 0 1 3 (-2) (-6)

/-- `s(a) p(a-b)^2`. -/
def kSep : Septic K := symS 0 0 1 (-2) (-1) 1 2 (-2)

theorem kSep_poly (a b c : K) : kSep.poly a b c = sumA a b c * discV3 a b c := by
  simp only [kSep, symS, Septic.poly, sumA, discV3, cyc3, cycp3]
  ring

/-- `F_{x,y}` as it is written in septic_symmetric.py 28-31. -/
theorem fSep_poly (x y a b c : K) : (fSep x y).poly a b c =
    cyc3 (fun a b c => a ^ 7 + a ^ 6 * b + a ^ 6 * c + a ^ 5 * b * c - 2 * a ^ 4 * b ^ 3 - 2 * a ^ 4 * c ^ 3) a b c -
      2 * cyc3 (fun a b c => a ^ 5 - a ^ 3 * b ^ 2 + a ^ 3 * b * c - a ^ 3 * c ^ 2) a b c * cyc3 (fun a b _ => x * a ^ 2 + y * a * b) a b c +
      cyc3 (fun a b c => a * (a - b) * (a - c)) a b c * cyc3 (fun a b _ => x * a ^ 2 + y * a * b) a b c ^ 2 := by
  simp only [fSep, symS, Septic.poly, cyc3]
  ring

/-- `G_{x,y}` as it is written in septic_symmetric.py 28-32. -/
theorem gSep_poly (x y a b c : K) : (gSep x y).poly a b c =
    cyc3 (fun a b c => (b + c) * (a ^ 2 + a * (b + c) + 2 * b * c) ^ 2 * (a - b) * (a - c)) a b c -
      2 * cyc3 (fun a b c => (b + c) * (a ^ 2 + a * (b + c) + 2 * b * c) * (a - b) * (a - c)) a b c * cyc3 (fun a b _ => x * a ^ 2 + y * a * b) a b c +
      cyc3 (fun a b c => a * (b - c) ^ 2) a b c * cyc3 (fun a b _ => x * a ^ 2 + y * a * b) a b c ^ 2 := by
  simp only [gSep, symS, Septic.poly, cyc3]
  ring

theorem t_poly (t u a b c : K) :
    cyc3 (fun a b c => a * (2 * a - b - c) ^ 2 * (t / 4 * (a - b) ^ 2 * (a - c) ^ 2 + u * (b - c) ^ 4)) a b c = t * t1Sep.poly a b c + u * t2Sep.poly a b c := by
  simp only [t1Sep, t2Sep, symS, Septic.poly, cyc3]
  ring

theorem r1_poly (r : Option K) (a b c : K) : (r1Sep r).poly a b c = remV r a b c * cyc3 (fun a b c => a * (a - b) * (a - c)) a b c := by
  cases r <;> simp only [r1Sep, remV, symS, Septic.poly, cyc3] <;> ring

theorem r2_poly (r : Option K) (a b c : K) : (r2Sep r).poly a b c = remV r a b c * cyc3 (fun a b c => a * (b - c) ^ 2) a b c := by
  cases r <;> simp only [r2Sep, remV, symS, Septic.poly, cyc3] <;> ring

theorem id_square {x y : K} (h : x + y = 5 / 3) (a b c : K) :
    1 / 9 * cyc3 (fun a b c => a * (a - b) ^ 2 * (a - c) ^ 2 * (3 * (x - 1) * a - (3 * x - 1) / 2 * b - (3 * x - 1) / 2 * c) ^ 2) a b c =
      (fSep x y).poly a b c + -(x - 1) * (9 * x - 13) / 12 * kSep.poly a b c := by
  have hy : y = 5 / 3 - x := by linarith
  subst hy
  simp only [fSep, kSep, symS, Septic.poly, cyc3]
  ring

theorem id_fsos (x y z a b c : K) :
    1 / 18 * cyc3 (fun a b c => (a - b) ^ 2 * ((3 * x - 3) * a ^ 3 + (4 * x + 3 * y - 6) * a ^ 2 * b + (-4 * x + 3 * y) * a ^ 2 * c + (4 * x + 3 * y - 6) * a * b ^ 2 +
        (-4 * x + 3 * y) * a * b * c + (6 * x - 3 * y) * a * c ^ 2 + (3 * x - 3) * b ^ 3 + (-4 * x + 3 * y) * b ^ 2 * c + (6 * x - 3 * y) * b * c ^ 2 + (3 - 5 * x) * c ^ 3) ^ 2) a b c +
      cyc3 (fun a b c => a * b * (a - b) ^ 2 * (a * b * (-x + y + z - 1) + c ^ 2 * z + (a * c + b * c) * (x + y - z - 1) + (a ^ 2 + b ^ 2) * (x - 1)) ^ 2) a b c +
      ((-x ^ 2 / 3 - 2 * x * z + 2 * z) * (a ^ 2 + b ^ 2 + c ^ 2) + (-2 * x ^ 2 / 3 + 2 * x * z - 2 * y * z - z ^ 2 + 2 * z) * (a * b + b * c + c * a)) * discV3 a b c =
      (a + b + c) * (fSep x y).poly a b c := by
  simp only [fSep, discV3, symS, Septic.poly, cyc3, cycp3]
  ring

theorem sosRem_eq (c1 c2 a b c : K) :
    (sosRem c1 c2).2.1 * (sosRem c1 c2).2.2 a b c = c1 * (a ^ 2 + b ^ 2 + c ^ 2) + c2 * (a * b + b * c + c * a) + (sosRem c1 c2).1 * (a + b + c) ^ 2 := by
  unfold sosRem
  split <;> simp only [cyc3] <;> ring

theorem id_border0 {x y : K} (h : y = 1 ∨ 2 * x + y - 3 = 0) (a b c : K) :
    1 / 2 * cyc3 (fun a b c => (a - b) ^ 2 * ((x - 1) * a ^ 3 + (1 - x) * a ^ 2 * b + (x + 2 * y - 3) * a ^ 2 * c + (1 - x) * a * b ^ 2 + (8 * x + 5 * y - 12) * a * b * c +
        (-5 * x - 4 * y + 9) * a * c ^ 2 + (x - 1) * b ^ 3 + (x + 2 * y - 3) * b ^ 2 * c + (-5 * x - 4 * y + 9) * b * c ^ 2 + (3 * x + 2 * y - 5) * c ^ 3) ^ 2) a b c +
      cyc3 (fun a b c => a * b * (a - b) ^ 2 * (a * b * (2 - 2 * x) + c ^ 2 * (-x - y + 3) + (a * c + b * c) * (2 * x + 2 * y - 4) + (a ^ 2 + b ^ 2) * (x - 1)) ^ 2) a b c =
      (a + b + c) * ((fSep x y).poly a b c + -(2 * x + y - 3) ^ 2 * kSep.poly a b c) := by
  rcases h with rfl | h
  · simp only [fSep, kSep, symS, Septic.poly, cyc3]
    ring
  · obtain rfl : y = 3 - 2 * x := by linarith
    simp only [fSep, kSep, symS, Septic.poly, cyc3]
    ring

theorem id_regular (x y a b c : K) :
    cyc3 (fun a b c => (x - 1) * a ^ 5 + (y - x) * a ^ 4 * (b + c) + (1 - y) * a ^ 3 * (b ^ 2 + c ^ 2) + (3 * x - y - 1) * a ^ 3 * b * c + (y - 2 * x) * a ^ 2 * b ^ 2 * c) a b c ^ 2 +
      prodA a b c * sumA a b c * discV3 a b c = cyc3 (fun a b c => a * (a - b) * (a - c)) a b c * (fSep x y).poly a b c := by
  simp only [sumA, prodA, discV3, fSep, symS, Septic.poly, cyc3, cycp3]
  ring

theorem id_gtrivial (x y a b c : K) :
    cyc3 (fun a b c => a * (b - c) ^ 2 * (a ^ 2 * (x - 1) + a * b * y + a * c * y + b ^ 2 * (x - 1) + b * c * (y - 2) + c ^ 2 * (x - 1)) ^ 2) a b c = (gSep x y).poly a b c := by
  simp only [gSep, symS, Septic.poly, cyc3]
  ring

theorem id_gborder (x y a b c : K) :
    cyc3 (fun a b c => c * (a - b) ^ 2 * ((x - 1) * a ^ 2 + (-4 * x - y + 4) * a * c + (x - 1) * b ^ 2 + (-4 * x - y + 4) * b * c + (x - 1) * c ^ 2 + (4 * x + 3 * y - 6) * a * b) ^ 2) a b c +
      4 * (x - 1) * (2 * x + y - 2) * (cyc3 (fun a b _ => a * b * (a - b) ^ 2) a b c * prodA a b c) +
      8 * (y - 1) * (2 * x + y - 2) * (cyc3 (fun a b c => a ^ 2 * (b - c) ^ 2) a b c * prodA a b c) =
      (gSep x y).poly a b c + -4 * (x - 1) * (2 * x + y - 2) * kSep.poly a b c := by
  simp only [prodA, gSep, kSep, symS, Septic.poly, cyc3, cycp3]
  ring

theorem id_gsos0 (x y a b c : K) :
    cyc3 (fun a b c => a * b * (a - b) ^ 2 * (a * b * (-x + y + (2 - y) - 1) + c ^ 2 * (2 - y) + (a * c + b * c) * (x + y - (2 - y) - 1) + (a ^ 2 + b ^ 2) * (x - 1)) ^ 2) a b c +
      2 * cyc3 (fun a b c => a ^ 2 * (b - c) ^ 2 *
        (a ^ 2 * (-x - 1 + x - y + 1) + a * b * (-(-x - 1) + 2 * y - 2) + a * c * (-(-x - 1) + 2 * y - 2) + b ^ 2 * (x - 1) + b * c * (-x - 1) + c ^ 2 * (x - 1)) ^ 2) a b c +
      ((-2 * (-x - 1) ^ 2 - 4 * (-x - 1) * x + 4 * (-x - 1) * y - 4 * (-x - 1) + 2 * x ^ 2 + 4 * x * y - 2 * x * (2 - y) - 8 * x - 2 * y ^ 2 + 4 * y + 2 * (2 - y) - 2) *
          (a ^ 2 + b ^ 2 + c ^ 2) +
        (-4 * (-x - 1) * y - x ^ 2 + 2 * x * y + 2 * x * (2 - y) - 2 * x + 4 * y ^ 2 - 2 * y * (2 - y) - 6 * y - (2 - y) ^ 2 + 2 * (2 - y) - 1) * (a * b + b * c + c * a)) *
        discV3 a b c = (a + b + c) * (gSep x y).poly a b c := by
  simp only [gSep, discV3, symS, Septic.poly, cyc3, cycp3]
  ring

theorem id_gsos1 (x y a b c : K) :
    cyc3 (fun a b c => a * b * (a - b) ^ 2 *
        (a * b * (-x + y + (x - 2 * y + 1) - 1) + c ^ 2 * (x - 2 * y + 1) + (a * c + b * c) * (x + y - (x - 2 * y + 1) - 1) + (a ^ 2 + b ^ 2) * (x - 1)) ^ 2) a b c +
      2 * cyc3 (fun a b c => a ^ 2 * (b - c) ^ 2 *
        (a ^ 2 * (y - 2 * x + x - y + 1) + a * b * (-(y - 2 * x) + 2 * y - 2) + a * c * (-(y - 2 * x) + 2 * y - 2) + b ^ 2 * (x - 1) + b * c * (y - 2 * x) + c ^ 2 * (x - 1)) ^ 2) a b c +
      (4 * y * (x - 1) * (a ^ 2 + b ^ 2 + c ^ 2) + 8 * y * (x - 1) * (a * b + b * c + c * a)) * discV3 a b c = (a + b + c) * (gSep x y).poly a b c := by
  simp only [gSep, discV3, symS, Septic.poly, cyc3, cycp3]
  ring

/-- The symmetric axis determines a symmetric septic up to a multiple of `s(a) p(a-b)^2`. -/
theorem symS_eq_zero {c700 c610 c520 c511 c430 c421 c331 c322 : K} (h : ∀ a : K, (symS c700 c610 c520 c511 c430 c421 c331 c322).poly a 1 1 = 0) (h0 : c520 = 0) :
    c700 = 0 ∧ c610 = 0 ∧ c511 = 0 ∧ c430 = 0 ∧ c421 = 0 ∧ c331 = 0 ∧ c322 = 0 := by
  have e0 := h 0
  have e1 := h 1
  have e2 := h 2
  have e3 := h 3
  have e4 := h (-1)
  have e5 := h (-2)
  have e6 := h (-3)
  have e7 := h 4
  simp only [symS, Septic.poly, h0] at e0 e1 e2 e3 e4 e5 e6 e7
  norm_num at e0 e1 e2 e3 e4 e5 e6 e7
  refine ⟨?_, ?_, ?_, ?_, ?_, ?_, ?_⟩ <;> linarith

end Verif.Ternary
