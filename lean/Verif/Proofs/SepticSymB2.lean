import Verif.Proofs.SepticSymIds

/-!
# The last case of `_F_border`
-/

namespace Verif.Ternary

variable {K : Type*} [Field K] [LinearOrder K] [IsStrictOrderedRing K]

/-- The last case of `_F_border`, with `2 x + y - 3 = 2 u (x - 1)`, times `x - 1`. -/
theorem id_border2 {x y u : K} (hu : y = 2 * u * (x - 1) - 2 * x + 3) (a b c : K) :
    (x - 1) * (u * cyc3 (fun a b c => a ^ 2 * (a - b) ^ 2 * (a - c) ^ 2 *
          (a ^ 2 * (x - 1) + a * b * (y - 1) + a * c * (y - 1) + b ^ 2 * (-x - y + 2) + b * c * (4 * x + 3 * y - 6) + c ^ 2 * (-x - y + 2)) ^ 2) a b c +
        u * cyc3 (fun a b c => a * (b + c) * (a - b) ^ 2 * (a - c) ^ 2 *
          (a ^ 2 * (x - 1) + a * b * (y - 1) + a * c * (y - 1) + b ^ 2 * (-x - y + 2) + b * c * (4 * x + 3 * y - 6) + c ^ 2 * (-x - y + 2)) ^ 2) a b c +
        (1 - u) * cyc3 (fun a b c => a * (a - b) * (a - c) * ((x - 1) * a ^ 2 + (y - 1) * (a * b + a * c) + (2 * x + y - 2) * b * c)) a b c ^ 2) +
      (6 * x + 3 * y - 8) * (6 * x ^ 2 + 9 * x * y - 20 * x + 3 * y ^ 2 - 15 * y + 17) * (discV3 a b c * sumA a b c * prodA a b c) =
      (x - 1) * (((⟨1, u - 1, u - 1, 3 - 6 * u⟩ : Cubic K).m * (a ^ 3 + b ^ 3 + c ^ 3) + (u - 1) * (a ^ 2 * b + b ^ 2 * c + c ^ 2 * a) + (u - 1) * (a * b ^ 2 + b * c ^ 2 + c * a ^ 2) +
        (3 - 6 * u) * (a * b * c)) * ((fSep x y).poly a b c + -(2 * x + y - 3) ^ 2 * kSep.poly a b c)) := by
  obtain ⟨v, rfl⟩ : ∃ v, x = v + 1 := ⟨x - 1, by ring⟩
  obtain rfl : y = 2 * u * v - 2 * v + 1 := by rw [hu]; ring
  simp only [sumA, prodA, discV3, fSep, kSep, symS, Septic.poly, cyc3, cycp3]
  ring

end Verif.Ternary
