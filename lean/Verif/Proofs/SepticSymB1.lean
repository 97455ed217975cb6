import Verif.Proofs.SepticSymIds

/-!
# The first nondegenerate case of `_F_border`
-/

namespace Verif.Ternary

variable {K : Type*} [Field K] [LinearOrder K] [IsStrictOrderedRing K]

/-- The first nondegenerate case of `_F_border`, with `y - 1 = 4 u (x - 1)`, times `2 (x - 1)`. -/
theorem id_border1 {x y u : K} (hu : y = 4 * u * (x - 1) + 1) (a b c : K) :
    2 * (x - 1) * cyc3 (fun a b c => c * (u * borderP1 x y a b c ^ 2 + u * borderP1 x y a b c * borderP2 x y a b c + borderP2 x y a b c ^ 2)) a b c +
      (72 * x ^ 3 + 108 * x ^ 2 * y - 300 * x ^ 2 + 54 * x * y ^ 2 - 318 * x * y + 434 * x + 9 * y ^ 3 - 84 * y ^ 2 + 243 * y - 218) * (prodA a b c * discV3 a b c) =
      2 * (x - 1) * ((a ^ 2 + b ^ 2 + c ^ 2 + (2 * u - 1) * (a * b + b * c + c * a)) * ((fSep x y).poly a b c + -(2 * x + y - 3) ^ 2 * kSep.poly a b c)) := by
  obtain ⟨v, rfl⟩ : ∃ v, x = v + 1 := ⟨x - 1, by ring⟩
  obtain rfl : y = 4 * u * v + 1 := by rw [hu]; ring
  simp only [borderP1, borderP2, prodA, discV3, fSep, kSep, symS, Septic.poly, cyc3, cycp3]
  ring

end Verif.Ternary
