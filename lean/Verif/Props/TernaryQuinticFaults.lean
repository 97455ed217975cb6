import Verif.Props.TernaryQuinticMain

/-!
# Wrong answers of the quintic solver, and quintics for which the theorems apply
-/

namespace Verif.Ternary

open Verif Verif.Acute

/-- Calls and searches that find one pair of roots and one root, and nothing else. -/
def wX : Q5Ext ℚ where
  rational := true
  hexU := fun _ _ _ => none
  hexXU := fun _ => none
  uncU := fun r1 => if r1 = 2 then [.exact 2] else []
  uncUV := fun r1 r2 => if r1 = 5 / 2 ∧ r2 = -17 / 2 then some (2, 5) else none
  m1 := fun _ => 1
  m2 := fun _ _ => 1
  sqrtU := fun _ _ _ => none
  quadW := fun _ => []
  mainU := fun _ => []
  mainC := fun _ => []
  mainV := fun _ _ => []
  specZ := fun _ => []
  cubic := fun _ => .ok none
  gcdT := fun _ _ => none
  cubT := fun _ _ => []
  uvxy := fun _ => none
  third := fun _ => .ok none
  symm := fun _ => .ok none

theorem wX_sound : wX.Sound where
  m1 := fun _ => one_ne_zero
  m2 := fun _ _ => one_ne_zero
  cubic := fun _ _ h => by cases h
  gcdT := fun _ _ _ h => by cases h
  cubT := fun _ _ => by intro c hc; cases hc
  third := fun _ _ h => by cases h
  symm := fun _ _ _ _ h => by cases h

/-! ### Hexagons with `p q = 9` -/

/-- **Recorded fault.**  For `p q = 9` the answer for hexagons is not equal to the polynomial: the term with weight `t` is dropped although its expression has a pole. -/
theorem hexPqz_nine_wrong : ∃ C, hexPqz (9 : ℚ) 1 20 1 = some C ∧ C.den 1 1 0 = 1 ∧ C.num 1 1 0 = 2 ∧
    (⟨0, 1, 9, 1, 1, 20, -32⟩ : Quintic ℚ).poly 1 1 0 = 12 := by
  have h1 : ¬ (0 ≤ hexDet (9 : ℚ) 1 20 ∧ ((9 : ℚ) ≠ 1 ∨ (20 : ℚ) + 8 ≠ 9 + 1)) := by
    norm_num [hexDet]
  refine ⟨_, by unfold hexPqz; rw [if_neg h1, if_pos (by norm_num), if_pos (by norm_num)], ?_, ?_, ?_⟩
  · simp [Cert.plain]
  · norm_num [Cert.plain, sumY, Cert.num, cyc3, abcSd, prodA, cycp3, sd3, uvForm]
  · norm_num [Quintic.poly, cyc3]

/-- **Recorded fault.**  So the solver gives a wrong answer for `s(a^4 b + a b^4 + 9 a^3 b^2 + a^2 b^3 + 20 a^3 b c - 32 a^2 b^2 c)`, whatever the searches find. -/
theorem quintic_nine_wrong (X : Q5Ext ℚ) : ∃ C, quintic X ⟨0, 1, 9, 1, 1, 20, -32⟩ = .ok (some C) ∧ ¬ Holds (⟨0, 1, 9, 1, 1, 20, -32⟩ : Quintic ℚ).poly C := by
  obtain ⟨C, hC, hd, hn, hp⟩ := hexPqz_nine_wrong
  refine ⟨C.add 0 (cyc3 fun a b c => a ^ 2 * b ^ 2 * c), ?_, ?_⟩
  · unfold quintic quinHex hexEq5
    norm_num [hC]
  · intro h
    have key := h.shows_.identity 1 1 0
    simp only [Cert.num, Cert.add, List.map_cons, List.sum_cons, zero_mul, zero_add] at key hn
    rw [hn, hd, hp] at key
    norm_num at key

/-! ### Windmills with a positive sum of coefficients -/

/-- `s(2 a b^4 + 5 a^2 b^3 - 17 a^3 b c + 11 a^2 b^2 c)`. -/
def wWind : Quintic ℚ := ⟨0, 0, 0, 5, 2, -17, 11⟩

/-- `u_ = 2` is a root of `eq2` (quintic.py 1401-1402) for `r1 = 5/2, v_ = 5`. -/
theorem wWind_u : (2 : ℚ) ^ 4 + (5 / 2 - 5 - 3) * 2 ^ 3 + (5 / 2 * 5 - 3 * (5 / 2) + 5 ^ 2 + 6) * 2 ^ 2 + (-3 * (5 / 2) * 5 + 4 * (5 / 2) - 2 * 5 - 5) * 2
    - 5 / 2 * 5 ^ 2 + 3 * (5 / 2) * 5 - 2 * (5 / 2) - 5 + 4 = 0 := by norm_num

/-- `v_ = 5` is a root of `eq` (quintic.py 1384-1397) for `r1 = 5/2, r2 = -17/2`. -/
theorem wWind_v : ∀ r1 r2 v : ℚ, r1 = 5 / 2 → r2 = -17 / 2 → v = 5 →
    r1*(r1*(28*r1 - 20*r2 - 44) + r2*(4*r2 + 8) + 52) * v ^ 5 +
    (r1*(r1*(r1*(-4*r1 + 32*r2 - 128) + r2*(24 - 20*r2) + 92) + r2*(4*r2^2 + 20) - 264) + r2*(4*r2 + 8) + 52) * v ^ 4 +
    (r1*(r1*(r1*(r1*(80 - 4*r2) + r2*(11*r2 - 124) + 308) + r2*(r2*(45 - 5*r2) - 8) - 56)
      + r2*(r2*(r2*(r2 - 6) - 7) - 132) + 464) + r2*(4*r2^2 + 40) - 220) * v ^ 3 +
    (r1*(r1*(r1*(r1*(-16*r1 + r2*(36 - r2) - 176) + r2*(r2*(r2 - 36) + 192) - 352) + r2*(r2*(13*r2 - 33) - 24) + 40)
      + r2*(r2*(6 - 2*r2^2) + 168) - 328) + r2*(r2*(r2*(r2 - 6) + 13) - 156) + 400) * v ^ 2 +
    (r1*(r1*(r1*(r1*(r1*(r1 - 3*r2 + 33) + r2*(4*r2 - 56) + 176) + r2*(r2*(36 - 2*r2) - 141) + 189)
      + r2*(r2*(-9*r2 - 8) + 52) - 108) + r2*(r2*(r2*(r2 + 9) - 8) - 39) - 11) + r2*(r2*(r2*(5 - 2*r2) - 36) + 214) - 361) * v +
    (r1*(r1*(r1*(r1*(r1*(-2*r1 + 4*r2 - 20) + r2*(27 - 3*r2) - 48) + r2*(r2*(r2 - 10) + 18) + 16)
      + r2*(r2*(r2 + 25) - 67) + 128) + r2*(r2*(16 - 7*r2) - 66) + 108) + r2*(r2*(r2*(r2 - 2) + 35) - 105) + 142) = 0 := by
  intro r1 r2 v h1 h2 h3
  rw [h1, h2, h3]
  norm_num

/-- **Recorded fault.**  With the roots above the solver answers for `wWind`, which is negative at `(1, 5, 2)`: the coefficient of `a^2 b^2 c` does not occur in the
answer, whose weights are nonnegative. -/
theorem unc5_wrong : ∃ C, unc5 wX wWind = .ok (some C) ∧ (∀ t ∈ C.terms, 0 ≤ t.1) ∧ wWind.poly 1 5 2 < 0 := by
  have h1 : ¬ ∀ s ∈ uncTrivial wWind ((5 : ℚ) + 2 + -17 + 11), 0 ≤ s.1 := by
    norm_num [uncTrivial, wWind]
  have h2 : ¬ ∀ s ∈ uncFirst (5 / 2 : ℚ) (-17 / 2) (((5 : ℚ) + 2 + -17 + 11) / 2), 0 ≤ s.1 := by
    norm_num [uncFirst]
  have h3 : ¬ uncZero (2 : ℚ) 5 := by
    norm_num [uncZero, uncF1, uncF2, uncA]
  refine ⟨over (.plain (sumY (uncTerms wX 2 (5 / 2) (-17 / 2) 2 5 (5 / 2) (-17 / 2)))) (mulW (uncPhi 2 5 (5 / 2))), ?_, ?_, ?_⟩
  · unfold unc5
    have e : wX.rational ≠ false := by decide
    rw [if_neg e]
    dsimp only [wWind] at h1 ⊢
    rw [if_neg (by norm_num)]
    refine (if_neg h1).trans ?_
    rw [if_neg (by norm_num)]
    refine (if_neg h2).trans ?_
    rw [if_neg (by norm_num), if_neg (by norm_num)]
    simp only [wX, and_self, if_true]
    unfold uncAnswer
    rw [if_neg h3]
  · norm_num [over, Cert.plain, sumY, uncTerms, wX, uncF1, uncF2, uncA, uncW, uncPhi, uncY2]
  · norm_num [wWind, Quintic.poly, cyc3]

/-- **Recorded fault.**  So the solver proves a quintic that is negative at positive numbers. -/
theorem quintic_windmill_wrong : wX.Sound ∧ ∃ f : Quintic ℚ, ∃ C, quintic wX f = .ok (some C) ∧ (∀ t ∈ C.terms, 0 ≤ t.1) ∧ f.poly 1 5 2 < 0 := by
  obtain ⟨C, h, hw, hn⟩ := unc5_wrong
  refine ⟨wX_sound, wWind, C, ?_, hw, hn⟩
  unfold quintic quinHex windmill windCore
  rw [h]
  norm_num [wWind, Quintic.sum7]

/-! ### Quintics for which the theorems apply -/

/-- A hexagon: `s(a^4 b + a b^4 + 2 a^3 b^2 + a^2 b^3 - 4 a^3 b c - a^2 b^2 c)`. -/
example : ¬ Doubtful wX ⟨0, 1, 2, 1, 1, -4, -1⟩ ∧ ∃ C, quintic wX ⟨0, 1, 2, 1, 1, -4, -1⟩ = .ok (some C) := by
  have h1 : 0 ≤ hexDet (2 : ℚ) 1 (-4) ∧ ((2 : ℚ) ≠ 1 ∨ (-4 : ℚ) + 8 ≠ 2 + 1) := by
    norm_num [hexDet]
  constructor
  · norm_num [Doubtful, BadWind, BadHex]
  · unfold quintic quinHex hexEq5 hexPqz
    norm_num [h1]

/-- A windmill where a root of the equation is used: `s(a b^4 + 2 a^2 b^3 - 13/2 a^3 b c + 7/2 a^2 b^2 c)`. -/
example : ¬ Doubtful wX ⟨0, 0, 0, 2, 1, -13 / 2, 7 / 2⟩ ∧ ∃ C, quintic wX ⟨0, 0, 0, 2, 1, -13 / 2, 7 / 2⟩ = .ok (some C) := by
  constructor
  · norm_num [Doubtful, BadWind, BadHex, Quintic.sum7]
  · have h2 : ¬ uncZero (2 : ℚ) (7 / 2) := by
      norm_num [uncZero, uncF1, uncF2, uncA]
    unfold quintic quinHex windmill windCore unc5
    norm_num [Quintic.sum7, uncTrivial, uncFirst, wX, rationalizeFunc, uncValid, uncV, uncAnswer, h2]

end Verif.Ternary
