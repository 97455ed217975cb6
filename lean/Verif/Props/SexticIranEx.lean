import Verif.Props.SexticIran

/-!
# Faults and concrete cases of the solver of symmetric sextics without `a^6`
-/

set_option linter.unusedSectionVars false

namespace Verif.Ternary

open Verif Verif.Acute Verif.Dense

/-- `s(a^5b + ab^5 + 4(a^4b^2 + a^2b^4) - 10a^3b^3 + 100(a^3b^2c + a^3bc^2) - 199a^2b^2c^2)`. -/
def exCase3 : Sextic ℚ := ⟨0, 1, 1, 4, 0, 4, -10, 100, 100, -597⟩

/-- **Case 3 of the Schur split returns the wrong value**: the answer is zero at `(1, 1, 1)`, where the polynomial is three. -/
theorem schurCase3_wrong : ∃ C, (∀ X : IranExt ℚ, ∀ real, sxIran X real exCase3 = .ok (some C)) ∧ C.num 1 1 1 = 0 ∧ C.den 1 1 1 = 1 ∧ exCase3.poly 1 1 1 = 3 := by
  have hs : ∃ C, schurCases exCase3 = some C ∧ C.num 1 1 1 = 0 ∧ C.den 1 1 1 = 1 := by
    unfold schurCases
    rw [if_neg (by norm_num [exCase3, Sextic.fullRem]), if_neg (by norm_num [exCase3, Sextic.fullRem])]
    dsimp only
    rw [if_pos (by norm_num [exCase3])]
    refine ⟨_, rfl, ?_, rfl⟩
    norm_num [Cert.num, Cert.plain, sumY, exCase3, cyc3, discV, cycp3]
  obtain ⟨C, hC, h1, h2⟩ := hs
  refine ⟨C, ?_, h1, h2, by norm_num [exCase3, Sextic.poly]⟩
  intro X real
  unfold sxIran
  rw [if_neg (by norm_num [exCase3]), if_neg (by norm_num [exCase3, Sextic.fullRem]), if_neg (by norm_num [exCase3])]
  unfold tryNext schurSplit
  rw [hC]

/-- `s(a^5b + ab^5 + 4(a^4b^2 + a^2b^4) + 10a^3b^3 - 11a^4bc - 8(a^3b^2c + a^3bc^2) + 7a^2b^2c^2)`. -/
def exEasy3 : Sextic ℚ := ⟨0, 1, 1, 4, -11, 4, 10, -8, -8, 21⟩

theorem exEasy3_schur : schurCases exEasy3 = none := by
  unfold schurCases
  rw [if_neg (by norm_num [exEasy3, Sextic.fullRem]), if_neg (by norm_num [exEasy3, Sextic.fullRem])]
  dsimp only
  rw [if_neg (by norm_num [exEasy3])]

theorem exEasy3_iran : exEasy3.Iran := ⟨⟨rfl, rfl, rfl⟩, rfl, by norm_num [exEasy3]⟩

/-- **Easy case 3 returns the wrong value** where the lifted polynomial is not solved: at `(2, 1, 1)` the answer is less than the polynomial. -/
theorem easy3_wrong : ∃ C, (∀ X : IranExt ℚ, X.lift exEasy3 = .ok none → ∀ real, sxIran X real exEasy3 = .ok (some C)) ∧ C.den 2 1 1 ≠ 0 ∧
    C.num 2 1 1 ≠ C.den 2 1 1 * exEasy3.poly 2 1 1 := by
  have he : ∃ C, iranEasy exEasy3 = .ok (some C) ∧ C.den 2 1 1 ≠ 0 ∧ C.num 2 1 1 ≠ C.den 2 1 1 * exEasy3.poly 2 1 1 := by
    unfold iranEasy
    dsimp only
    have hu : (if -(exEasy3.c411 + 2 * exEasy3.c420) / 4 / exEasy3.c510 < 1 then (1 : ℚ) else -(exEasy3.c411 + 2 * exEasy3.c420) / 4 / exEasy3.c510) = 1 :=
      if_pos (by norm_num [exEasy3])
    rw [if_pos (by norm_num [exEasy3]), if_neg (by norm_num [exEasy3, Sextic.fullRem]), hu, if_neg (by norm_num [exEasy3]), if_pos (by norm_num [exEasy3, Sextic.fullRem])]
    refine ⟨_, rfl, ?_, ?_⟩
    · norm_num [Cert.plus, Cert.smul, Cert.plain, times, sumA, cyc3]
    · norm_num [Cert.num, Cert.plus, Cert.smul, Cert.plain, times, sumA, cyc3, sumY, exEasy3, discV, cycp3, hx1, hx2, s1V, prodA, a2V, Sextic.fullRem, Sextic.poly]
  obtain ⟨C, hC, h1, h2⟩ := he
  refine ⟨C, ?_, h1, h2⟩
  intro X hl real
  unfold sxIran
  rw [if_neg (by norm_num [exEasy3]), if_neg (by norm_num [exEasy3, Sextic.fullRem]), if_neg (by norm_num [exEasy3])]
  unfold schurSplit
  rw [exEasy3_schur, hl]
  change tryNext (iranEasy exEasy3) _ = _
  rw [hC]
  rfl

/-- The polynomial of the fault in easy case 5. -/
def exEasy5 : Sextic ℚ := ⟨0, 2, 2, -1, 1, -1, -1, -4, -4, 18⟩

theorem exEasy5_schur : schurCases exEasy5 = none := by
  unfold schurCases
  rw [if_neg (by norm_num [exEasy5, Sextic.fullRem]), if_neg (by norm_num [exEasy5, Sextic.fullRem])]
  dsimp only
  rw [if_neg (by norm_num [exEasy5])]

/-- **Easy case 5 returns the wrong value** where the lifted polynomial is not solved: `tmp` belongs to another `u_`. -/
theorem easy5_wrong : ∃ C, (∀ X : IranExt ℚ, X.lift exEasy5 = .ok none → X.rational exEasy5 = true → ∀ real, sxIran X real exEasy5 = .ok (some C)) ∧ C.den 2 1 1 ≠ 0 ∧
    C.num 2 1 1 ≠ C.den 2 1 1 * exEasy5.poly 2 1 1 := by
  have huv : iranUV exEasy5 = (1, 1 / 2, 1 / 2) := by norm_num [iranUV, exEasy5]
  have hr : ∃ C, iranRat exEasy5 = .ok (some C) ∧ C.den 2 1 1 ≠ 0 ∧ C.num 2 1 1 ≠ C.den 2 1 1 * exEasy5.poly 2 1 1 := by
    unfold iranRat
    rw [huv]
    dsimp only
    rw [if_pos (by norm_num [exEasy5]), if_pos (by norm_num [exEasy5, Sextic.fullRem])]
    refine ⟨_, rfl, ?_, ?_⟩
    · norm_num [Cert.plus, Cert.smul, Cert.plain, times, sumA, cyc3]
    · norm_num [Cert.num, Cert.plus, Cert.smul, Cert.plain, times, sumA, cyc3, sumY, exEasy5, discV, cycp3, hx1, hx2, s1V, prodA, a2V, Sextic.fullRem, Sextic.poly, sab3]
  obtain ⟨C, hC, h1, h2⟩ := hr
  refine ⟨C, ?_, h1, h2⟩
  intro X hl hrat real
  unfold sxIran
  rw [if_neg (by norm_num [exEasy5]), if_neg (by norm_num [exEasy5, Sextic.fullRem]), if_neg (by norm_num [exEasy5])]
  unfold schurSplit
  rw [exEasy5_schur, hl]
  have h2 : iranEasy exEasy5 = .ok none := by
    unfold iranEasy
    dsimp only
    rw [if_neg (by norm_num [exEasy5])]
  have h3 : iranBorder exEasy5 = .ok none := by
    unfold iranBorder
    dsimp only
    rw [if_neg (by norm_num [exEasy5])]
  change tryNext (iranEasy exEasy5) (tryNext (iranBorder exEasy5) _) = _
  rw [h2, h3, hrat]
  change tryNext (iranRat exEasy5) _ = _
  rw [hC]
  rfl

/-- The contracts can be met: nothing is found, and the square root is that of the real numbers. -/
noncomputable def exIranX : IranExt ℝ :=
  ⟨⟨⟨fun x => (x, 1)⟩, fun _ => [], Real.sqrt, fun _ => false⟩, fun _ => .ok none, fun _ => true, fun _ _ _ => none, fun _ => [], fun _ _ _ => true, fun _ _ => [], fun _ _ => []⟩

theorem exIranX_sound : exIranX.Sound := ⟨fun t => ⟨by simp [exIranX], by simp [exIranX]⟩, sqrtSound_real, fun f C h => by simp [exIranX] at h, fun A B C x h => by simp [exIranX] at h,
  fun t w u h => by simp [exIranX] at h⟩

/-- `s(ab(a-b)2(a+b-c)2)-4p(a-b)2` is proved by the last part: here `p = -4`, `q = 6`, `w = 4`, `z = -5`. -/
theorem ex_iranMain : ∃ C, iranMain exIranX false 1 0 (-4) 6 4 (-5) = .ok (some C) ∧ Holds (normV 1 0 (-4) 6 4 (-5)) C := by
  have h : ∃ C, iranMain exIranX false (1 : ℝ) 0 (-4) 6 4 (-5) = .ok (some C) := by
    unfold iranMain
    rw [if_neg (by norm_num)]
    have hu : uSelect exIranX (2 : ℝ) 4 (-5) = some 1 := by norm_num [uSelect]
    have hsq : Real.sqrt (2 * (-4) + 6 + 2) = 0 := by norm_num
    simp only [exIranX, rootU, Option.bind_none, iranPerturb, Bool.false_eq_true, false_and, if_false, hsq, pickU] at hu ⊢
    norm_num at hu ⊢
    rw [hu]
    unfold iranLast
    norm_num
    exact ⟨_, rfl⟩
  obtain ⟨C, hC⟩ := h
  exact ⟨C, hC, iranMain_sound exIranX_sound one_pos le_rfl hC⟩

end Verif.Ternary
