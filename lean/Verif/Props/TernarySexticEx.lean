import Verif.Props.TernarySexticFull

/-!
# The solver of cyclic ternary sextics: polynomials by coefficient tables, examples and faults
-/

set_option linter.unusedSectionVars false

namespace Verif.Ternary

open Verif Verif.TermsPoly Verif.Acute

section

variable {K : Type*} [Field K] [LinearOrder K] [IsStrictOrderedRing K]

/-- **C84.** For every homogeneous cyclic sextic in three variables that is nonnegative on the octant and vanishes at the centre or has a nonnegative `sdpR`, an answer is a complete proof. -/
theorem sexticSolve_coeff {X : SexticExt K} (hX : X.Sound) {real : Bool} (co : Coeff K) (h : co.WF) (hn : co.nvars = 3) (hd : co.Hom 6) (hc : co.isCyclicDefault = true) {C : Cert K}
    (hC : sexticSolve X real (Sextic.ofCoeff co) = .ok (some C)) (hnn : ∀ a b c, Octant a b c → 0 ≤ Coeff.evalDict co.coeffs [a, b, c])
    (hr : 0 < (Sextic.ofCoeff co).poly111 → 0 ≤ (Sextic.ofCoeff co).sdpR) :
    Holds (fun a b c => Coeff.evalDict co.coeffs [a, b, c]) C := by
  have e : (fun a b c => Coeff.evalDict co.coeffs [a, b, c]) = (Sextic.ofCoeff co).poly := funext fun a => funext fun b => funext fun c => sextic_ofCoeff co h hn hd hc a b c
  have h1 := ((sexticSolve_partly hX hC).answer (Or.inl hr)).holds (by rw [← e]; exact hnn)
  rw [e]
  exact h1

/-- The identity needs no condition on the sign. -/
theorem sexticSolve_coeff_ident {X : SexticExt K} (hX : X.Sound) {real : Bool} (co : Coeff K) (h : co.WF) (hn : co.nvars = 3) (hd : co.Hom 6) (hc : co.isCyclicDefault = true) {C : Cert K}
    (hC : sexticSolve X real (Sextic.ofCoeff co) = .ok (some C)) : Ident (fun a b c => Coeff.evalDict co.coeffs [a, b, c]) C := by
  have e : (fun a b c => Coeff.evalDict co.coeffs [a, b, c]) = (Sextic.ofCoeff co).poly := funext fun a => funext fun b => funext fun c => sextic_ofCoeff co h hn hd hc a b c
  rw [e]
  exact (sexticSolve_partly hX hC).ident

end

/-! ### Examples -/

/-- An environment that meets the contracts. -/
def exSextic : SexticExt ℚ where
  nd := exND
  rational _ := true
  cubicRat _ := true
  cubicUs _ := []
  vCands f := if f.c312 = -8 then [.approx true [1]] else []
  tCands _ := [.approx true [3]]
  thm2 _ := none
  star _ := [(0, 0)]
  treeY f := if f.c321 / f.c402 = -1 then [1] else []
  treeX _ := [.approx true [3 / 2]]
  c3Cands _ := [.approx true [0]]
  hexagonSym _ := .ok none
  ultimate _ := .ok none
  full _ := [(1, 0)]
  zooErr _ := .typeError

theorem exSextic_sound : exSextic.Sound where
  nd := exND_sound
  tCands f t h := by simp [exSextic] at h
  thm2 f C _ h := by simp [exSextic] at h
  treeY f y hy h := by
    change y ∈ (if _ then _ else _) at hy
    split at hy
    · rename_i e
      rw [List.mem_singleton.1 hy, e] at h
      norm_num at h
    · simp at hy
  treeX f t h := by simp [exSextic] at h
  hexagonSym f C _ _ h := by simp [exSextic] at h
  ultimate f C _ h := by simp [exSextic] at h

/-- A hexagram, by the trivial case. -/
theorem exSextic_1 : answered (sexticSolve exSextic false ⟨0, 0, 0, 0, 1, 0, 1, 4, -8, 6⟩) := by decide +kernel
/-- A hexagram, by equal coefficients. -/
theorem exSextic_2 : answered (sexticSolve exSextic false ⟨0, 0, 0, 0, 1, 0, 1, 8, -7, -6⟩) := by decide +kernel
/-- A hexagram, by the star. -/
theorem exSextic_3 : answered (sexticSolve exSextic false ⟨0, 0, 0, 0, 2, 0, 1, -1, 0, -6⟩) := by decide +kernel
/-- A rotated tree, simple. -/
theorem exSextic_4 : answered (sexticSolve exSextic false ⟨0, 0, 0, 0, 0, 1, 0, -1, 0, 0⟩) := by decide +kernel
/-- A rotated tree, last case. -/
theorem exSextic_5 : answered (sexticSolve exSextic false ⟨0, 0, 0, 0, 0, 1, 0, -9 / 8, -9 / 4, 57 / 8⟩) := by decide +kernel
/-- The same, reflected. -/
theorem exSextic_6 : answered (sexticSolve exSextic false ⟨0, 0, 0, 1, 0, 0, 0, -9 / 4, -9 / 8, 57 / 8⟩) := by decide +kernel
/-- A hexagon, by a quadratic form. -/
theorem exSextic_7 : answered (sexticSolve exSextic false ⟨0, 0, 0, 7, -6, 3, 0, -6, -10, 36⟩) := by decide +kernel
/-- A hexagon, by a hexagram. -/
theorem exSextic_8 : answered (sexticSolve exSextic false ⟨0, 0, 0, 1, 1, 0, 1, -2, -6, 15⟩) := by decide +kernel
/-- A sextic with all its coefficients. -/
theorem exSextic_9 : answered (sexticSolve exSextic false ⟨3, -2, -2, 7, -8, 8, -2, -6, -14, 48⟩) := by decide +kernel

/-! ### Faults -/

/-- `S1² + S1 S2 + a²b²c²`, where `S1 = s(a2b-abc)` and `S2 = s(ab2-abc)`. -/
def exF1 : Sextic ℚ := ⟨0, 0, 0, 1, 1, 0, 1, -9, -1, 22⟩

theorem exF1_nonneg (a b c : ℚ) (ho : Octant a b c) : 0 ≤ exF1.poly a b c := by
  obtain ⟨ha, hb, hc⟩ := ho
  have h1 := cyc_amgm a b c ⟨ha, hb, hc⟩
  have h2 := cyc_amgm' a b c ⟨ha, hb, hc⟩
  have e : exF1.poly a b c = cyc3 (fun a b c => a ^ 2 * b - a * b * c) a b c ^ 2 +
      cyc3 (fun a b c => a ^ 2 * b - a * b * c) a b c * cyc3 (fun a b c => a ^ 2 * c - a * b * c) a b c + (a * b * c) ^ 2 := by
    simp only [Sextic.poly, exF1, cyc3]
    ring
  rw [e]
  have h1' : 0 ≤ cyc3 (fun a b c => a ^ 2 * b - a * b * c) a b c := by simp only [cyc3, prodA, cycp3] at h1 h2 ⊢; linarith
  have h2' : 0 ≤ cyc3 (fun a b c => a ^ 2 * c - a * b * c) a b c := by simp only [cyc3, prodA, cycp3] at h1 h2 ⊢; linarith
  positivity

/-- **Fault.** In the degenerate case of `_sos_struct_sextic_hexagon_to_hexagram` the value of `c3` is not tested; `quadratic_weighting` returns `None`, and `None + solution` raises for this nonnegative
polynomial. -/
theorem sextic_toHexagram_raises (X : SexticExt ℚ) (real : Bool) : sexticSolve X real exF1 = .error .typeError := by
  have h1 : hexagonC3 X exF1 = .ok (some (-1)) := by
    unfold hexagonC3
    rw [if_pos (by norm_num [exF1])]
    rfl
  have h2 : ∃ C, hexagramSolve X (hexagonSub exF1 (-1)) = .ok (some C) := by
    have e : hexagonSub exF1 (-1) = ⟨0, 0, 0, 0, 0, 0, 0, 0, 0, 1⟩ := by norm_num [hexagonSub, exF1]
    rw [e]
    unfold hexagramSolve
    rw [if_neg (by norm_num), if_pos rfl]
    dsimp only
    generalize X.cubicRat _ = R
    generalize X.cubicUs _ = us
    unfold cubicSolve
    rw [if_pos rfl]
    obtain ⟨C, hC⟩ := answered_iff (cubicSymmetric (⟨0, 0, 0, 1⟩ : Cubic ℚ)) (by decide +kernel)
    rw [hC]
    exact ⟨_, rfl⟩
  obtain ⟨C, hC⟩ := h2
  have h3 : qwTerms (exF1.c420) (- -1) exF1.c402 = none := by
    unfold qwTerms
    rw [show quadraticWeighting exF1.c420 (- -1) exF1.c402 = none by rw [quadraticWeighting, if_pos (by norm_num [exF1])]]
    rfl
  have h4 : hexagonToHexagram X exF1 = .error .typeError := by
    unfold hexagonToHexagram
    rw [if_neg (by norm_num [exF1]), h1]
    dsimp only
    rw [hC]
    dsimp only
    rw [h3]
  unfold sexticSolve
  rw [if_neg (by norm_num [exF1]), if_pos (by norm_num [exF1])]
  unfold hexagonSolve
  rw [if_neg (by norm_num [exF1]), if_neg (by norm_num [exF1]), if_neg (by norm_num [exF1]), if_neg (by norm_num [exF1]), if_neg (by norm_num [exF1])]
  simp only [firstOf, h4]

/-- A hexagon for which the first and the last coefficient of the quadratic form are zero and negative. -/
def exF2 : Sextic ℚ := ⟨0, 0, 0, 6, -6, 7 / 4, 0, -5 / 2, -9 / 2, 63 / 4⟩

/-- A nonnegative hexagon, positive at the centre, with a negative `r`. -/
def exF4 : Sextic ℚ := ⟨0, 0, 0, 62, -4, 56, -4, -248, -254, 2376⟩

theorem exF4_nonneg (a b c : ℚ) (ho : Octant a b c) : 0 ≤ exF4.poly a b c := by
  obtain ⟨ha, hb, hc⟩ := ho
  have e : exF4.poly a b c = 32 * (a ^ 2 * b + b ^ 2 * c + c ^ 2 * a - 6 * (a * b * c)) ^ 2 + 32 * (a ^ 2 * c + b ^ 2 * a + c ^ 2 * b - 6 * (a * b * c)) ^ 2 + 48 * (a * b * c) ^ 2 +
      24 * ((a ^ 2 * b) ^ 2 + (b ^ 2 * c) ^ 2 + (c ^ 2 * a) ^ 2) +
      64 * (a ^ 2 * b * (b ^ 2 * c) + b ^ 2 * c * (c ^ 2 * a) + c ^ 2 * a * (a ^ 2 * b) + a ^ 2 * c * (b ^ 2 * a) + b ^ 2 * a * (c ^ 2 * b) + c ^ 2 * b * (a ^ 2 * c)) +
      cyc3 (fun a b c => (b ^ 2 * c + a * c ^ 2) ^ 2 + (b ^ 2 * c + 2 * a ^ 2 * c) ^ 2 + (b ^ 2 * c - 2 * a * b ^ 2) ^ 2 + (-a * c ^ 2 + 2 * a ^ 2 * c) ^ 2 + (-a * c ^ 2 - 2 * a * b ^ 2) ^ 2 +
        (-2 * a ^ 2 * c - 2 * a * b ^ 2) ^ 2) a b c := by
    simp only [Sextic.poly, exF4, cyc3]
    ring
  rw [e]
  have : 0 ≤ cyc3 (fun a b c => (b ^ 2 * c + a * c ^ 2) ^ 2 + (b ^ 2 * c + 2 * a ^ 2 * c) ^ 2 + (b ^ 2 * c - 2 * a * b ^ 2) ^ 2 + (-a * c ^ 2 + 2 * a ^ 2 * c) ^ 2 + (-a * c ^ 2 - 2 * a * b ^ 2) ^ 2 +
        (-2 * a ^ 2 * c - 2 * a * b ^ 2) ^ 2) a b c := by
    simp only [cyc3]
    positivity
  positivity

theorem exF4_vals : exF4.sdpR = -1 ∧ exF4.sdpX = 1 ∧ exF4.sdpY = -2 := by
  norm_num [exF4, Sextic.sdpR, Sextic.sdpX, Sextic.sdpY, Sextic.sdp1, Sextic.sdp2, Sextic.sdp3]

/-- **Fault.** The weight `r` of `_sos_struct_sextic_hexagon_sdp` is not tested: the answer for this nonnegative polynomial has a negative weight, and the solvers after it are not tried. -/
theorem sextic_sdp_negative (X : SexticExt ℚ) (hX : X.rational exF4 = true) (real : Bool) : ∃ C, sexticSolve X real exF4 = .ok (some C) ∧ ∃ t ∈ C.terms, t.1 < 0 := by
  obtain ⟨hr, hx, hy⟩ := exF4_vals
  have h3 : qwTerms (64 : ℚ) 0 64 = some [(64, sqMap 1 0), (64, sqMap 0 1)] := by
    norm_num [qwTerms, quadraticWeighting]
  have h1 : hexagonSdp X exF4 = .ok (some (.plain ((-1, sdpExpr 1 (-2)) :: (exF4.poly111, cycp3 fun a _ _ => a ^ 2) :: [(64, sqMap 1 0), (64, sqMap 0 1)]))) := by
    unfold hexagonSdp
    rw [if_neg (by rw [hX]; norm_num [exF4, Sextic.poly111]), if_neg (by norm_num [exF4, Sextic.sdp1, Sextic.sdp2, Sextic.sdp3])]
    dsimp only
    rw [hr, hx, hy, if_pos (by norm_num [exF4])]
    have e1 : exF4.c420 - 2 * -1 * (1 ^ 2 - 1 + 1) = 64 := by norm_num [exF4]
    have e2 : exF4.c330 - 2 * -1 * -2 * (1 - 2) = 0 := by norm_num [exF4]
    have e3 : exF4.c402 - 2 * -1 * (-2) ^ 2 = 64 := by norm_num [exF4]
    rw [e1, e2, e3, h3]
  refine ⟨.plain ((-1, sdpExpr 1 (-2)) :: (exF4.poly111, cycp3 fun a _ _ => a ^ 2) :: [(64, sqMap 1 0), (64, sqMap 0 1)]), ?_, (-1, sdpExpr 1 (-2)), List.mem_cons_self, by norm_num⟩
  unfold sexticSolve
  rw [if_neg (by norm_num [exF4]), if_pos (by norm_num [exF4])]
  unfold hexagonSolve
  rw [if_neg (by norm_num [exF4]), if_neg (by norm_num [exF4]), if_neg (by norm_num [exF4]), if_neg (by norm_num [exF4]), if_pos (by norm_num [exF4])]
  cases real <;> simp only [firstOf, h1, if_true, Bool.false_eq_true, if_false]

/-- **Fault.** The test before `quadratic_weighting` in `_sos_struct_sextic_hexagon_sdp` accepts `q0 = q2 = 0` with `q1 < 0`; `None` is added to an expression, and the call raises. -/
theorem sextic_sdp_raises (X : SexticExt ℚ) (hX : X.rational exF2 = true) (real : Bool) : sexticSolve X real exF2 = .error .typeError := by
  have hr : exF2.sdpR = 1 ∧ exF2.sdpX = 2 ∧ exF2.sdpY = 1 := by
    norm_num [exF2, Sextic.sdpR, Sextic.sdpX, Sextic.sdpY, Sextic.sdp1, Sextic.sdp2, Sextic.sdp3]
  obtain ⟨hr, hx, hy⟩ := hr
  have h1 : hexagonSdp X exF2 = .error .typeError := by
    unfold hexagonSdp
    rw [if_neg (by rw [hX]; norm_num [exF2, Sextic.poly111]), if_neg (by norm_num [exF2, Sextic.sdp1, Sextic.sdp2, Sextic.sdp3])]
    dsimp only
    rw [hr, hx, hy, if_pos (by norm_num [exF2])]
    have e1 : exF2.c420 - 2 * 1 * (2 ^ 2 - 2 + 1) = 0 := by norm_num [exF2]
    have e2 : exF2.c330 - 2 * 1 * 1 * (2 - 2) = 0 := by norm_num [exF2]
    have e3 : exF2.c402 - 2 * 1 * 1 ^ 2 = -1 / 4 := by norm_num [exF2]
    have h3 : qwTerms (0 : ℚ) 0 (-1 / 4) = none := by norm_num [qwTerms, quadraticWeighting]
    rw [e1, e2, e3, h3]
  unfold sexticSolve
  rw [if_neg (by norm_num [exF2]), if_pos (by norm_num [exF2])]
  unfold hexagonSolve
  rw [if_neg (by norm_num [exF2]), if_neg (by norm_num [exF2]), if_neg (by norm_num [exF2]), if_neg (by norm_num [exF2]), if_pos (by norm_num [exF2])]
  cases real <;> simp only [firstOf, h1, if_true, Bool.false_eq_true, if_false]

/-- `S0² - S1²`, where `S0 = s(a3-abc)` and `S1 = s(a2b-abc)`. -/
def exF3 : Sextic ℚ := ⟨1, 0, 0, -1, -6, 0, 2, 6, -2, 0⟩

theorem exF3_nonneg (a b c : ℚ) (ho : Octant a b c) : 0 ≤ exF3.poly a b c := by
  obtain ⟨ha, hb, hc⟩ := ho
  have h1 := cyc_amgm a b c ⟨ha, hb, hc⟩
  have h2 := cyc_amgm' a b c ⟨ha, hb, hc⟩
  have e : exF3.poly a b c = (a ^ 3 + b ^ 3 + c ^ 3 - a ^ 2 * b - b ^ 2 * c - c ^ 2 * a) * (a ^ 3 + b ^ 3 + c ^ 3 + a ^ 2 * b + b ^ 2 * c + c ^ 2 * a - 6 * (a * b * c)) := by
    simp only [Sextic.poly, exF3]
    ring
  rw [e]
  have h3 : 0 ≤ a ^ 3 + b ^ 3 + c ^ 3 - a ^ 2 * b - b ^ 2 * c - c ^ 2 * a := by
    have : ∀ x y : ℚ, 0 ≤ x → 0 ≤ y → 0 ≤ 2 * x ^ 3 + y ^ 3 - 3 * x ^ 2 * y := by
      intro x y hx hy
      have : 2 * x ^ 3 + y ^ 3 - 3 * x ^ 2 * y = (x - y) ^ 2 * (2 * x + y) := by ring
      rw [this]
      positivity
    linarith [this a b ha hb, this b c hb hc, this c a hc ha]
  have h4 : 0 ≤ a ^ 2 * b + b ^ 2 * c + c ^ 2 * a - 3 * (a * b * c) := by simp only [cyc3, prodA, cycp3] at h1 h2; linarith
  have h5 : 0 ≤ a ^ 3 + b ^ 3 + c ^ 3 + a ^ 2 * b + b ^ 2 * c + c ^ 2 * a - 6 * (a * b * c) := by linarith
  positivity

/-- **Fault.** If the remainder of `_sos_struct_sextic_full_sdp` is zero, the quadratic form is decomposed without a test; `congruence` returns `None`, and unpacking it raises for this nonnegative
polynomial. -/
theorem sextic_full_raises (X : SexticExt ℚ) (hX : X.rational exF3 = true) (real : Bool) : sexticSolve X real exF3 = .error .typeError := by
  unfold sexticSolve
  rw [if_neg (by norm_num [exF3]), if_neg (by norm_num [exF3]), if_pos (by norm_num [exF3])]
  unfold fullSdp
  rw [if_neg (by rw [hX]; norm_num [exF3, Sextic.poly111]), if_pos (by norm_num [exF3, Sextic.rest0, Sextic.rest1, Sextic.rest2])]
  have h : congruence 3 (fullMat0 exF3) = .ok none := by
    rw [congruence_none_iff 3 (by norm_num)]
    · refine ⟨fun i => if i = 1 then 1 else 0, ?_⟩
      norm_num [quadForm, Finset.sum_range_succ, fullMat0, exF3]
    · intro r c hr hc
      interval_cases r <;> interval_cases c <;> rfl
  unfold fullQuad
  rw [h]
  rfl

end Verif.Ternary
