import Verif.Props.Quaternary

/-!
# C57: four-variable cyclic quartic solvers
-/

set_option linter.unusedSectionVars false

namespace Verif.Quaternary
open Verif Verif.Coeff

variable {K : Type*} [Field K] [LinearOrder K] [IsStrictOrderedRing K]

/-- The value of a cyclic four-variable quartic. -/
theorem cycForm44 (co : Coeff K) (h : co.WF) (hn : co.nvars = 4) (hd : co.Hom 4)
    (hs : co.isCyclicDefault = true) (a b c d : K) :
    evalDict co.coeffs [a,b,c,d] = co.call [4,0,0,0] * (a^4 + d^4 + c^4 + b^4) +
      co.call [3,1,0,0] * (a^3*b + a*d^3 + c^3*d + b^3*c) +
      co.call [3,0,1,0] * (a^3*c + b*d^3 + a*c^3 + b^3*d) +
      co.call [3,0,0,1] * (a^3*d + c*d^3 + b*c^3 + a*b^3) +
      co.call [2,2,0,0] * (a^2*b^2 + a^2*d^2 + c^2*d^2 + b^2*c^2) +
      co.call [2,1,1,0] * (a^2*b*c + a*b*d^2 + a*c^2*d + b^2*c*d) +
      co.call [2,1,0,1] * (a^2*b*d + a*c*d^2 + b*c^2*d + a*b^2*c) +
      co.call [2,0,2,0] * (a^2*c^2 + b^2*d^2) +
      co.call [2,0,1,1] * (a^2*c*d + b*c*d^2 + a*b*c^2 + a*b^2*d) +
      co.call [1,1,1,1] * (a*b*c*d) := by
  have e : ∀ (m : List ℕ) (k : ℕ), m.length = 4 → co.call (m.rotate k) = co.call m := by
    have := (isCyclicDefault_iff co h (by omega)).1 hs
    rw [hn] at this; exact this
  have e0 : co.call [0,0,0,4] = co.call [4,0,0,0] := e [4,0,0,0] 1 rfl
  have e1 : co.call [0,0,4,0] = co.call [4,0,0,0] := e [4,0,0,0] 2 rfl
  have e2 : co.call [0,4,0,0] = co.call [4,0,0,0] := e [4,0,0,0] 3 rfl
  have e3 : co.call [1,0,0,3] = co.call [3,1,0,0] := e [3,1,0,0] 1 rfl
  have e4 : co.call [0,0,3,1] = co.call [3,1,0,0] := e [3,1,0,0] 2 rfl
  have e5 : co.call [0,3,1,0] = co.call [3,1,0,0] := e [3,1,0,0] 3 rfl
  have e6 : co.call [0,1,0,3] = co.call [3,0,1,0] := e [3,0,1,0] 1 rfl
  have e7 : co.call [1,0,3,0] = co.call [3,0,1,0] := e [3,0,1,0] 2 rfl
  have e8 : co.call [0,3,0,1] = co.call [3,0,1,0] := e [3,0,1,0] 3 rfl
  have e9 : co.call [0,0,1,3] = co.call [3,0,0,1] := e [3,0,0,1] 1 rfl
  have e10 : co.call [0,1,3,0] = co.call [3,0,0,1] := e [3,0,0,1] 2 rfl
  have e11 : co.call [1,3,0,0] = co.call [3,0,0,1] := e [3,0,0,1] 3 rfl
  have e12 : co.call [2,0,0,2] = co.call [2,2,0,0] := e [2,2,0,0] 1 rfl
  have e13 : co.call [0,0,2,2] = co.call [2,2,0,0] := e [2,2,0,0] 2 rfl
  have e14 : co.call [0,2,2,0] = co.call [2,2,0,0] := e [2,2,0,0] 3 rfl
  have e15 : co.call [1,1,0,2] = co.call [2,1,1,0] := e [2,1,1,0] 1 rfl
  have e16 : co.call [1,0,2,1] = co.call [2,1,1,0] := e [2,1,1,0] 2 rfl
  have e17 : co.call [0,2,1,1] = co.call [2,1,1,0] := e [2,1,1,0] 3 rfl
  have e18 : co.call [1,0,1,2] = co.call [2,1,0,1] := e [2,1,0,1] 1 rfl
  have e19 : co.call [0,1,2,1] = co.call [2,1,0,1] := e [2,1,0,1] 2 rfl
  have e20 : co.call [1,2,1,0] = co.call [2,1,0,1] := e [2,1,0,1] 3 rfl
  have e21 : co.call [0,2,0,2] = co.call [2,0,2,0] := e [2,0,2,0] 1 rfl
  have e22 : co.call [0,1,1,2] = co.call [2,0,1,1] := e [2,0,1,1] 1 rfl
  have e23 : co.call [1,1,2,0] = co.call [2,0,1,1] := e [2,0,1,1] 2 rfl
  have e24 : co.call [1,2,0,1] = co.call [2,0,1,1] := e [2,0,1,1] 3 rfl
  rw [form44 co h hn hd, e0, e1, e2, e3, e4, e5, e6, e7, e8, e9, e10, e11, e12, e13, e14, e15, e16, e17, e18, e19, e20, e21, e22, e23, e24]
  ring

theorem poly111_eq (co : Coeff K) :
    poly111 co = evalDict co.coeffs [1,1,1,1] := by
  have h1 : ∀ (n : ℕ) (m : List ℕ), evalMonom m (List.replicate n (1:K)) = 1 := by
    intro n
    induction n with
    | zero => intro m; cases m <;> simp [evalMonom]
    | succ n ih =>
      intro m
      cases m with
      | nil => simp [evalMonom]
      | cons e m =>
        have := ih m
        simp only [evalMonom] at this
        simp [evalMonom, List.replicate_succ, this]
  unfold poly111 evalDict
  congr 1
  apply List.map_congr_left
  intro kv _
  have := h1 4 kv.1
  simp only [List.replicate] at this
  rw [this, mul_one]

theorem fluoriteExpr_spec (w1 w2 w3 : K) (e : Val4 K) (h : fluoriteExpr w1 w2 w3 = some e) (a b c d : K) :
    e a b c d = w1 * (a*b - b*c - a*d + c*d)^2 - w2 * ((a*b - b*c - a*d + c*d) * (a*c - b*d)) + w3 * (a*c - b*d)^2 ∧
      0 ≤ e a b c d := by
  unfold fluoriteExpr at h
  split_ifs at h with h0
  cases hq : quadraticWeighting w1 w2 w3 with
  | none => rw [hq] at h0; simp at h0
  | some l =>
    have hfun : fluoriteSq a b c d = fun x y => (x * (a*b - b*c - a*d + c*d) + y * (-(a*c - b*d)))^2 := by
      funext x y
      unfold fluoriteSq cyc4
      ring
    have hsum : quadraticWeightingSum w1 w2 w3 (fluoriteSq a b c d) = some (e a b c d) := by
      rw [← Option.some.inj h]
      unfold quadraticWeightingSum
      rw [hq]; rfl
    rw [hfun] at hsum
    obtain ⟨h1, h2⟩ := quadraticWeightingSum_eq _ _ _ _ _ _ hsum
    refine ⟨?_, h2⟩
    rw [h1]; ring

/-- **C57 (fluorite quartic).** The expression equals the polynomial everywhere and is nonnegative wherever
`abcd ≥ 0`. -/
theorem quarticFluorite_sound (co : Coeff K) (h : co.WF) (hn : co.nvars = 4) (hd : co.Hom 4)
    (hs : co.isCyclicDefault = true) (f : Val4 K) (hf : quarticFluorite co = some f) (a b c d : K) :
    f a b c d = evalDict co.coeffs [a,b,c,d] ∧ (0 ≤ a*b*c*d → 0 ≤ f a b c d) := by
  unfold quarticFluorite at hf
  by_cases h1 : co.call [4,0,0,0] ≠ 0 ∨ co.call [3,1,0,0] ≠ 0 ∨ co.call [3,0,1,0] ≠ 0 ∨ co.call [3,0,0,1] ≠ 0
  · rw [if_pos h1] at hf; cases hf
  rw [if_neg h1] at hf
  push Not at h1
  obtain ⟨z1, z2, z3, z4⟩ := h1
  simp only at hf
  split at hf
  · cases hf
  · rename_i expr he
    split_ifs at hf with hc
    have := Option.some.inj hf
    subst this
    obtain ⟨e1, e2⟩ := fluoriteExpr_spec _ _ _ expr he a b c d
    have hp := poly111_eq co
    rw [cycForm44 co h hn hd hs] at hp
    obtain ⟨c1, c2, c3⟩ := hc
    refine ⟨?_, ?_⟩
    · beta_reduce
      rw [e1, cycForm44 co h hn hd hs, hp, z1, z2, z3, z4]
      simp only [cyc4]
      ring
    · intro habcd
      beta_reduce
      have h2 : 0 ≤ cyc4 (fun a b c d => (a * b - c * d) ^ 2) a b c d := by unfold cyc4; positivity
      have h3 : 0 ≤ cyc4 (fun a b c d => a * b * c * d) a b c d := by
        have : cyc4 (fun a b c d => a * b * c * d) a b c d = 4 * (a*b*c*d) := by unfold cyc4; ring
        rw [this]; positivity
      have h4 := sq_nonneg (cyc4 (fun a b c _ => a * b - a * c) a b c d)
      have := mul_nonneg c1 h4
      have := mul_nonneg (div_nonneg c2 (by norm_num : (0:K) ≤ 2)) h2
      have := mul_nonneg c3 h3
      linarith

/-- The polynomial identity behind `_quarternary_quartic_real`, valid for every `t` and `z`. -/
theorem quartic_identity (c3100 c3010 c3001 c2200 c2110 c2101 c2020 c2011 t z a b c d : K) (ht : 2*t^2 + 2 ≠ 0)
    (pr : QuarticParams K)
    (hpr : pr.cSq = -8 * z^2 + ((-4*c3001 + 4*c3100) * t^2 + (-12*c3001 + 12*c3100)) * z +
      ((c2011 + 2*c2101 + c2110 + 4*c2200 - c3001^2 + c3001 + 2*c3010 - c3100^2 + c3100) * t^4 +
      (4*c2011 + 8*c2101 + 4*c2110 + 16*c2200 - 6*c3001^2 + 4*c3001 + 8*c3010 - 6*c3100^2 + 4*c3100 + 16) * t^2 +
      (3*c2011 + 6*c2101 + 3*c2110 + 12*c2200 - 9*c3001^2 + 3*c3001 + 6*c3010 - 9*c3100^2 + 3*c3100 + 16)))
    (hw1 : pr.w1 = (-c2011/4 - c2101 - c2110/4 - c3001/4 - c3010 - c3100/4) * t^2 +
      (-3*c2011/4 - 3*c2101 - 3*c2110/4 - 3*c3001/4 - 3*c3010 - 3*c3100/4) - z^2)
    (hw2 : pr.w2 = (c3010 * t^2 + (3*c3010 - 8)) * z +
      ((c2011 - c2110 - c3001 + c3100) * t^2 + (3*c2011 - 3*c2110 - 3*c3001 + 3*c3100)))
    (hw3 : pr.w3 = (-c3010^2/4) * t^4 + (c2011 + 2*c2020 + c2110 + c3001 - 3*c3010^2/2 + c3100 + 4) * t^2 +
      (3*c2011 + 6*c2020 + 3*c2110 + 3*c3001 - 9*c3010^2/4 + 3*c3100 - 4)) :
    quarticSol c3100 c3010 c3001 z t a b c d +
      (pr.w1 * (a*b - b*c - a*d + c*d)^2 - pr.w2 * ((a*b - b*c - a*d + c*d) * (a*c - b*d)) + pr.w3 * (a*c - b*d)^2) +
      (t^2 + 3) * (-(c2011 + c2110 + c3001 + c3100)/4) * cyc4 (fun a b c _ => a * b - a * c) a b c d ^ 2 +
      pr.cSq / (2*(t^2+1)) / 2 * cyc4 (fun a b c d => (a * b - c * d) ^ 2) a b c d =
    (2*t^2 + 6) * ((a^4 + b^4 + c^4 + d^4) + c3100 * (a^3*b + b^3*c + c^3*d + a*d^3) +
      c3010 * (a^3*c + b^3*d + a*c^3 + b*d^3) + c3001 * (a^3*d + a*b^3 + b*c^3 + c*d^3) +
      c2200 * (a^2*b^2 + b^2*c^2 + c^2*d^2 + a^2*d^2) + c2110 * (a^2*b*c + b^2*c*d + a*c^2*d + a*b*d^2) +
      c2101 * (a^2*b*d + a*b^2*c + b*c^2*d + a*c*d^2) + c2020 * (a^2*c^2 + b^2*d^2) +
      c2011 * (a^2*c*d + a*b^2*d + a*b*c^2 + b*c*d^2) -
      (4 + 4*c3100 + 4*c3010 + 4*c3001 + 4*c2200 + 4*c2110 + 4*c2101 + 2*c2020 + 4*c2011) * (a*b*c*d)) := by
  have hu0 : t^2 + 1 ≠ 0 := by intro h0; apply ht; linear_combination 2 * h0
  unfold quarticSol
  simp only
  set x := (c3001*t^3 + 3*c3001*t + c3100*t^2 + 3*c3100 + t^2*z + 2*t*z - z)/(2*t^2 + 2) with hx
  set y := (-c3001*t^2 - 3*c3001 + c3100*t^3 + 3*c3100*t + t^2*z - 2*t*z - z)/(2*t^2 + 2) with hy
  have hx' : (2*t^2 + 2) * x = c3001*t^3 + 3*c3001*t + c3100*t^2 + 3*c3100 + t^2*z + 2*t*z - z := by
    rw [hx]; field_simp
  have hy' : (2*t^2 + 2) * y = -c3001*t^2 - 3*c3001 + c3100*t^3 + 3*c3100*t + t^2*z - 2*t*z - z := by
    rw [hy]; field_simp
  set X := c3001*t^3 + 3*c3001*t + c3100*t^2 + 3*c3100 + t^2*z + 2*t*z - z with hX
  set Y := -c3001*t^2 - 3*c3001 + c3100*t^3 + 3*c3100*t + t^2*z - 2*t*z - z with hY
  have hL : ∀ a b c d : K, (2*t^2 + 2)^2 * (2*a^2 + x*a*b + (c3010*t^2/4 + 3*c3010/4)*a*c + (-y)*a*d + (t-1)*b^2 + (y-z)*b*c
      + (-(c3010*t^2/4 + 3*c3010/4))*b*d + (-x+z)*c*d + (-t-1)*d^2)^2 =
      ((2*t^2 + 2)*(2*a^2 + (c3010*t^2/4 + 3*c3010/4)*a*c + (t-1)*b^2 - z*b*c
      + (-(c3010*t^2/4 + 3*c3010/4))*b*d + z*c*d + (-t-1)*d^2) + X*(a*b - c*d) + Y*(b*c - a*d))^2 := by
    intro a b c d
    rw [← hx', ← hy']; ring
  have hcs : (2*t^2+2)^2 * (pr.cSq / (2*(t^2+1)) / 2) = (t^2+1) * pr.cSq := by field_simp
  apply mul_left_cancel₀ (pow_ne_zero 2 ht)
  simp only [cyc4]
  rw [mul_add, mul_add, mul_add, mul_add, mul_add, mul_add, hL, hL, hL, hL, ← mul_assoc ((2*t^2+2)^2) (pr.cSq / (2*(t^2+1)) / 2), hcs,
    hw1, hw2, hw3, hpr, hX, hY]
  ring

/-- **C57 (real quartic).** Whatever candidates the root isolation proposes, an expression returned for a cyclic
four-variable quartic equals the polynomial everywhere and is nonnegative wherever `abcd ≥ 0`. -/
theorem quarticReal_sound (ts : List K) (co : Coeff K) (h : co.WF) (hn : co.nvars = 4) (hd : co.Hom 4)
    (hs : co.isCyclicDefault = true) (f : Val4 K) (hf : quarticReal ts co = some f) (a b c d : K) :
    f a b c d = evalDict co.coeffs [a,b,c,d] ∧ (0 ≤ a*b*c*d → 0 ≤ f a b c d) := by
  unfold quarticReal at hf
  by_cases h0 : co.call [4,0,0,0] = 0 ∧ co.call [3,1,0,0] = 0 ∧ co.call [3,0,1,0] = 0 ∧ co.call [3,0,0,1] = 0
  · rw [if_pos h0] at hf
    exact quarticFluorite_sound co h hn hd hs f hf a b c d
  rw [if_neg h0] at hf
  simp only at hf
  by_cases h1 : co.call [4,0,0,0] ≤ 0 ∨ poly111 co < 0
  · rw [if_pos h1] at hf; cases hf
  rw [if_neg h1] at hf
  push Not at h1
  obtain ⟨hc4, hp0⟩ := h1
  set c4000 := co.call [4,0,0,0] with e4000
  have hne : c4000 ≠ 0 := ne_of_gt hc4
  set c3100 := co.call [3,1,0,0] / c4000 with e3100
  set c3010 := co.call [3,0,1,0] / c4000 with e3010
  set c3001 := co.call [3,0,0,1] / c4000 with e3001
  set c2200 := co.call [2,2,0,0] / c4000 with e2200
  set c2110 := co.call [2,1,1,0] / c4000 with e2110
  set c2101 := co.call [2,1,0,1] / c4000 with e2101
  set c2020 := co.call [2,0,2,0] / c4000 with e2020
  set c2011 := co.call [2,0,1,1] / c4000 with e2011
  rw [eq_div_iff hne] at e3100 e3010 e3001 e2200 e2110 e2101 e2020 e2011
  by_cases h2 : c2011 + 2*c2020 + c2110 + c3001 - 4*c3010 + c3100 + 4 = 0 ∨ -(c2011 + c2110 + c3001 + c3100)/4 < 0
  · rw [if_pos h2] at hf; cases hf
  rw [if_neg h2] at hf
  push Not at h2
  obtain ⟨-, hsum⟩ := h2
  generalize -(c2011 - c2110 - c3001 + c3100)/(4*(c2011 + 2*c2020 + c2110 + c3001 - 4*c3010 + c3100 + 4)) = cz at hf
  split_ifs at hf with hdet
  split at hf
  · cases hf
  · rename_i t ht
    split at hf
    · cases hf
    · rename_i expr he
      split_ifs at hf with hcs
      push Not at hcs
      obtain ⟨k1, k2⟩ := hcs
      have := Option.some.inj hf
      subst this
      obtain ⟨e1, e2⟩ := fluoriteExpr_spec _ _ _ expr he a b c d
      have hu : 2*t^2 + 2 ≠ 0 := by positivity
      have hu' : 2*t^2 + 6 ≠ 0 := by positivity
      have hid := quartic_identity c3100 c3010 c3001 c2200 c2110 c2101 c2020 c2011 t
        (quarticParams c3100 c3010 c3001 c2200 c2110 c2101 c2020 c2011 cz t).z a b c d hu
        (quarticParams c3100 c3010 c3001 c2200 c2110 c2101 c2020 c2011 cz t) rfl rfl rfl rfl
      rw [← e1] at hid
      have hp := poly111_eq co
      rw [cycForm44 co h hn hd hs] at hp
      refine ⟨?_, ?_⟩
      · beta_reduce
        have hmul : c4000 / (2*t^2+6) * (2*t^2+6) = c4000 := div_mul_cancel₀ _ hu'
        rw [cycForm44 co h hn hd hs, hp, ← e4000, ← e3100, ← e3010, ← e3001, ← e2200, ← e2110, ← e2101, ← e2020, ← e2011]
        have h3 : cyc4 (fun a b c d => a * b * c * d) a b c d = 4 * (a*b*c*d) := by unfold cyc4; ring
        rw [h3]
        set mul := c4000 / (2*t^2+6) with hm
        linear_combination mul * hid + ((a^4 + b^4 + c^4 + d^4) + c3100 * (a^3*b + b^3*c + c^3*d + a*d^3) +
          c3010 * (a^3*c + b^3*d + a*c^3 + b*d^3) + c3001 * (a^3*d + a*b^3 + b*c^3 + c*d^3) +
          c2200 * (a^2*b^2 + b^2*c^2 + c^2*d^2 + a^2*d^2) + c2110 * (a^2*b*c + b^2*c*d + a*c^2*d + a*b*d^2) +
          c2101 * (a^2*b*d + a*b^2*c + b*c^2*d + a*c*d^2) + c2020 * (a^2*c^2 + b^2*d^2) +
          c2011 * (a^2*c*d + a*b^2*d + a*b*c^2 + b*c*d^2) -
          (4 + 4*c3100 + 4*c3010 + 4*c3001 + 4*c2200 + 4*c2110 + 4*c2101 + 2*c2020 + 4*c2011) * (a*b*c*d)) * hmul
      · intro habcd
        beta_reduce
        have hm : 0 ≤ c4000 / (2*t^2+6) := div_nonneg hc4.le (by positivity)
        have h2 : 0 ≤ cyc4 (fun a b c d => (a * b - c * d) ^ 2) a b c d := by unfold cyc4; positivity
        have h3 : 0 ≤ cyc4 (fun a b c d => a * b * c * d) a b c d := by
          have : cyc4 (fun a b c d => a * b * c * d) a b c d = 4 * (a*b*c*d) := by unfold cyc4; ring
          rw [this]; positivity
        have h4 : 0 ≤ quarticSol c3100 c3010 c3001
            (quarticParams c3100 c3010 c3001 c2200 c2110 c2101 c2020 c2011 cz t).z t a b c d := by
          unfold quarticSol cyc4; positivity
        have i1 := mul_nonneg hm h4
        have i2 := mul_nonneg hm e2
        have i3 := mul_nonneg (mul_nonneg hm k1) (sq_nonneg (cyc4 (fun a b c _ => a * b - a * c) a b c d))
        have i4 := mul_nonneg (div_nonneg (mul_nonneg hm k2) (by norm_num : (0:K) ≤ 2)) h2
        have i5 := mul_nonneg (div_nonneg hp0 (by norm_num : (0:K) ≤ 4)) h3
        linarith

/-- `Σ a⁴ + Σ a²b² − 8abcd` (four cyclic products `a²b²`). -/
def exQuartic : Coeff ℚ where
  nvars := 4
  coeffs := [([4,0,0,0],1), ([0,4,0,0],1), ([0,0,4,0],1), ([0,0,0,4],1),
    ([2,2,0,0],1), ([0,2,2,0],1), ([0,0,2,2],1), ([2,0,0,2],1), ([1,1,1,1],-8)]

example : (quarticReal [0, 1] exQuartic).isSome = true := by decide +kernel
example : exQuartic.isCyclicDefault = true := by decide +kernel
example : exQuartic.coeffs.all (fun kv => kv.1.sum == 4) = true := by decide +kernel

/-- `Σ(ab−ac)`-type quartic without fourth powers: `Σ a²b² − 4abcd` over the four cyclic products. -/
def exFluorite : Coeff ℚ where
  nvars := 4
  coeffs := [([2,2,0,0],1), ([0,2,2,0],1), ([0,0,2,2],1), ([2,0,0,2],1), ([1,1,1,1],-4)]

example : (quarticReal [] exFluorite).isSome = true := by decide +kernel

end Verif.Quaternary
