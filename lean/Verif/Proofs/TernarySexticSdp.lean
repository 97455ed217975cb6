import Verif.Proofs.TernarySextic

/-! # Identities behind the quadratic forms of the ternary sextic solver -/

namespace Verif.Ternary

variable {K : Type*} [Field K] [LinearOrder K] [IsStrictOrderedRing K]

set_option linter.unusedSectionVars false

/-- The hexagon as a quadratic form and a remainder (sextic.py 602-647). -/
theorem id_sdp (f : Sextic K) (h6 : f.c600 = 0 ∧ f.c510 = 0 ∧ f.c501 = 0) (r x y : K) (h1 : f.c411 - f.c330 = 6 * r * y * (1 - x))
    (h2 : 6 * f.c420 + 3 * f.c330 + f.c321 - 2 * f.c402 = 6 * r * (-y ^ 2 - 2 * y + 2 * x ^ 2 + x * y - 2 * x + 2))
    (h3 : -2 * f.c420 + 3 * f.c330 + 6 * f.c402 + f.c312 = 6 * r * (2 * y ^ 2 - 2 * y - x ^ 2 + x * y + x - 1)) (a b c : K) :
    f.poly a b c = r * sdpExpr x y a b c + f.poly111 * cycp3 (fun a _ _ => a ^ 2) a b c +
      ((f.c420 - 2 * r * (x ^ 2 - x + 1)) * cyc3 (fun a b c => a ^ 2 * b - a * b * c) a b c ^ 2 +
        (f.c330 - 2 * r * y * (x - 2)) * (cyc3 (fun a b c => a ^ 2 * b - a * b * c) a b c * cyc3 (fun a b c => a * b ^ 2 - a * b * c) a b c) +
        (f.c402 - 2 * r * y ^ 2) * cyc3 (fun a b c => a * b ^ 2 - a * b * c) a b c ^ 2) := by
  obtain ⟨z1, z2, z3⟩ := h6
  obtain ⟨c600, c510, c501, c420, c411, c402, c330, c321, c312, c222⟩ := f
  dsimp only at *
  subst z1 z2 z3
  have e1 : c411 = c330 + 6 * r * y * (1 - x) := by linear_combination h1
  have e2 : c321 = 6 * r * (-y ^ 2 - 2 * y + 2 * x ^ 2 + x * y - 2 * x + 2) - 6 * c420 - 3 * c330 + 2 * c402 := by linear_combination h2
  have e3 : c312 = 6 * r * (2 * y ^ 2 - 2 * y - x ^ 2 + x * y + x - 1) + 2 * c420 - 3 * c330 - 6 * c402 := by linear_combination h3
  subst e1 e2 e3
  simp only [Sextic.poly, Sextic.poly111, sdpExpr, cyc3, cycp3]
  ring

theorem sdp_pars {A B C p1 p2 p3 : K} (e1 : p1 = 2 * B ^ 2 + 5 * B * C + 2 * C ^ 2 + 9 * A * (B + C)) (e3 : p3 = 3 * A + B + C)
    (e2 : p2 = 3 * p3 * (2 * C + B + 3 * A) - p1) (h1 : p1 ≠ 0) (h2 : p2 ≠ 0) (h3 : p3 ≠ 0) :
    let r := p1 ^ 2 / p2 / 54 / p3
    let x := 9 * A * p3 / p1 + 1
    let y := -p2 / p1
    A = 6 * r * y * (1 - x) ∧ B = 6 * r * (-y ^ 2 - 2 * y + 2 * x ^ 2 + x * y - 2 * x + 2) ∧ C = 6 * r * (2 * y ^ 2 - 2 * y - x ^ 2 + x * y + x - 1) := by
  dsimp only
  refine ⟨?_, ?_, ?_⟩
  · field_simp
    ring
  · field_simp
    rw [e2, e3, e1]
    ring
  · field_simp
    rw [e2, e3, e1]
    ring

/-- The full sextic as a quadratic form and a remainder (sextic.py 862-966). -/
theorem id_full (f : Sextic K) (h0 : f.poly111 = 0) (r u v x y : K)
    (h1 : f.rest0 = r * (6 * y - 6 * x + 6 * v * y + 6 * v * x - 6 * v + 6 * u * y + 6 * u + 18))
    (h2 : f.rest1 = -r * (6 * y ^ 2 + 6 * x ^ 2 + 6 * x * y - 36 * x - 12 * v ^ 2 + 12 * v * y + 6 * v * x - 12 * u ^ 2 + 6 * u * y - 6 * u * x - 12 * u * v - 18 * u + 18))
    (h3 : f.rest2 = -r * (-12 * y ^ 2 - 12 * x ^ 2 - 12 * x * y + 18 * x + 6 * v ^ 2 + 12 * v * y + 6 * v * x + 6 * u ^ 2 + 6 * u * y - 6 * u * x + 6 * u * v + 36 * u + 18))
    (a b c : K) : f.poly a b c = r * fullExpr u v x y a b c +
      ((f.c600 - 2 * r) * cyc3 (fun a b c => a ^ 3 - a * b * c) a b c ^ 2 +
        2 * (f.c510 / 2 - r * (u - v)) * (cyc3 (fun a b c => a ^ 3 - a * b * c) a b c * cyc3 (fun a b c => a ^ 2 * b - a * b * c) a b c) +
        2 * (f.c501 / 2 - r * (y - x)) * (cyc3 (fun a b c => a ^ 3 - a * b * c) a b c * cyc3 (fun a b c => a * b ^ 2 - a * b * c) a b c) +
        (f.c420 - f.c501 - r * (2 * u ^ 2 + 2 * u * v + 2 * v ^ 2 + 6 * x)) * cyc3 (fun a b c => a ^ 2 * b - a * b * c) a b c ^ 2 +
        2 * (f.c330 / 2 - f.c600 - r * (2 * u * x - 2 * u * y - 2 * v * x - 4 * v * y - 6) / 2) *
          (cyc3 (fun a b c => a ^ 2 * b - a * b * c) a b c * cyc3 (fun a b c => a * b ^ 2 - a * b * c) a b c) +
        (f.c402 - f.c510 - r * (-6 * u + 2 * x ^ 2 + 2 * x * y + 2 * y ^ 2)) * cyc3 (fun a b c => a * b ^ 2 - a * b * c) a b c ^ 2) := by
  obtain ⟨c600, c510, c501, c420, c411, c402, c330, c321, c312, c222⟩ := f
  simp only [Sextic.rest0, Sextic.rest1, Sextic.rest2, Sextic.poly111] at *
  have e1 : c411 = r * (6 * y - 6 * x + 6 * v * y + 6 * v * x - 6 * v + 6 * u * y + 6 * u + 18) - (3 * c501 - c330 + 3 * c510 + 8 * c600) := by linear_combination h1
  have e2 : c321 = -r * (6 * y ^ 2 + 6 * x ^ 2 + 6 * x * y - 36 * x - 12 * v ^ 2 + 12 * v * y + 6 * v * x - 12 * u ^ 2 + 6 * u * y - 6 * u * x - 12 * u * v - 18 * u + 18) -
    (-6 * c501 - 2 * c402 + 3 * c330 + 6 * c420 + 4 * c510 - 6 * c600) := by linear_combination h2
  have e3 : c312 = -r * (-12 * y ^ 2 - 12 * x ^ 2 - 12 * x * y + 18 * x + 6 * v ^ 2 + 12 * v * y + 6 * v * x + 6 * u ^ 2 + 6 * u * y - 6 * u * x + 6 * u * v + 36 * u + 18) -
    (4 * c501 + 6 * c402 + 3 * c330 - 2 * c420 - 6 * c510 - 6 * c600) := by linear_combination h3
  have e4 : c222 = -(3 * (c600 + c510 + c501 + c420 + c411 + c402 + c330 + c321 + c312)) := by linear_combination h0
  clear h0 h1 h2 h3
  rw [e4, e1, e2, e3]
  simp only [Sextic.poly, fullExpr, cyc3]
  ring

theorem full_pars1 {r1 r2 d : K} (hd : d = (r1 + 2 * r2 + 9 / 2) ^ 2 + 27 / 4) (h0 : d ≠ 0) (x y : K) :
    let u := ((2 * r1 ^ 2 + 5 * r1 * r2 + 9 * r1 + 2 * r2 ^ 2 + 9 * r2) * x + (2 * r1 ^ 2 + 5 * r1 * r2 + 18 * r1 + 2 * r2 ^ 2 + 18 * r2 + 27) * y +
        (-4 * r1 ^ 2 - 13 * r1 * r2 - 18 * r1 - 10 * r2 ^ 2 - 36 * r2 - 27)) / d
    let v := ((9 * r1 + 9 * r2 + 27) * x + (-2 * r1 ^ 2 - 5 * r1 * r2 - 9 * r1 - 2 * r2 ^ 2 - 9 * r2) * y +
        (-r1 ^ 2 - r1 * r2 - 18 * r1 + 2 * r2 ^ 2 - 9 * r2 - 27)) / d
    (6 * y - 6 * x + 6 * v * y + 6 * v * x - 6 * v + 6 * u * y + 6 * u + 18) * d = 54 * (r1 + r2 + 3) * fullZ x y ∧
    -(6 * y ^ 2 + 6 * x ^ 2 + 6 * x * y - 36 * x - 12 * v ^ 2 + 12 * v * y + 6 * v * x - 12 * u ^ 2 + 6 * u * y - 6 * u * x - 12 * u * v - 18 * u + 18) * d =
      54 * (r1 + r2 + 3) * fullZ x y * r1 ∧
    -(-12 * y ^ 2 - 12 * x ^ 2 - 12 * x * y + 18 * x + 6 * v ^ 2 + 12 * v * y + 6 * v * x + 6 * u ^ 2 + 6 * u * y - 6 * u * x + 6 * u * v + 36 * u + 18) * d =
      54 * (r1 + r2 + 3) * fullZ x y * r2 := by
  dsimp only
  unfold fullZ
  refine ⟨?_, ?_, ?_⟩ <;> field_simp <;> rw [hd] <;> ring

theorem full_pars2 {r1 d : K} (hd : d = 2 * r1 + 1) (h0 : d ≠ 0) (x y : K) :
    let u := ((r1 + 2) * x + (r1 + 2) * y + (-5 * r1 - 4)) / d
    let v := ((-r1 - 2) * y + (r1 - 1)) / d
    (6 * y - 6 * x + 6 * v * y + 6 * v * x - 6 * v + 6 * u * y + 6 * u + 18) = 0 ∧
    -(6 * y ^ 2 + 6 * x ^ 2 + 6 * x * y - 36 * x - 12 * v ^ 2 + 12 * v * y + 6 * v * x - 12 * u ^ 2 + 6 * u * y - 6 * u * x - 12 * u * v - 18 * u + 18) * d ^ 2 =
      54 * (r1 + 1) * fullZ x y ∧
    -(-12 * y ^ 2 - 12 * x ^ 2 - 12 * x * y + 18 * x + 6 * v ^ 2 + 12 * v * y + 6 * v * x + 6 * u ^ 2 + 6 * u * y - 6 * u * x + 6 * u * v + 36 * u + 18) * d ^ 2 =
      54 * (r1 + 1) * fullZ x y * r1 := by
  dsimp only
  unfold fullZ
  refine ⟨?_, ?_, ?_⟩ <;> field_simp <;> rw [hd] <;> ring

end Verif.Ternary
