import Verif.Model.SexticSmall
import Verif.Props.SepticSymmetric

/-!
# What the solvers of sparse symmetric sextics guarantee
-/

set_option linter.unusedSectionVars false

namespace Verif.Ternary

open Verif Verif.TermsPoly Verif.Acute Verif.Dense

variable {K : Type*} [Field K] [LinearOrder K] [IsStrictOrderedRing K]

/-- A fraction with positive denominator. -/
def NumDen.Sound (N : NumDen K) : Prop := ∀ t, 0 < (N.nd t).2 ∧ t * (N.nd t).2 = (N.nd t).1

/-- The polynomials the hexagram solver is called for. -/
structure Sextic.Hexagram (f : Sextic K) : Prop where
  c600 : f.c600 = 0
  c510 : f.c510 = 0
  c501 : f.c501 = 0
  c420 : f.c420 = 0
  c402 : f.c402 = 0
  symm : f.c312 = f.c321

/-- The polynomials the tree solver is called for. -/
structure Sextic.Tree (f : Sextic K) : Prop where
  c510 : f.c510 = 0
  c501 : f.c501 = 0
  c420 : f.c420 = 0
  c402 : f.c402 = 0
  c321 : f.c321 = 0
  c312 : f.c312 = 0

theorem hex_poly {f : Sextic K} (hf : f.Hexagram) (a b c : K) : f.poly a b c =
    f.c330 * (a ^ 3 * b ^ 3 + b ^ 3 * c ^ 3 + c ^ 3 * a ^ 3) + f.c411 * (a ^ 4 * b * c + b ^ 4 * c * a + c ^ 4 * a * b) +
    f.c321 * (a ^ 3 * b ^ 2 * c + b ^ 3 * c ^ 2 * a + c ^ 3 * a ^ 2 * b + (a ^ 3 * b * c ^ 2 + b ^ 3 * c * a ^ 2 + c ^ 3 * a * b ^ 2)) + f.c222 * (a ^ 2 * b ^ 2 * c ^ 2) := by
  unfold Sextic.poly
  rw [hf.c600, hf.c510, hf.c501, hf.c420, hf.c402, hf.symm]
  ring

theorem tree_poly {f : Sextic K} (hf : f.Tree) (a b c : K) : f.poly a b c =
    f.c600 * (a ^ 6 + b ^ 6 + c ^ 6) + f.c330 * (a ^ 3 * b ^ 3 + b ^ 3 * c ^ 3 + c ^ 3 * a ^ 3) + f.c411 * (a ^ 4 * b * c + b ^ 4 * c * a + c ^ 4 * a * b) +
      f.c222 * (a ^ 2 * b ^ 2 * c ^ 2) := by
  unfold Sextic.poly
  rw [hf.c510, hf.c501, hf.c420, hf.c402, hf.c321, hf.c312]
  ring

/-! ### The last case of the hexagram -/

/-- The square of a symmetric kernel, expanded. -/
theorem hex_expand (A B C D G a b c : K) :
    cyc3 (fun a b c => c * (A * a ^ 3 * b + B * a ^ 2 * b ^ 2 + C * a ^ 2 * b * c + D * a ^ 2 * c ^ 2 + A * a * b ^ 3 + C * a * b ^ 2 * c + G * a * b * c ^ 2 + D * b ^ 2 * c ^ 2) ^ 2) a b c =
      A ^ 2 * (cyc3 (fun a b c => a ^ 6 * b ^ 2 * c + a ^ 6 * c ^ 2 * b) a b c) + D ^ 2 * (cyc3 (fun a b c => a ^ 5 * b ^ 4 + a ^ 5 * c ^ 4) a b c) +
      (2 * A * B + 2 * D * G + 2 * A * D) * (cyc3 (fun a b c => a ^ 5 * b ^ 3 * c + a ^ 5 * c ^ 3 * b) a b c) +
      (4 * A * C + 2 * D ^ 2 + G ^ 2) * (cyc3 (fun a b c => a ^ 5 * b ^ 2 * c ^ 2) a b c) + (2 * A ^ 2 + B ^ 2 + 4 * C * D) * (cyc3 (fun a b c => a ^ 4 * b ^ 4 * c) a b c) +
      (2 * A * C + 2 * B * C + 2 * C * G + 2 * C * D + 2 * B * D + 2 * A * G + C ^ 2) * (cyc3 (fun a b c => a ^ 4 * b ^ 3 * c ^ 2 + a ^ 4 * c ^ 3 * b ^ 2) a b c) +
      (12 * A * D + 6 * B * G + 6 * C ^ 2) * (a ^ 3 * b ^ 3 * c ^ 3) := by
  unfold cyc3
  ring

/-- The polynomial times `s(a)s(ab)`, expanded. -/
theorem hex_mult (x y a b c : K) :
    sumA a b c * cyc3 (fun a b _ => a * b) a b c * (cyc3 (fun a b c => a ^ 3 * b ^ 3 + x * (a ^ 4 * b * c) - y * (a ^ 3 * b ^ 2 * c + a ^ 3 * b * c ^ 2)) a b c) =
      x * (cyc3 (fun a b c => a ^ 6 * b ^ 2 * c + a ^ 6 * c ^ 2 * b) a b c) + (cyc3 (fun a b c => a ^ 5 * b ^ 4 + a ^ 5 * c ^ 4) a b c) +
      (1 + x - y) * (cyc3 (fun a b c => a ^ 5 * b ^ 3 * c + a ^ 5 * c ^ 3 * b) a b c) +
      (3 * x - 2 * y) * (cyc3 (fun a b c => a ^ 5 * b ^ 2 * c ^ 2) a b c) + (3 - 2 * y) * (cyc3 (fun a b c => a ^ 4 * b ^ 4 * c) a b c) +
      (1 + x - 5 * y) * (cyc3 (fun a b c => a ^ 4 * b ^ 3 * c ^ 2 + a ^ 4 * c ^ 3 * b ^ 2) a b c) + (-6 * y) * (a ^ 3 * b ^ 3 * c ^ 3) := by
  unfold cyc3 sumA cyc3
  ring

/-- `s(a)s(ab)p(a^2)`, expanded. -/
theorem hex_mult2 (a b c : K) : sumA a b c * cyc3 (fun a b _ => a * b) a b c * cycp3 (fun a _ _ => a ^ 2) a b c =
    cyc3 (fun a b c => a ^ 4 * b ^ 3 * c ^ 2 + a ^ 4 * c ^ 3 * b ^ 2) a b c + 3 * (a ^ 3 * b ^ 3 * c ^ 3) := by
  unfold cyc3 cycp3 sumA cyc3
  ring

/-- The identity of the last case, with the denominators cleared. -/
theorem hex_third (x y a b c : K) :
    let phi2 := 36 * x ^ 2 + 15 * x * y - 117 * x + y ^ 2 + 6 * y + 9
    let phi1 := 9 * x ^ 2 + 6 * x * y - 117 * x + y ^ 2 + 15 * y + 36
    let Q := 27 * x ^ 3 + 27 * x ^ 2 * y + 81 * x ^ 2 + 9 * x * y ^ 2 - 189 * x * y + 81 * x + y ^ 3 + 9 * y ^ 2 + 27 * y + 27
    let mult := sumA a b c * cyc3 (fun a b _ => a * b) a b c;
    -(9 * x ^ 2 + 6 * x * y - 306 * x + y ^ 2 + 6 * y + 9) * cyc3 (fun a b c => c * ((-9 * x ^ 2 - 3 * x * y + 18 * x) * a ^ 3 * b + (-9 * x ^ 2 + 9 * x + y ^ 2 - 9) * a ^ 2 * b ^ 2 +
              (9 * x ^ 2 + 3 * x * y - 3 * y - 9) * a ^ 2 * b * c + (-18 * x + 3 * y + 9) * a ^ 2 * c ^ 2 + (-9 * x ^ 2 - 3 * x * y + 18 * x) * a * b ^ 3 +
              (9 * x ^ 2 + 3 * x * y - 3 * y - 9) * a * b ^ 2 * c + (9 * x ^ 2 - 9 * x - y ^ 2 + 9) * a * b * c ^ 2 + (-18 * x + 3 * y + 9) * b ^ 2 * c ^ 2) ^ 2) a b c +
      cyc3 (fun a b c => c * (-3 * phi1 * x * a ^ 3 * b + (-3 * phi1 * x + phi1 * y + 3 * phi1 - 3 * phi2) * a ^ 2 * b ^ 2 +
              (-3 * phi1 * x + phi1 * y + 3 * phi1 + 3 * phi2 * x + phi2 * y - 3 * phi2) * a ^ 2 * b * c + -3 * phi2 * a ^ 2 * c ^ 2 + -3 * phi1 * x * a * b ^ 3 +
              (-3 * phi1 * x + phi1 * y + 3 * phi1 + 3 * phi2 * x + phi2 * y - 3 * phi2) * a * b ^ 2 * c + (-3 * phi1 * x + 3 * phi2 * x + phi2 * y - 3 * phi2) * a * b * c ^ 2 +
              -3 * phi2 * b ^ 2 * c ^ 2) ^ 2) a b c =
      324 * x * Q * (mult * cyc3 (fun a b c => a ^ 3 * b ^ 3 + x * (a ^ 4 * b * c) - y * (a ^ 3 * b ^ 2 * c + a ^ 3 * b * c ^ 2)) a b c) +
        12 * Q * (27 * x ^ 3 + 27 * x ^ 2 * y + 9 * x * y ^ 2 - 27 * x * y + (y + 3) ^ 3) * (mult * cycp3 (fun a _ _ => a ^ 2) a b c) := by
  intro phi2 phi1 Q mult
  rw [hex_expand, hex_expand, show mult = sumA a b c * cyc3 (fun a b _ => a * b) a b c from rfl, hex_mult, hex_mult2]
  generalize cyc3 (fun a b c => a ^ 6 * b ^ 2 * c + a ^ 6 * c ^ 2 * b) a b c = m1
  generalize cyc3 (fun a b c => a ^ 5 * b ^ 4 + a ^ 5 * c ^ 4) a b c = m2
  generalize cyc3 (fun a b c => a ^ 5 * b ^ 3 * c + a ^ 5 * c ^ 3 * b) a b c = m3
  generalize cyc3 (fun a b c => a ^ 5 * b ^ 2 * c ^ 2) a b c = m4
  generalize cyc3 (fun a b c => a ^ 4 * b ^ 4 * c) a b c = m5
  generalize cyc3 (fun a b c => a ^ 4 * b ^ 3 * c ^ 2 + a ^ 4 * c ^ 3 * b ^ 2) a b c = m6
  generalize a ^ 3 * b ^ 3 * c ^ 3 = m7
  simp only [phi2, phi1, Q]
  ring

theorem hexLast_ok {f : Sextic K} (hf : f.Hexagram) (h3 : 0 ≤ f.c330) {C : Cert K} (h : hexLast f = some C) : Holds f.poly C := by
  unfold hexLast at h
  split at h
  swap
  · simp at h
  rename_i h0
  have h3' : 0 < f.c330 := lt_of_le_of_ne h3 (Ne.symm h0)
  dsimp only at h
  split at h
  swap
  · simp at h
  rename_i hx
  split at h
  swap
  · simp at h
  rename_i hk
  split at h
  swap
  · simp at h
  rename_i hw
  rw [← Option.some.inj h]
  refine holds_mk ?_ ?_ ?_ ?_ ?_
  · intro a b c
    simp only [List.map_cons, List.map_nil, List.sum_cons, List.sum_nil, add_zero]
    have key := hex_third (f.c411 / f.c330) (-f.c321 / f.c330) a b c
    dsimp only at key
    have hp : f.poly a b c = f.c330 * (cyc3 (fun a b c => a ^ 3 * b ^ 3 + (f.c411 / f.c330) * (a ^ 4 * b * c) - (-f.c321 / f.c330) * (a ^ 3 * b ^ 2 * c + a ^ 3 * b * c ^ 2)) a b c) +
        f.c330 * (f.c222 / f.c330) * cycp3 (fun a _ _ => a ^ 2) a b c := by
      rw [hex_poly hf]
      simp only [cyc3, cycp3]
      field_simp
      ring
    rw [hp]
    obtain ⟨hx0, -, -⟩ := hx
    generalize f.c411 / f.c330 = x at *
    generalize -f.c321 / f.c330 = y at *
    generalize f.c222 / f.c330 = z at *
    generalize sumA a b c * cyc3 (fun a b _ => a * b) a b c = M at *
    generalize cyc3 (fun a b c => a ^ 3 * b ^ 3 + x * (a ^ 4 * b * c) - y * (a ^ 3 * b ^ 2 * c + a ^ 3 * b * c ^ 2)) a b c = F at *
    generalize cycp3 (fun a _ _ => a ^ 2) a b c = P at *
    revert key
    generalize cyc3 _ a b c = E1
    generalize cyc3 _ a b c = E2
    intro key
    have hQ : 27 * x ^ 3 + 27 * x ^ 2 * y + 81 * x ^ 2 + 9 * x * y ^ 2 - 189 * x * y + 81 * x + y ^ 3 + 9 * y ^ 2 + 27 * y + 27 ≠ 0 := by
      intro hq
      rw [hq, mul_zero] at hk
      exact lt_irrefl _ hk
    generalize 27 * x ^ 3 + 27 * x ^ 2 * y + 81 * x ^ 2 + 9 * x * y ^ 2 - 189 * x * y + 81 * x + y ^ 3 + 9 * y ^ 2 + 27 * y + 27 = Q at *
    generalize hW : -(9 * x ^ 2 + 6 * x * y - 306 * x + y ^ 2 + 6 * y + 9) = W at *
    have hx1 := hx0.ne'
    clear h hp hk hw
    have e0 : W / (324 * x * Q) * f.c330 * E1 + 1 / (324 * x * Q) * f.c330 * E2 = f.c330 / (324 * x * Q) * (W * E1 + E2) := by ring
    rw [← add_assoc, e0, key]
    field_simp
    ring
  · intro t ht
    simp only [List.mem_cons, List.not_mem_nil, or_false] at ht
    rcases ht with rfl | rfl | rfl
    · exact mul_nonneg hw.le h3
    · exact mul_nonneg (by positivity) h3
    · exact mul_nonneg (sub_nonneg.2 hx.2.2) h3
  · intro t ht a b c ho
    simp only [List.mem_cons, List.not_mem_nil, or_false] at ht
    rcases ht with rfl | rfl | rfl
    · oct_pos
    · oct_pos
    · obtain ⟨ha, hb, hc⟩ := ho
      simp only [sumA, cyc3, cycp3]
      positivity
  · intro a b c ⟨ha, hb, hc⟩
    simp only [sumA, cyc3]
    positivity
  · intro a b c ha hb hc _
    simp only [sumA, cyc3]
    positivity

/-! ### The other cases of the hexagram -/

theorem hex_first (u a b c : K) :
    2 * sumA a b c * (cyc3 (fun a b c => a ^ 4 * b * c + (u - 1) ^ 2 * (a ^ 3 * b ^ 3) - (u ^ 2 - u + 1) * (a ^ 3 * b ^ 2 * c + a ^ 3 * b * c ^ 2)) a b c + 3 * u ^ 2 * (a ^ 2 * b ^ 2 * c ^ 2)) =
      cyc3 (fun a b c => (b - c) ^ 2 * (b + c - u * a) ^ 2) a b c * prodA a b c + 2 * cyc3 (fun a b c => a * (b - c) ^ 2 * ((1 - u) * a * b + (1 - u) * a * c + u * b * c) ^ 2) a b c := by
  unfold prodA cycp3 sumA cyc3
  ring

theorem hexMid_ok {N : NumDen K} (hN : N.Sound) {f : Sextic K} (hf : f.Hexagram) (h3 : 0 ≤ f.c330) (h4 : 0 ≤ f.c411) {C : Cert K} (h : hexMid N f = .ok (some C)) :
    Holds f.poly C := by
  unfold hexMid at h
  have last : ∀ {C}, (Except.ok (hexLast f) : Except PyErr _) = .ok (some C) → Holds f.poly C := fun h => hexLast_ok hf h3 (Except.ok.inj h)
  split at h
  swap
  · exact last h
  rename_i h0
  have h4' : 0 < f.c411 := lt_of_le_of_ne h4 (Ne.symm h0)
  dsimp only at h
  split at h
  swap
  · exact last h
  rename_i hx
  split at h
  · split at h
    · simp at h
    · exact last h
  rename_i hs
  split at h
  swap
  · exact last h
  rename_i hw
  rw [← Option.some.inj (Except.ok.inj h)]
  obtain ⟨hr, -⟩ := hN ((f.c321 / f.c411 + 1) / (f.c330 / f.c411 + f.c321 / f.c411 + 1))
  refine holds_mk ?_ ?_ ?_ ?_ ?_
  · intro a b c
    simp only [List.map_cons, List.map_nil, List.sum_cons, List.sum_nil, add_zero]
    have hp : f.poly a b c = f.c411 * (cyc3 (fun a b c => a ^ 4 * b * c + (f.c330 / f.c411) * (a ^ 3 * b ^ 3) + (f.c321 / f.c411) * (a ^ 3 * b ^ 2 * c + a ^ 3 * b * c ^ 2)) a b c) +
        f.c222 * (a ^ 2 * b ^ 2 * c ^ 2) := by
      rw [hex_poly hf]
      simp only [cyc3]
      field_simp
      ring
    have hw3 : ((f.c330 + f.c411 + f.c321 * 2) + f.c222 / 3) / f.c411 * 3 * f.c411 = f.c411 * 3 * (f.c330 / f.c411 + 1 + 2 * (f.c321 / f.c411)) + f.c222 := by
      field_simp
    rw [hp, hw3]
    have e1 := hex_first 1 a b c
    generalize (N.nd ((f.c321 / f.c411 + 1) / (f.c330 / f.c411 + f.c321 / f.c411 + 1))).2 = r at *
    have e2 := hex_first ((f.c321 / f.c411 + 1) / (f.c330 / f.c411 + f.c321 / f.c411 + 1)) a b c
    have hu1 : (f.c321 / f.c411 + 1) / (f.c330 / f.c411 + f.c321 / f.c411 + 1) - 1 = - (f.c330 / f.c411) / (f.c330 / f.c411 + f.c321 / f.c411 + 1) := by
      rw [div_sub_one hs]
      congr 1
      ring
    have hx0 : 0 ≤ f.c330 / f.c411 := div_nonneg h3 h4
    have hxp : f.c330 / f.c411 ≠ 0 := by
      intro hz
      rw [hz] at hx hs
      rw [zero_add] at hs
      have := sq_nonneg (1 + 0 + f.c321 / f.c411)
      have h5 : (1 + 0 + f.c321 / f.c411) ^ 2 = 0 := le_antisymm hx this
      apply hs
      have := pow_eq_zero_iff (two_ne_zero) |>.1 h5
      linear_combination this
    -- the weights
    generalize hxe : f.c330 / f.c411 = x at *
    generalize hye : f.c321 / f.c411 = y at *
    generalize hue : (y + 1) / (x + y + 1) = u at *
    have hu2 : u - 1 ≠ 0 := by
      rw [hu1]
      exact div_ne_zero (neg_ne_zero.2 hxp) hs
    have hu3 : (x + y + 1) * (u - 1) = -x := by
      rw [hu1]
      field_simp
    have hwx : x / (u - 1) ^ 2 * (u - 1) ^ 2 = x := by field_simp
    generalize x / (u - 1) ^ 2 = w at *
    -- w (u-1)^2 = x and y + 1 + x = - w (u - 1)
    have hy : x + y + 1 = - w * (u - 1) := by
      have : (x + y + 1) * (u - 1) = (- w * (u - 1)) * (u - 1) := by
        rw [hu3]
        linear_combination hwx
      exact mul_right_cancel₀ hu2 this
    have c1 : cyc3 (fun a b c => (b - c) ^ 2 * (r * b + r * c - r * u * a) ^ 2) a b c = r ^ 2 * cyc3 (fun a b c => (b - c) ^ 2 * (b + c - u * a) ^ 2) a b c := by
      unfold cyc3
      ring
    have c2 : cyc3 (fun a b c => a * (b - c) ^ 2 * (r * (1 - u) * a * b + r * (1 - u) * a * c + r * u * b * c) ^ 2) a b c =
        r ^ 2 * cyc3 (fun a b c => a * (b - c) ^ 2 * ((1 - u) * a * b + (1 - u) * a * c + u * b * c) ^ 2) a b c := by
      unfold cyc3
      ring
    have c3 : cyc3 (fun _ b c => b * c * (b - c) ^ 2) a b c * prodA a b c = cyc3 (fun a b c => a * (b - c) ^ 2 * ((1 - 1) * a * b + (1 - 1) * a * c + 1 * b * c) ^ 2) a b c := by
      simp only [prodA, cycp3, cyc3]
      ring
    have c4 : cyc3 (fun a b c => (b - c) ^ 2 * (b + c - a) ^ 2) a b c = cyc3 (fun a b c => (b - c) ^ 2 * (b + c - 1 * a) ^ 2) a b c := by
      unfold cyc3
      ring
    rw [c1, c2, c3, c4]
    have hyy : y = - w * (u - 1) - x - 1 := by linear_combination hy
    have s1 : cyc3 (fun a b c => a ^ 4 * b * c + (u - 1) ^ 2 * (a ^ 3 * b ^ 3) - (u ^ 2 - u + 1) * (a ^ 3 * b ^ 2 * c + a ^ 3 * b * c ^ 2)) a b c =
        cyc3 (fun a b c => a ^ 4 * b * c) a b c + (u - 1) ^ 2 * cyc3 (fun a b _ => a ^ 3 * b ^ 3) a b c - (u ^ 2 - u + 1) * cyc3 (fun a b c => a ^ 3 * b ^ 2 * c + a ^ 3 * b * c ^ 2) a b c := by
      unfold cyc3
      ring
    have s2 : cyc3 (fun a b c => a ^ 4 * b * c + ((1:K) - 1) ^ 2 * (a ^ 3 * b ^ 3) - (1 ^ 2 - 1 + 1) * (a ^ 3 * b ^ 2 * c + a ^ 3 * b * c ^ 2)) a b c =
        cyc3 (fun a b c => a ^ 4 * b * c) a b c - cyc3 (fun a b c => a ^ 3 * b ^ 2 * c + a ^ 3 * b * c ^ 2) a b c := by
      unfold cyc3
      ring
    have s3 : cyc3 (fun a b c => a ^ 4 * b * c + x * (a ^ 3 * b ^ 3) + y * (a ^ 3 * b ^ 2 * c + a ^ 3 * b * c ^ 2)) a b c =
        cyc3 (fun a b c => a ^ 4 * b * c) a b c + x * cyc3 (fun a b _ => a ^ 3 * b ^ 3) a b c + y * cyc3 (fun a b c => a ^ 3 * b ^ 2 * c + a ^ 3 * b * c ^ 2) a b c := by
      unfold cyc3
      ring
    have s4 : cycp3 (fun a _ _ => a ^ 2) a b c = a ^ 2 * b ^ 2 * c ^ 2 := by
      unfold cycp3
      ring
    rw [s1] at e2
    rw [s2] at e1
    rw [s3, s4]
    generalize cyc3 (fun a b c => a ^ 4 * b * c) a b c = m1 at *
    generalize cyc3 (fun a b _ => a ^ 3 * b ^ 3) a b c = m2 at *
    generalize cyc3 (fun a b c => a ^ 3 * b ^ 2 * c + a ^ 3 * b * c ^ 2) a b c = m3 at *
    generalize a ^ 2 * b ^ 2 * c ^ 2 = m4 at *
    generalize cyc3 (fun a b c => (b - c) ^ 2 * (b + c - 1 * a) ^ 2) a b c = E1 at *
    generalize cyc3 (fun a b c => (b - c) ^ 2 * (b + c - u * a) ^ 2) a b c = E2 at *
    generalize cyc3 (fun a b c => a * (b - c) ^ 2 * ((1 - 1) * a * b + (1 - 1) * a * c + 1 * b * c) ^ 2) a b c = E3 at *
    generalize cyc3 (fun a b c => a * (b - c) ^ 2 * ((1 - u) * a * b + (1 - u) * a * c + u * b * c) ^ 2) a b c = E4 at *
    generalize sumA a b c = S at *
    generalize prodA a b c = P at *
    have hr' := hr.ne'
    have t1 : w / r ^ 2 / 2 * f.c411 * (r ^ 2 * E2 * P) = w / 2 * f.c411 * (E2 * P) := by
      field_simp
    have t2 : w / r ^ 2 * f.c411 * (r ^ 2 * E4) = w * f.c411 * E4 := by
      field_simp
    rw [t1, t2, hyy]
    rw [show x = w * (u - 1) ^ 2 from hwx.symm]
    linear_combination (-(1 - w) / 2 * f.c411) * e1 - w / 2 * f.c411 * e2
  · intro t ht
    simp only [List.mem_cons, List.not_mem_nil, or_false] at ht
    obtain ⟨g1, g2, g3, g4, g5⟩ := hw
    rcases ht with rfl | rfl | rfl | rfl | rfl
    · exact mul_nonneg g1 h4
    · exact mul_nonneg g2 h4
    · exact mul_nonneg g3 h4
    · exact mul_nonneg g4 h4
    · exact mul_nonneg g5 h4
  · intro t ht a b c ho
    simp only [List.mem_cons, List.not_mem_nil, or_false] at ht
    rcases ht with rfl | rfl | rfl | rfl | rfl
    · refine mul_nonneg ?_ (prodA_nonneg a b c ho)
      oct_pos
    · refine mul_nonneg ?_ (prodA_nonneg a b c ho)
      oct_pos
    · refine mul_nonneg ?_ (prodA_nonneg a b c ho)
      oct_pos
    · oct_pos
    · obtain ⟨ha, hb, hc⟩ := ho
      simp only [sumA, cyc3, cycp3]
      positivity
  · intro a b c ho
    exact sumA_nonneg ho
  · exact sumA_posIn

theorem schurinv6_holds {C : Cert K} (h : schurinv 6 = some C) : Holds (cyc3 fun a b c => b ^ 2 * c ^ 2 * (a - b) * (a - c)) C := by
  have h3 := schurinv_sound_partial (by norm_num) h
  exact ⟨shows_of_proves h3, fun a b c ha hb hc _ => h3.pos a b c ⟨ha.le, hb.le, hc.le⟩ fun h0 => ha.ne' h0.1⟩

/-- **C78 (hexagram).** What the solver of `s(a^3b^3 + x a^4bc + y (a^3b^2c + a^2b^3c)) + z a^2b^2c^2` answers is a complete proof. -/
theorem hexSym_sound {N : NumDen K} (hN : N.Sound) {f : Sextic K} (hf : f.Hexagram) {C : Cert K} (h : hexSym N f = .ok (some C)) : Holds f.poly C := by
  unfold hexSym at h
  split at h
  · simp at h
  rename_i h0
  push Not at h0
  obtain ⟨h3, h4⟩ := h0
  dsimp only at h
  split at h
  swap
  · exact hexMid_ok hN hf h3 h4 h
  rename_i hw
  obtain ⟨g1, g2, g3, g4, g5⟩ := hw
  split at h
  swap
  · simp at h
  rename_i I S hI hS
  rw [← Option.some.inj (Except.ok.inj h)]
  refine Holds.congr (Holds.add (Holds.add (Holds.add (Holds.plus (Holds.smul (schurinv6_holds hI) g2) (Holds.smul (Holds.times (schur3_holds hS) ?_) g3)) g1 ?_) g4 ?_) g5 ?_) ?_
  · intro a b c ho
    exact prodA_nonneg a b c ho
  · intro a b c ho
    oct_pos
  · intro a b c ho
    refine mul_nonneg ?_ (prodA_nonneg a b c ho)
    oct_pos
  · intro a b c ho
    simp only [cycp3]
    positivity
  · intro a b c
    rw [hex_poly hf]
    generalize min f.c330 f.c411 = x
    simp only [cyc3, cycp3, prodA]
    ring

/-! ### The tree -/

/-- The polynomial of `_solve_point`. -/
def treeVal (t : K) : Val3 K := fun a b c => 1 / 2 * (cyc3 (fun a b _ => a ^ 2 + t * (a * b)) a b c * cyc3 (fun a b c => (a - b) ^ 2 * (a + b - t * c) ^ 2) a b c)

theorem treePoint_ok {N : NumDen K} (hN : N.Sound) {t : K} (ht : -1 ≤ t) : ∃ C, treePoint N t = .ok C ∧ Holds (treeVal t) C := by
  unfold treePoint
  split
  · rename_i h
    refine ⟨_, rfl, holds_plain ?_ ?_ ?_⟩
    · intro a b c
      simp only [List.map_cons, List.map_nil, List.sum_cons, List.sum_nil, add_zero, treeVal, cyc3, sumA]
      rcases h with rfl | rfl <;> ring
    · intro s hs
      rw [List.mem_singleton] at hs
      rw [hs]
      norm_num
    · intro s hs a b c _
      rw [List.mem_singleton] at hs
      rw [hs]
      simp only [cyc3, sumA]
      positivity
  · obtain ⟨hp, hq⟩ := hN t
    dsimp only
    have hq' : 0 ≤ (N.nd t).2 + (N.nd t).1 := by
      rw [← hq]
      nlinarith
    obtain ⟨Q, hQ⟩ : ∃ Q, quadratic (N.nd t).2 (N.nd t).1 = some Q := by
      unfold quadratic
      rw [if_neg (by push Not; exact ⟨hp.le, hq'⟩), if_neg hp.ne']
      split
      · exact ⟨_, rfl⟩
      · exact ⟨_, rfl⟩
    rw [hQ]
    refine ⟨_, rfl, ?_⟩
    have hs := quadratic_sound hQ
    have hh : Holds (fun a b c => (N.nd t).2 * (a ^ 2 + b ^ 2 + c ^ 2) + (N.nd t).1 * (a * b + b * c + c * a)) Q :=
      ⟨shows_of_proves hs, fun a b c ha hb hc _ => hs.pos a b c ⟨ha.le, hb.le, hc.le⟩ fun h0 => ha.ne' h0.1⟩
    refine Holds.congr (Holds.smul (Holds.times hh ?_) (by positivity)) ?_
    · intro a b c ho
      oct_pos
    · intro a b c
      rw [← hq]
      generalize (N.nd t).2 = p at *
      have hp' := hp.ne'
      simp only [treeVal, cyc3]
      field_simp
      ring

theorem tree_id (t a b c : K) : treeVal t a b c =
    (a ^ 6 + b ^ 6 + c ^ 6) + (t ^ 3 - 3 * t) * (a ^ 3 * b ^ 3 + b ^ 3 * c ^ 3 + c ^ 3 * a ^ 3) - 3 * t * (t - 1) * (a ^ 4 * b * c + b ^ 4 * c * a + c ^ 4 * a * b) -
      3 * (1 + t ^ 3 - 3 * t - 3 * t * (t - 1)) * (a ^ 2 * b ^ 2 * c ^ 2) := by
  simp only [treeVal, cyc3]
  ring

theorem treeRegular_ok {N : NumDen K} (hN : N.Sound) {f : Sextic K} (hf : f.Tree) (h6 : 0 < f.c600) (hr : 0 ≤ f.c222 + (f.c600 + f.c411 + f.c330) * 3) (t : K) :
    ∃ r, treeRegular N f (f.c330 / f.c600) (f.c411 / f.c600) (f.c222 + (f.c600 + f.c411 + f.c330) * 3) t = .ok r ∧ ∀ C, r = some C → Holds f.poly C := by
  unfold treeRegular
  dsimp only
  split
  · rename_i h
    obtain ⟨ht, h1, h2⟩ := h
    obtain ⟨C, hC, hH⟩ := treePoint_ok hN ht
    rw [hC]
    refine ⟨_, rfl, ?_⟩
    intro D hD
    rw [← Option.some.inj hD]
    refine Holds.congr (Holds.add (Holds.add (Holds.add (Holds.smul hH h6.le) ?_ ?_) ?_ ?_) hr ?_) ?_
    · exact div_nonneg (mul_nonneg h6.le h1) zero_le_two
    · intro a b c ho
      obtain ⟨ha, hb, hc⟩ := ho
      simp only [cyc3]
      positivity
    · exact div_nonneg (mul_nonneg h6.le h2) zero_le_two
    · intro a b c ho
      have h1 := prodA_nonneg a b c ho
      obtain ⟨ha, hb, hc⟩ := ho
      simp only [cyc3, sumA]
      positivity
    · intro a b c ho
      simp only [cycp3]
      positivity
    · intro a b c
      rw [tree_poly hf, tree_id]
      have hu : f.c330 = f.c330 / f.c600 * f.c600 := by field_simp
      have hv : f.c411 = f.c411 / f.c600 * f.c600 := by field_simp
      generalize f.c330 / f.c600 = u at *
      generalize f.c411 / f.c600 = v at *
      rw [hu, hv]
      simp only [cyc3, cycp3, sumA, prodA]
      ring
  · exact ⟨none, rfl, fun C h => absurd h (by simp)⟩

theorem treeLoop_ok {N : NumDen K} (hN : N.Sound) {f : Sextic K} (hf : f.Tree) (h6 : 0 < f.c600) (hr : 0 ≤ f.c222 + (f.c600 + f.c411 + f.c330) * 3) (ts : List K) :
    ∃ r, treeLoop N f (f.c330 / f.c600) (f.c411 / f.c600) (f.c222 + (f.c600 + f.c411 + f.c330) * 3) ts = .ok r ∧ ∀ C, r = some C → Holds f.poly C := by
  induction ts with
  | nil => exact ⟨none, rfl, fun C h => absurd h (by simp)⟩
  | cons t ts ih =>
    unfold treeLoop
    obtain ⟨r, hr', h⟩ := treeRegular_ok hN hf h6 hr t
    rw [hr']
    cases r with
    | none => exact ih
    | some C => exact ⟨_, rfl, h⟩

/-- What a result of the tree solver may be. -/
def TreeGood (f : Sextic K) (r : Except PyErr (Option (Cert K))) : Prop :=
  (∀ C, r = .ok (some C) → Holds f.poly C) ∧
    ∀ e, r = .error e → e = .typeError ∧ (f.c600 = 0 ∧ (f.c330 < 0 ∨ f.c411 < 0) ∨ 0 < f.c600 ∧ f.c330 + f.c411 + 4 * f.c600 = 0)

/-- **C78 (tree).** What the solver of `s(a^6 + u a^3b^3 + v a^4bc) + z a^2b^2c^2` answers is a complete proof; it raises only if `c600 = 0` and another coefficient is
negative, or if `c600 + c411/4 + c330/4 = 0`. -/
theorem sexticTree_sound {N : NumDen K} (hN : N.Sound) {f : Sextic K} (hf : f.Tree) :
    (∀ C, sexticTree N f = .ok (some C) → Holds f.poly C) ∧
      (∀ e, sexticTree N f = .error e → e = .typeError ∧ (f.c600 = 0 ∧ (f.c330 < 0 ∨ f.c411 < 0) ∨ 0 < f.c600 ∧ f.c330 + f.c411 + 4 * f.c600 = 0)) := by
  change TreeGood f _
  unfold sexticTree
  dsimp only
  split
  · exact ⟨fun C h => absurd h (by simp), fun e h => absurd h (by simp)⟩
  rename_i h0
  push Not at h0
  obtain ⟨hr, h6⟩ := h0
  split
  · rename_i h1
    refine ⟨fun C h => ?_, fun e h => absurd h (by simp)⟩
    rw [← Option.some.inj (Except.ok.inj h)]
    refine holds_plain ?_ ?_ ?_
    · intro a b c
      simp only [List.map_cons, List.map_nil, List.sum_cons, List.sum_nil, add_zero]
      rw [tree_poly hf, h1.1]
      simp only [cyc3, cycp3, sumA, prodA]
      ring
    · intro t ht
      simp only [List.mem_cons, List.not_mem_nil, or_false] at ht
      rcases ht with rfl | rfl | rfl
      · exact div_nonneg h1.2.1 zero_le_two
      · exact div_nonneg h1.2.2 zero_le_two
      · exact hr
    · intro t ht a b c ho
      have h2 := prodA_nonneg a b c ho
      obtain ⟨ha, hb, hc⟩ := ho
      simp only [List.mem_cons, List.not_mem_nil, or_false] at ht
      rcases ht with rfl | rfl | rfl <;> simp only [cyc3, cycp3, sumA] <;> positivity
  rename_i h1
  split
  · rename_i h2
    refine ⟨fun C h => absurd h (by simp), fun e h => ⟨(Except.error.inj h).symm, Or.inl ⟨h2, ?_⟩⟩⟩
    by_contra hcon
    push Not at hcon
    exact h1 ⟨h2, hcon.1, hcon.2⟩
  rename_i h2
  have h6' : 0 < f.c600 := lt_of_le_of_ne h6 (Ne.symm h2)
  have loop : ∀ ts, TreeGood f (treeLoop N f (f.c330 / f.c600) (f.c411 / f.c600) (f.c222 + (f.c600 + f.c411 + f.c330) * 3) ts) := by
    intro ts
    obtain ⟨r, hr', h⟩ := treeLoop_ok hN hf h6' hr ts
    rw [hr']
    exact ⟨fun C hC => h C (Except.ok.inj hC), fun e he => absurd he (by simp)⟩
  split
  · exact ⟨fun C h => absurd h (by simp), fun e h => absurd h (by simp)⟩
  split
  swap
  · exact loop _
  rename_i h3
  split
  swap
  · exact loop _
  rename_i ht
  split
  · rename_i h4
    refine ⟨fun C h => absurd h (by simp), fun e h => ⟨(Except.error.inj h).symm, Or.inr ⟨h6', ?_⟩⟩⟩
    have : (f.c330 / f.c600 + f.c411 / f.c600 + 4) * f.c600 = 0 := by rw [h4, zero_mul]
    field_simp at this
    linear_combination this
  rename_i h4
  split
  swap
  · exact loop _
  rename_i hw
  obtain ⟨C, hC, hCH⟩ := treePoint_ok hN (show (-1 : K) ≤ 2 by norm_num)
  obtain ⟨D, hD, hDH⟩ := treePoint_ok hN ht
  rw [hC, hD]
  refine ⟨fun E hE => ?_, fun e h => absurd h (by simp)⟩
  rw [← Option.some.inj (Except.ok.inj hE)]
  refine Holds.congr (Holds.add (Holds.plus (Holds.smul hCH (mul_nonneg h6 hw.1)) (Holds.smul hDH (mul_nonneg h6 (sub_nonneg.2 hw.2)))) hr ?_) ?_
  · intro a b c ho
    simp only [cycp3]
    positivity
  · intro a b c
    rw [tree_poly hf, tree_id, tree_id]
    have hu : f.c330 = f.c330 / f.c600 * f.c600 := by field_simp
    have hv : f.c411 = f.c411 / f.c600 * f.c600 := by field_simp
    generalize f.c330 / f.c600 = u at *
    generalize f.c411 / f.c600 = v at *
    have hv6 : v + 6 ≠ 0 := fun h => h3.1 (by linear_combination h)
    have hu2 : u - 2 ≠ 0 := sub_ne_zero.2 h3.2
    have k2 : 1 - (27 * u ^ 2 + 27 * u * v + 54 * u + v ^ 3 + 18 * v ^ 2 + 54 * v) / (27 * (u - 2) * (u + v + 4)) = -(v + 6) ^ 3 / (27 * (u - 2) * (u + v + 4)) := by
      field_simp
      ring
    have k3 : 1 - (27 * u ^ 2 + 27 * u * v + 54 * u + v ^ 3 + 18 * v ^ 2 + 54 * v) / (27 * (u - 2) * (u + v + 4)) + (27 * u ^ 2 + 27 * u * v + 54 * u + v ^ 3 + 18 * v ^ 2 + 54 * v) / (27 * (u - 2) * (u + v + 4)) = 1 := by
      ring
    rw [k2] at k3 ⊢
    generalize (27 * u ^ 2 + 27 * u * v + 54 * u + v ^ 3 + 18 * v ^ 2 + 54 * v) / (27 * (u - 2) * (u + v + 4)) = w1 at *
    have k1 : w1 = 1 - -(v + 6) ^ 3 / (27 * (u - 2) * (u + v + 4)) := by linear_combination k3
    have e1 : w1 * 2 + -(v + 6) ^ 3 / (27 * (u - 2) * (u + v + 4)) * ((-(3 * u + v) / (v + 6)) ^ 3 - 3 * (-(3 * u + v) / (v + 6))) = u := by
      rw [k1]
      field_simp
      ring
    have e2 : w1 * (-6) + -(v + 6) ^ 3 / (27 * (u - 2) * (u + v + 4)) * (-3 * (-(3 * u + v) / (v + 6)) * (-(3 * u + v) / (v + 6) - 1)) = v := by
      rw [k1]
      field_simp
      ring
    rw [hu, hv]
    generalize -(v + 6) ^ 3 / (27 * (u - 2) * (u + v + 4)) = w2 at *
    generalize -(3 * u + v) / (v + 6) = t at *
    simp only [cycp3]
    linear_combination f.c600 * (a ^ 6 + b ^ 6 + c ^ 6 - 3 * (a ^ 2 * b ^ 2 * c ^ 2)) * k3 + f.c600 * (a ^ 3 * b ^ 3 + b ^ 3 * c ^ 3 + c ^ 3 * a ^ 3 - 3 * (a ^ 2 * b ^ 2 * c ^ 2)) * e1 +
      f.c600 * (a ^ 4 * b * c + b ^ 4 * c * a + c ^ 4 * a * b - 3 * (a ^ 2 * b ^ 2 * c ^ 2)) * e2

/-! ### When they raise -/

/-- The hexagram solver raises only for `c330 = 0` and `c321 = -c411 < 0`, and then the polynomial is negative at `(1, 1, 1)`. -/
theorem hexSym_error {N : NumDen K} {f : Sextic K} (hf : f.Hexagram) {e : PyErr} (h : hexSym N f = .error e) :
    e = .typeError ∧ f.c330 = 0 ∧ f.c321 = -f.c411 ∧ 0 < f.c411 ∧ f.poly 1 1 1 < 0 := by
  unfold hexSym at h
  split at h
  · simp at h
  rename_i h0
  push Not at h0
  obtain ⟨h3, h4⟩ := h0
  dsimp only at h
  split at h
  · rw [show (schurinv 6 : Option (Cert K)) = some _ from rfl, show (schur 3 : Option (Cert K)) = some _ from rfl] at h
    simp at h
  rename_i hn
  unfold hexMid at h
  split at h
  swap
  · simp at h
  rename_i h40
  have h4' : 0 < f.c411 := lt_of_le_of_ne h4 (Ne.symm h40)
  dsimp only at h
  split at h
  swap
  · simp at h
  split at h
  swap
  · split at h <;> simp at h
  rename_i hs
  split at h
  swap
  · simp at h
  rename_i hy
  have hy' : f.c321 = -f.c411 := by
    have h5 : f.c321 / f.c411 = -1 := by linear_combination hy
    rw [div_eq_iff h40] at h5
    linear_combination h5
  have hx' : f.c330 = 0 := by
    have h5 : f.c330 / f.c411 = 0 := by linear_combination hs - hy
    rw [div_eq_iff h40] at h5
    linear_combination h5
  refine ⟨(Except.error.inj h).symm, hx', hy', h4', ?_⟩
  by_contra hcon
  push Not at hcon
  rw [hex_poly hf] at hcon
  apply hn
  rw [min_eq_left (by rw [hx']; exact h4), hx', hy'] at *
  refine ⟨le_refl _, by linarith, by linarith, by linarith, ?_⟩
  linarith

/-- The tree solver raises on `s((a^3 - 2abc)^2)`, which is a sum of squares: `u + v + 4 = 0` makes its weight infinite. -/
theorem sexticTree_raises (N : NumDen ℚ) : ∃ f : Sextic ℚ, f.Tree ∧ (∀ a b c, f.poly a b c = (a ^ 3 - 2 * (a * b * c)) ^ 2 + (b ^ 3 - 2 * (a * b * c)) ^ 2 + (c ^ 3 - 2 * (a * b * c)) ^ 2) ∧
    sexticTree N f = .error .typeError := by
  refine ⟨⟨1, 0, 0, 0, -4, 0, 0, 0, 0, 12⟩, ⟨rfl, rfl, rfl, rfl, rfl, rfl⟩, ?_, ?_⟩
  · intro a b c
    simp only [Sextic.poly]
    ring
  · unfold sexticTree
    norm_num

/-! ### `rationalize_func` -/

/-- A rational number from `nroots` is a root. -/
def CandsExact (poly : K → K) (cs : List (Cand K)) : Prop := ∀ t, Cand.exact t ∈ cs → poly t = 0

/-- The number was offered: as a rational root, or by `rationalize_bound` for a root that passed `validation_initial`. -/
def Offered (cs : List (Cand K)) (t : K) : Prop := Cand.exact t ∈ cs ∨ ∃ ts, Cand.approx true ts ∈ cs ∧ t ∈ ts

theorem rfBound_spec {poly : K → K} {d : K} {v : K → Except PyErr Bool} {ts : List K} {t : K} (h : rfBound poly d v ts = .ok (some t)) :
    t ∈ ts ∧ 0 ≤ poly t * d ∧ v t = .ok true := by
  induction ts with
  | nil => simp [rfBound] at h
  | cons s ts ih =>
    unfold rfBound at h
    split at h
    · rename_i hs
      split at h
      · simp at h
      · rename_i hv
        cases Option.some.inj (Except.ok.inj h)
        exact ⟨List.mem_cons_self, hs, hv⟩
      · obtain ⟨h1, h2⟩ := ih h
        exact ⟨List.mem_cons_of_mem _ h1, h2⟩
    · obtain ⟨h1, h2⟩ := ih h
      exact ⟨List.mem_cons_of_mem _ h1, h2⟩

/-- **C78 (search).** A number from `rationalize_func` was offered, passes the validation, and the polynomial has there the wanted sign or is zero. -/
theorem rationalizeFunc_sound {poly : K → K} {d : K} {v : K → Except PyErr Bool} {cs : List (Cand K)} (hc : CandsExact poly cs) {t : K}
    (h : rationalizeFunc poly d v cs = .ok (some t)) : Offered cs t ∧ 0 ≤ poly t * d ∧ v t = .ok true := by
  induction cs with
  | nil => simp [rationalizeFunc] at h
  | cons c cs ih =>
    have hc' : CandsExact poly cs := fun s hs => hc s (List.mem_cons_of_mem _ hs)
    have up : Offered cs t → Offered (c :: cs) t := fun ho => ho.imp (List.mem_cons_of_mem _) fun ⟨ts, h1, h2⟩ => ⟨ts, List.mem_cons_of_mem _ h1, h2⟩
    cases c with
    | exact s =>
      unfold rationalizeFunc at h
      split at h
      · simp at h
      · rename_i hv
        cases Option.some.inj (Except.ok.inj h)
        refine ⟨Or.inl List.mem_cons_self, ?_, hv⟩
        rw [hc _ List.mem_cons_self, zero_mul]
      · exact ⟨up (ih hc' h).1, (ih hc' h).2⟩
    | approx i ts =>
      unfold rationalizeFunc at h
      split at h
      · rename_i hi
        split at h
        · simp at h
        · rename_i s hs
          cases Option.some.inj (Except.ok.inj h)
          obtain ⟨h1, h2⟩ := rfBound_spec hs
          exact ⟨Or.inr ⟨ts, by rw [hi]; exact List.mem_cons_self, h1⟩, h2⟩
        · exact ⟨up (ih hc' h).1, (ih hc' h).2⟩
      · exact ⟨up (ih hc' h).1, (ih hc' h).2⟩

/-- If nothing is found, every rational root and every number offered with the wanted sign failed the validation. -/
theorem rationalizeFunc_none {poly : K → K} {d : K} {v : K → Except PyErr Bool} {cs : List (Cand K)} (hc : CandsExact poly cs)
    (h : rationalizeFunc poly d v cs = .ok none) : ∀ t, Offered cs t → 0 ≤ poly t * d → v t = .ok false := by
  have hb : ∀ ts, rfBound poly d v ts = .ok none → ∀ t ∈ ts, 0 ≤ poly t * d → v t = .ok false := by
    intro ts
    induction ts with
    | nil =>
      intro _ t ht
      simp at ht
    | cons s ts ih =>
      intro h t ht hp
      unfold rfBound at h
      split at h
      · split at h
        · simp at h
        · simp at h
        · rename_i hv
          rcases List.mem_cons.1 ht with rfl | ht
          · exact hv
          · exact ih h t ht hp
      · rename_i hs
        rcases List.mem_cons.1 ht with rfl | ht
        · exact absurd hp hs
        · exact ih h t ht hp
  induction cs with
  | nil =>
    rintro t (h | ⟨ts, h, _⟩)
    · simp at h
    · simp at h
  | cons c cs ih =>
    have hc' : CandsExact poly cs := fun s hs => hc s (List.mem_cons_of_mem _ hs)
    intro t ho hp
    cases c with
    | exact s =>
      unfold rationalizeFunc at h
      split at h
      · simp at h
      · simp at h
      · rename_i hv
        rcases ho with h1 | ⟨ts, h1, h2⟩
        · rcases List.mem_cons.1 h1 with h1 | h1
          · cases h1
            exact hv
          · exact ih hc' h t (Or.inl h1) hp
        · rcases List.mem_cons.1 h1 with h1 | h1
          · cases h1
          · exact ih hc' h t (Or.inr ⟨ts, h1, h2⟩) hp
    | approx i ts =>
      unfold rationalizeFunc at h
      split at h
      · split at h
        · simp at h
        · simp at h
        · rename_i hr
          rcases ho with h1 | ⟨ts', h1, h2⟩
          · rcases List.mem_cons.1 h1 with h1 | h1
            · cases h1
            · exact ih hc' h t (Or.inl h1) hp
          · rcases List.mem_cons.1 h1 with h1 | h1
            · cases h1
              exact hb ts hr t h2 hp
            · exact ih hc' h t (Or.inr ⟨ts', h1, h2⟩) hp
      · rename_i hi
        rcases ho with h1 | ⟨ts', h1, h2⟩
        · rcases List.mem_cons.1 h1 with h1 | h1
          · cases h1
          · exact ih hc' h t (Or.inl h1) hp
        · rcases List.mem_cons.1 h1 with h1 | h1
          · cases h1
            exact absurd rfl hi
          · exact ih hc' h t (Or.inr ⟨ts', h1, h2⟩) hp

/-! ### Cases that meet the hypotheses -/

/-- `as_numer_denom` of a rational number. -/
def exND : NumDen ℚ := ⟨fun t => (t.num, t.den)⟩

theorem exND_sound : exND.Sound := by
  intro t
  refine ⟨?_, ?_⟩
  · change (0 : ℚ) < (t.den : ℚ)
    exact_mod_cast t.den_pos
  change t * (t.den : ℚ) = (t.num : ℚ)
  exact Rat.mul_den_eq_num t

/-- `s(a^3b^3 + a^4bc - a^3b^2c - a^2b^3c)`, the first case of the hexagram. -/
theorem hexSym_ex1 : answered (hexSym exND ⟨0, 0, 0, 0, 1, 0, 1, -1, -1, 0⟩) := by decide +kernel

/-- `s(4a^3b^3 + a^4bc - 7(a^3b^2c + a^2b^3c)) + 27a^2b^2c^2`, the second case. -/
theorem hexSym_ex2 : answered (hexSym exND ⟨0, 0, 0, 0, 1, 0, 4, -7, -7, 27⟩) := by decide +kernel

/-- `s(a^3b^3 + a^4bc/2 - 3(a^3b^2c + a^2b^3c)) + 18a^2b^2c^2`, the last case. -/
theorem hexSym_ex3 : answered (hexSym exND ⟨0, 0, 0, 0, 1 / 2, 0, 1, -3, -3, 18⟩) := by decide +kernel

/-- `s(2a^6 - 36a^4bc + 36a^3b^3 - 2a^2b^2c^2)`, from the documentation. -/
theorem sexticTree_ex1 : answered (sexticTree exND ⟨2, 0, 0, 0, -36, 0, 36, 0, 0, -6⟩) := by decide +kernel

/-- `s(a^6 + 4a^3b^3 - 7a^4bc + 2a^2b^2c^2)`, from the documentation, which the loop answers. -/
theorem sexticTree_ex2 : answered (sexticTree exND ⟨1, 0, 0, 0, -7, 0, 4, 0, 0, 6⟩) := by decide +kernel

/-- The search skips a root that fails the validation and takes the next one. -/
theorem rationalizeFunc_ex : rationalizeFunc (fun t : ℚ => (t - 1) * (t ^ 2 - 2)) 1 (fun t => .ok (decide (1 < t))) [.exact 1, .approx true [1, 3 / 2, 2]] = .ok (some (3 / 2)) := by
  decide +kernel

end Verif.Ternary
