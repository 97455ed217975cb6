import Verif.Model.SexticIran
import Verif.Props.SexticHexagonMain
import Verif.Props.TernaryQuintic
import Verif.Props.TernaryQuinticMain

/-!
# What the solver of symmetric sextics without `a^6` guarantees
-/

set_option linter.unusedSectionVars false

namespace Verif.Ternary

open Verif Verif.Acute Verif.Dense

variable {K : Type*} [Field K] [LinearOrder K] [IsStrictOrderedRing K]

/-- Symmetric sextics. -/
structure Sextic.Symm (f : Sextic K) : Prop where
  c501 : f.c501 = f.c510
  c402 : f.c402 = f.c420
  c312 : f.c312 = f.c321

/-- The polynomial with the coefficients of `a^6`, `a^5 b`, `a^4 b^2`, `a^3 b^3`, `a^4 bc`, `a^3 b^2 c`, `a^2 b^2 c^2`. -/
def symV (l m p q w z r : K) : Val3 K := fun a b c =>
  l * (a ^ 6 + b ^ 6 + c ^ 6) + m * (a ^ 5 * (b + c) + b ^ 5 * (c + a) + c ^ 5 * (a + b)) + symHexV p w q z r a b c

theorem symm_poly {f : Sextic K} (hf : f.Symm) (a b c : K) : f.poly a b c = symV f.c600 f.c510 f.c420 f.c330 f.c411 f.c321 f.c222 a b c := by
  unfold Sextic.poly symV symHexV
  rw [hf.c501, hf.c402, hf.c312]
  ring

theorem symm_111 {f : Sextic K} (hf : f.Symm) : f.poly 1 1 1 = f.fullRem := by
  rw [symm_poly hf, symV, symHexV, Sextic.fullRem]; ring

theorem a2V_nonneg (a b c : K) : 0 ≤ a2V a b c := by simp only [a2V, cycp3]; positivity

theorem hx1_nonneg {a b c : K} (h : Octant a b c) : 0 ≤ hx1 a b c := by unfold hx1; oct_pos

theorem s1V_nonneg {a b c : K} (h : Octant a b c) : 0 ≤ s1V a b c := by unfold s1V; oct_pos

theorem hx2_nonneg {a b c : K} (h : Octant a b c) : 0 ≤ hx2 a b c := mul_nonneg (s1V_nonneg h) (prodA_nonneg _ _ _ h)

/-- **The first two cases are proofs; the third proves the polynomial without its value at `(1, 1, 1)`.** -/
theorem schurCases_sound {f : Sextic K} (hf : f.Symm) {C : Cert K} (h : schurCases f = some C) :
    Holds f.poly C ∨ Holds (fun a b c => f.poly a b c - f.poly 1 1 1 * (a * b * c) ^ 2) C := by
  unfold schurCases at h
  dsimp only at h
  split at h
  · rename_i hc
    obtain ⟨⟨g1, g2, g3, g4, g5, g6⟩, g0⟩ := hc
    left
    rw [← Option.some.inj h]
    refine holds_plain ?_ ?_ ?_
    · intro a b c
      rw [symm_poly hf]
      simp only [List.map_cons, List.map_nil, List.sum_cons, List.sum_nil, cyc3, discV, a2V, cycp3, Sextic.fullRem, symV, symHexV]
      ring
    · each_mem
      · exact g0
      · exact zero_le_one
      · dsimp only; linarith
      · exact g5
      · exact g6
    · each_mem
      · intro a b c _; exact discV_nonneg a b c
      · oct_sum
      · oct_sum
      · oct_sum
      · intro a b c _; exact a2V_nonneg a b c
  split at h
  · rename_i hc
    obtain ⟨⟨g1, g2, g3, g4, g5, g6⟩, g0⟩ := hc
    left
    rw [← Option.some.inj h]
    refine holds_sumY ?_ ?_ ?_
    · intro a b c
      rw [symm_poly hf]
      simp only [List.map_cons, List.map_nil, List.sum_cons, List.sum_nil, cyc3, discV, a2V, cycp3, Sextic.fullRem, symV, symHexV]
      ring
    · each_mem
      all_goals assumption
    · each_mem
      · intro _ a b c _; exact discV_nonneg a b c
      · intro _; oct_sum
      · intro _; oct_sum
      · intro _ a b c _; exact sq_nonneg _
      · intro _; oct_sum
      · intro _; oct_sum
      · intro _ a b c _; exact a2V_nonneg a b c
  split at h
  · rename_i hc
    obtain ⟨g0, g1, g2, g3, g4, g5⟩ := hc
    right
    rw [← Option.some.inj h]
    refine holds_sumY ?_ ?_ ?_
    · intro a b c
      rw [symm_111 hf, symm_poly hf]
      simp only [List.map_cons, List.map_nil, List.sum_cons, List.sum_nil, cyc3, discV, cycp3, Sextic.fullRem, symV, symHexV]
      ring
    · each_mem
      all_goals assumption
    · each_mem
      · intro _; oct_sum
      · intro _; oct_sum
      · intro _; oct_sum
      · intro _; oct_sum
      · intro _; oct_sum
      · intro _ a b c _; exact discV_nonneg a b c
  · simp at h

/-- `sos_struct_liftfree_for_six` proves the product with `a+b+c`. -/
def LiftSound (lift : Sextic K → Except PyErr (Option (Cert K))) : Prop := ∀ f C, lift f = .ok (some C) → Holds (fun a b c => sumA a b c * f.poly a b c) C

theorem schurSplit_sound {X : IranExt K} (hX : LiftSound X.lift) {f : Sextic K} (hf : f.Symm) {C : Cert K} (h : schurSplit X f = .ok (some C)) :
    Holds f.poly C ∨ Holds (fun a b c => f.poly a b c - f.poly 1 1 1 * (a * b * c) ^ 2) C := by
  unfold schurSplit at h
  split at h
  · rename_i C' hC
    rw [← Option.some.inj (Except.ok.inj h)]
    exact schurCases_sound hf hC
  · cases hl : X.lift f with
    | error e => rw [hl] at h; simp [Except.map] at h
    | ok r =>
      rw [hl] at h
      obtain ⟨C', rfl, rfl⟩ := Option.map_eq_some_iff.1 (Except.ok.inj h)
      left
      exact (hX f C' hl).over (fun _ _ _ => rfl) (fun _ _ _ h => sumA_nonneg h) fun a b c ha hb hc _ => by simp only [sumA, cyc3]; positivity

/-- Symmetric sextics without `a^6`, with a positive coefficient of `a^5 b`. -/
structure Sextic.Iran (f : Sextic K) : Prop where
  symm : f.Symm
  c600 : f.c600 = 0
  pos : 0 < f.c510

/-- **Easy cases 2 and 3 prove the polynomial, or less than it**: easy case 3 forgets three times the weight of `CyclicSum(a*b*(a-c)**2*(b-c)**2)`. -/
theorem iranEasy_sound {f : Sextic K} (hf : f.Iran) {C : Cert K} (h : iranEasy f = .ok (some C)) : ∃ k, 0 ≤ k ∧ Holds (fun a b c => f.poly a b c - k * hx2 a b c) C := by
  have hm := hf.pos
  have hm0 := hm.ne'
  unfold iranEasy at h
  dsimp only at h
  split at h
  swap
  · simp at h
  rename_i hp
  obtain ⟨hp0, hq⟩ := hp
  split at h
  · rename_i hc
    obtain ⟨g1, g2, g3⟩ := hc
    rw [← Option.some.inj (Except.ok.inj h)]
    refine ⟨0, le_refl _, ?_⟩
    simp only [zero_mul, sub_zero]
    refine holds_sumY ?_ ?_ ?_
    · intro a b c
      rw [symm_poly hf.symm]
      simp only [List.map_cons, List.map_nil, List.sum_cons, List.sum_nil, cyc3, discV, a2V, cycp3, Sextic.fullRem, symV, symHexV, hx1, hx2, s1V, prodA, hf.c600]
      field_simp
      ring
    · each_mem
      all_goals assumption
    · each_mem
      · intro _; oct_sum
      · intro _ a b c _; exact discV_nonneg a b c
      · intro _ a b c h; exact hx1_nonneg h
      · intro _ a b c h; exact hx2_nonneg h
      · intro _ a b c _; exact a2V_nonneg a b c
  generalize (if -(f.c411 + 2 * f.c420) / 4 / f.c510 < 1 then 1 else -(f.c411 + 2 * f.c420) / 4 / f.c510) = u at h
  split at h
  · simp at h
  split at h
  swap
  · simp at h
  rename_i hc
  obtain ⟨g1, g2, g3, g4⟩ := hc
  split at h
  swap
  · simp at h
  rename_i I S hI hS
  rw [← Option.some.inj (Except.ok.inj h)]
  generalize hl : min (f.c411 + 2 * f.c420 + 4 * u * f.c510) (2 * (f.c510 + f.c420) + f.c330) = l at *
  have l1 : l ≤ f.c411 + 2 * f.c420 + 4 * u * f.c510 := hl ▸ min_le_left _ _
  have l2 : l ≤ 2 * (f.c510 + f.c420) + f.c330 := hl ▸ min_le_right _ _
  refine ⟨3 * l, by linarith, ?_⟩
  refine Holds.congr (Holds.plus (Holds.plus (Holds.smul (schurinv6_holds hI) (sub_nonneg.2 l2))
    (Holds.smul (Holds.times (schur3_holds hS) fun _ _ _ h => prodA_nonneg _ _ _ h) (sub_nonneg.2 l1))) (holds_sumY (fun _ _ _ => rfl) ?_ ?_)) ?_
  · each_mem
    all_goals assumption
  · each_mem
    · intro _; oct_sum
    · intro _ a b c _; exact discV_nonneg a b c
    · intro _ a b c h; exact hx1_nonneg h
    · intro _ a b c h; exact hx2_nonneg h
    · intro _ a b c _; exact a2V_nonneg a b c
  · intro a b c
    rw [symm_poly hf.symm]
    simp only [List.map_cons, List.map_nil, List.sum_cons, List.sum_nil, cyc3, discV, a2V, cycp3, Sextic.fullRem, symV, symHexV, hx1, hx2, s1V, prodA, hf.c600]
    ring

theorem iranBorder_sound {f : Sextic K} (hf : f.Iran) {C : Cert K} (h : iranBorder f = .ok (some C)) : Holds f.poly C := by
  have hm := hf.pos
  have hm0 := hm.ne'
  unfold iranBorder at h
  dsimp only at h
  split at h
  swap
  · simp at h
  rename_i hc
  obtain ⟨g1, g2, g3, g4, g5⟩ := hc
  split at h
  swap
  · simp at h
  rename_i S hS
  rw [← Option.some.inj (Except.ok.inj h)]
  refine Holds.congr (Holds.plus (Holds.smul (Holds.times (schur3_holds hS) fun _ _ _ h => prodA_nonneg _ _ _ h) g3) (holds_sumY (fun _ _ _ => rfl) ?_ ?_)) ?_
  · each_mem
    all_goals assumption
  · each_mem
    · intro _; oct_sum
    · intro _ a b c h; exact hx1_nonneg h
    · intro _ a b c h; exact hx2_nonneg h
    · intro _ a b c _; exact a2V_nonneg a b c
  · intro a b c
    rw [symm_poly hf.symm]
    simp only [List.map_cons, List.map_nil, List.sum_cons, List.sum_nil, cyc3, a2V, cycp3, Sextic.fullRem, symV, symHexV, hx1, hx2, s1V, prodA, hf.c600]
    field_simp
    ring

/-- The numbers of easy case 5: `tmp` belongs to `u_`, or it is too small. -/
theorem iranUV_tmp {f : Sextic K} (hf : f.Iran) : (iranUV f).2.2 ≤ f.c510 + f.c330 - (f.c420 - (iranUV f).1) ^ 2 / f.c510 + 2 * (iranUV f).1 := by
  have hm := hf.pos
  have key : ∀ u : K, f.c510 + f.c330 - (f.c420 - u) ^ 2 / f.c510 + 2 * u ≤ f.c510 + f.c330 - (f.c420 - (f.c510 + f.c420)) ^ 2 / f.c510 + 2 * (f.c510 + f.c420) := by
    intro u
    rw [← sub_nonneg]
    have : f.c510 + f.c330 - (f.c420 - (f.c510 + f.c420)) ^ 2 / f.c510 + 2 * (f.c510 + f.c420) - (f.c510 + f.c330 - (f.c420 - u) ^ 2 / f.c510 + 2 * u) =
        (f.c510 + f.c420 - u) ^ 2 / f.c510 := by
      field_simp
      ring
    rw [this]
    positivity
  unfold iranUV
  dsimp only
  generalize (if 0 ≤ -(-2 * f.c510 - 5 * f.c420 + 3 * f.c411 + f.c321) / 9 ∧ 0 ≤ (-(-(-2 * f.c510 - 5 * f.c420 + 3 * f.c411 + f.c321) / 9) + f.c420 - f.c411 - f.c321) / 2 then _ else _) = uv
  split_ifs
  · exact le_refl _
  · exact key _
  · exact le_refl _

/-- **Easy case 5 proves the polynomial, or less than it.** -/
theorem iranRat_sound {f : Sextic K} (hf : f.Iran) {C : Cert K} (h : iranRat f = .ok (some C)) :
    ∃ k, 0 ≤ k ∧ Holds (fun a b c => f.poly a b c - k * (sab3 a b c * cyc3 (fun a b c => a ^ 2 * (b - c) ^ 2) a b c)) C ∧
      (k = 0 ↔ (iranUV f).2.2 = f.c510 + f.c330 - (f.c420 - (iranUV f).1) ^ 2 / f.c510 + 2 * (iranUV f).1) := by
  have hm := hf.pos
  have hm0 := hm.ne'
  have ht := iranUV_tmp hf
  unfold iranRat at h
  dsimp only at h
  generalize (iranUV f).2.2 = tmp at *
  generalize (iranUV f).2.1 = v at *
  generalize (iranUV f).1 = u at *
  split at h
  swap
  · simp at h
  rename_i hc
  split at h
  swap
  · simp at h
  rename_i hc'
  obtain ⟨g1, ⟨g2, g3⟩, g4, g5⟩ := hc
  obtain ⟨k1, k2, k3, k4, k5⟩ := hc'
  split at h
  swap
  · simp at h
  rename_i S hS
  rw [← Option.some.inj (Except.ok.inj h)]
  refine ⟨(f.c510 + f.c330 - (f.c420 - u) ^ 2 / f.c510 + 2 * u - tmp) / 2, by linarith, ?_, ⟨fun e => by linarith, fun e => by rw [e]; ring⟩⟩
  refine Holds.congr (Holds.plus (Holds.smul (Holds.times (schur3_holds hS) fun _ _ _ h => prodA_nonneg _ _ _ h) k3) (holds_sumY (fun _ _ _ => rfl) ?_ ?_)) ?_
  · each_mem
    all_goals assumption
  · each_mem
    · intro _ a b c h
      refine mul_nonneg (by unfold sab3; oct_pos) (by oct_pos)
    · intro _ a b c h
      refine mul_nonneg (by unfold sab3; oct_pos) (by oct_pos)
    · intro _ a b c _; exact discV_nonneg a b c
    · intro _ a b c h; exact hx1_nonneg h
    · intro _ a b c h; exact hx2_nonneg h
    · intro _ a b c _; exact a2V_nonneg a b c
  · intro a b c
    rw [symm_poly hf.symm]
    simp only [List.map_cons, List.map_nil, List.sum_cons, List.sum_nil, cyc3, discV, a2V, cycp3, Sextic.fullRem, symV, symHexV, hx1, hx2, s1V, prodA, sab3, hf.c600]
    field_simp
    ring

/-! ### The last part -/

/-- The polynomial with normalised coefficients and the value `rem` at `(1, 1, 1)`. -/
def normV (m rem p q w z : K) : Val3 K := symV 0 m (m * p) (m * q) (m * w) (m * z) (rem - 3 * ((m + m * p + m * z) * 2 + m * q + m * w))

theorem norm_poly {f : Sextic K} (hf : f.Iran) (a b c : K) :
    f.poly a b c = normV f.c510 f.fullRem (f.c420 / f.c510) (f.c330 / f.c510) (f.c411 / f.c510) (f.c321 / f.c510) a b c := by
  have hm := hf.pos.ne'
  rw [symm_poly hf.symm, normV, mul_div_cancel₀ _ hm, mul_div_cancel₀ _ hm, mul_div_cancel₀ _ hm, mul_div_cancel₀ _ hm, hf.c600, Sextic.fullRem, hf.c600]
  simp only [symV, symHexV]
  ring

/-- The value of `sym`. -/
def symA (A B C x : K) : K := A * x ^ 3 + B * x ^ 2 + C * x + 2

theorem iranDouble_sound {m rem p q w z x : K} (hm : 0 < m) (hr : 0 ≤ rem) (hx : symA (2 * p + q + 2) (4 * p + 2 * q + 2 * w + 2 * z + 6) (2 * p + w + 4) x = 0)
    (hd : 3 * (2 * p + q + 2) * x ^ 2 + 2 * (4 * p + 2 * q + 2 * w + 2 * z + 6) * x + (2 * p + w + 4) = 0) {C : Cert K}
    (h : iranDouble m rem p q (1 / x + 1) = some C) : Holds (normV m rem p q w z) C := by
  have hx0 : x ≠ 0 := by rintro rfl; simp [symA] at hx
  unfold iranDouble at h
  dsimp only at h
  split at h
  swap
  · simp at h
  rename_i hc
  obtain ⟨⟨g1, g2⟩, g3⟩ := hc
  rw [← Option.some.inj h]
  have hu : 1 / x + 1 - 1 = 1 / x := by ring
  have hv : 1 / x ≠ 0 := one_div_ne_zero hx0
  set v := 1 / x with hvdef
  have hxv : x = 1 / v := by rw [hvdef]; field_simp
  have E1 : (2 * p + q + 2) + (4 * p + 2 * q + 2 * w + 2 * z + 6) * v + (2 * p + w + 4) * v ^ 2 + 2 * v ^ 3 = 0 := by
    rw [show (2 * p + q + 2) + (4 * p + 2 * q + 2 * w + 2 * z + 6) * v + (2 * p + w + 4) * v ^ 2 + 2 * v ^ 3 =
      v ^ 3 * symA (2 * p + q + 2) (4 * p + 2 * q + 2 * w + 2 * z + 6) (2 * p + w + 4) (1 / v) by unfold symA; field_simp, ← hxv, hx, mul_zero]
  have E2 : 3 * (2 * p + q + 2) + 2 * (4 * p + 2 * q + 2 * w + 2 * z + 6) * v + (2 * p + w + 4) * v ^ 2 = 0 := by
    rw [show 3 * (2 * p + q + 2) + 2 * (4 * p + 2 * q + 2 * w + 2 * z + 6) * v + (2 * p + w + 4) * v ^ 2 =
      v ^ 2 * (3 * (2 * p + q + 2) * (1 / v) ^ 2 + 2 * (4 * p + 2 * q + 2 * w + 2 * z + 6) * (1 / v) + (2 * p + w + 4)) by field_simp, ← hxv, hd, mul_zero]
  have hw : w = ((2 * p + q + 2) - 4 * v ^ 3) / v ^ 2 - 2 * p - 4 := by
    field_simp
    linear_combination 2 * E1 - E2
  have hz : z = ((2 * v ^ 3 - 2 * (2 * p + q + 2)) / v - 2 * (2 * p + q + 2) - 2 - 2 * w) / 2 := by
    field_simp
    linear_combination (E2 - E1) / 2
  refine holds_sumY ?_ ?_ ?_
  · intro a b c
    simp only [List.map_cons, List.map_nil, List.sum_cons, List.sum_nil, cyc3, discV, a2V, cycp3, normV, symV, symHexV, hu]
    rw [hz, hw]
    field_simp
    ring
  · each_mem
    · exact mul_nonneg hm.le g1
    · exact mul_nonneg hm.le (sub_nonneg.2 g2)
    · exact mul_nonneg hm.le g3
    · exact hr
  · each_mem
    · intro _; oct_sum
    · intro _; oct_sum
    · intro _ a b c _; exact discV_nonneg a b c
    · intro _ a b c _; exact a2V_nonneg a b c

/-- The coefficients of the hexagon that is subtracted. -/
def hexDw (dbl : Bool) (u : K) : K := if dbl then 1 / (u - 1) ^ 2 else 1

def hexDz (dbl : Bool) (u : K) : K := if dbl then (-u ^ 2 + u - 1) / (u - 1) ^ 2 else -3

theorem iranLast_sound {m rem p s r t w z yh : K} {dbl : Bool} {u : K} (hm : 0 < m) (hr : r = p + 4 + 2 * s) (ht : t = -(p - r) / 2) (h1 : u = 1 → t = 2 ∧ dbl = false) {C : Cert K}
    (h : iranLast m rem t r (w + 2 * r) (z - 2 * r) yh dbl (some u) = .ok (some C)) :
    Holds (normV m rem p (s ^ 2 - 2 * p - 2 + yh) (w + hexDw dbl u * yh) (z + hexDz dbl u * yh)) C := by
  have hs : s = t - 2 := by rw [ht, hr]; ring
  have hp : r = p + 2 * t := by rw [hr, hs]; ring
  have hm0 := hm.ne'
  have hsum : ∀ a b c : K, 0 < a → 0 < b → 0 < c → ¬ (a = b ∧ b = c) → 0 < sumA a b c := fun a b c ha hb hc _ => by simp only [sumA, cyc3]; positivity
  have hsum' : ∀ a b c : K, Octant a b c → 0 ≤ sumA a b c := fun a b c h => sumA_nonneg h
  unfold iranLast at h
  dsimp only at h
  generalize hy0 : (if dbl = true then (0 : K) else yh) = y0 at h
  by_cases hu : u ≠ 1
  · rw [if_pos hu] at h
    generalize hy4 : (if dbl = true then 1 / (u - 1) ^ 2 * yh else 0) = y4 at h
    generalize hy5 : (if dbl = true then yh / 2 / (u - 1) ^ 2 else 0) = y5 at h
    have hu' : u - 1 ≠ 0 := sub_ne_zero.2 hu
    split at h
    · simp at h
    rename_i hc
    push Not at hc
    obtain ⟨⟨g1, g2, g3, g4⟩, g5, g6, g7⟩ := hc
    rw [← Option.some.inj (Except.ok.inj h)]
    refine holds_over ?_ ?_ ?_ hsum' hsum
    · intro a b c
      simp only [List.map_cons, List.map_nil, List.sum_cons, List.sum_nil, cyc3, discV, a2V, cycp3, normV, symV, symHexV, hx1, s1V, prodA, sumA, sd3, coeffZ, hexDw, hexDz]
      rw [hs, hp, ← hy0, ← hy4, ← hy5]
      cases dbl
      · simp only [Bool.false_eq_true, if_false]
        field_simp
        ring
      · simp only [if_true]
        field_simp
        ring
    · each_mem
      · exact mul_nonneg g1 hm.le
      · exact mul_nonneg g2 hm.le
      · exact mul_nonneg g3 hm.le
      · exact hm.le
      · exact mul_nonneg g4 hm.le
      · exact g5
      · exact g6
      · exact g7
    · each_mem
      · intro _ a b c h; exact mul_nonneg (hsum' a b c h) (hx1_nonneg h)
      · intro _ a b c h; exact mul_nonneg (hsum' a b c h) (discV_nonneg a b c)
      · intro _ a b c h; exact mul_nonneg (hsum' a b c h) (a2V_nonneg a b c)
      · intro _; oct_sum
      · intro _; oct_sum
      · intro _ a b c h; exact mul_nonneg (mul_nonneg (sq_nonneg _) (sd3_nonneg a b c)) (prodA_nonneg _ _ _ h)
      · intro _ a b c h; exact mul_nonneg (mul_nonneg (hsum' a b c h) (s1V_nonneg h)) (prodA_nonneg _ _ _ h)
      · intro _ a b c h; exact mul_nonneg (by oct_pos) (prodA_nonneg _ _ _ h)
  · rw [if_neg hu] at h
    obtain ⟨t2, rfl⟩ := h1 (not_not.1 hu)
    split at h
    · simp at h
    rename_i hc
    push Not at hc
    obtain ⟨⟨g1, g2, g3⟩, g5, g6⟩ := hc
    split at h
    swap
    · simp at h
    rename_i S hS
    rw [← Option.some.inj (Except.ok.inj h)]
    refine Holds.over (Holds.plus (Holds.smul (Holds.times (schur3_holds hS) fun a b c h => mul_nonneg (hsum' a b c h) (prodA_nonneg _ _ _ h)) (mul_nonneg hm.le g5))
      (holds_sumY (fun _ _ _ => rfl) ?_ ?_)) ?_ hsum' hsum
    · each_mem
      · exact mul_nonneg g1 hm.le
      · exact mul_nonneg g2 hm.le
      · exact mul_nonneg g3 hm.le
      · exact hm.le
      · exact mul_nonneg hm.le g6
      · exact mul_nonneg hm.le zero_le_two
    · each_mem
      · intro _ a b c h; exact mul_nonneg (hsum' a b c h) (hx1_nonneg h)
      · intro _ a b c h; exact mul_nonneg (hsum' a b c h) (discV_nonneg a b c)
      · intro _ a b c h; exact mul_nonneg (hsum' a b c h) (a2V_nonneg a b c)
      · intro _; oct_sum
      · intro _ a b c h; exact mul_nonneg (mul_nonneg (hsum' a b c h) (s1V_nonneg h)) (prodA_nonneg _ _ _ h)
      · intro _ a b c h; exact mul_nonneg (by oct_pos) (prodA_nonneg _ _ _ h)
    · intro a b c
      simp only [List.map_cons, List.map_nil, List.sum_cons, List.sum_nil, cyc3, discV, a2V, cycp3, normV, symV, symHexV, hx1, s1V, prodA, sumA, hexDw, hexDz]
      rw [hs, hp, t2, ← hy0]
      simp only [Bool.false_eq_true, if_false]
      field_simp
      ring

/-- The contracts of the calls of SymPy and of other solvers. -/
structure IranExt.Sound (X : IranExt K) : Prop where
  nd : X.hex.nd.Sound
  sqrt : SqrtSound X.hex.sq
  lift : LiftSound X.lift
  /-- The root of a linear common divisor is a double root. -/
  root : ∀ A B C x, X.root A B C = some x → symA A B C x = 0 ∧ 3 * A * x ^ 2 + 2 * B * x + C = 0
  uRoots : ∀ t w u, u ∈ X.uRoots t w → -4 * u ^ 3 + (4 * t - w + 8) * u ^ 2 + (-8 * t + 2 * w - 4) * u + t ^ 2 - w + 4 = 0

theorem uLoop_ne {t z : K} {l : List (K × List K)} {cur : Option K} (hc : cur ≠ some 1) : uLoop t z cur l ≠ some 1 := by
  induction l generalizing cur with
  | nil => exact hc
  | cons su rest ih =>
    obtain ⟨s, us⟩ := su
    unfold uLoop
    by_cases h1 : coeffZ t s ≤ z
    · rw [if_pos h1]
      dsimp only
      apply ih
      split
      · exact hc
      · intro h
        have := List.find?_some h
        simp at this
    · rw [if_neg h1]
      exact ih hc

/-- `u_` is one only if `t` is two. -/
theorem uSelect_one {X : IranExt K} (hX : X.Sound) {t w z : K} (h : uSelect X t w z = some 1) : t = 2 := by
  by_contra ht
  unfold uSelect at h
  rw [if_neg ht] at h
  split at h
  · rename_i u hu
    have hm := List.mem_of_find?_eq_some hu
    rw [Option.some.inj h] at hm
    have := hX.uRoots t w 1 hm
    apply ht
    have h2 : (t - 2) ^ 2 = 0 := by linear_combination this
    exact sub_eq_zero.1 (pow_eq_zero_iff two_ne_zero |>.1 h2)
  · exact uLoop_ne (by simp) h

theorem normV_congr {m rem p q w z q' w' z' : K} (hq : q = q') (hw : w = w') (hz : z = z') (a b c : K) : normV m rem p q w z a b c = normV m rem p q' w' z' a b c := by
  rw [hq, hw, hz]

theorem iranMain_sound {X : IranExt K} (hX : X.Sound) {rat : Bool} {m rem p q w z : K} (hm : 0 < m) (hr : 0 ≤ rem) {C : Cert K} (h : iranMain X rat m rem p q w z = .ok (some C)) :
    Holds (normV m rem p q w z) C := by
  unfold iranMain at h
  dsimp only at h
  by_cases hb : (p ≤ -4 ∧ p * p / 4 + 2 ≤ q) ∨ (-4 ≤ p ∧ -2 * (p + 1) ≤ q)
  swap
  · rw [if_pos hb] at h; simp at h
  rw [if_neg (not_not.2 hb)] at h
  have hq0 : 0 ≤ 2 * p + q + 2 := by
    rcases hb with ⟨h1, h2⟩ | ⟨h1, h2⟩
    · nlinarith [sq_nonneg (p + 4)]
    · linarith
  -- the number from the double root
  have hu : ∃ u : Option K, rootU (X.root (2 * p + q + 2) (4 * p + 2 * q + 2 * w + 2 * z + 6) (2 * p + w + 4)) = u ∧ ∀ v, u = some v → ∃ x, v = 1 / x + 1 ∧ x ≠ 0 ∧
        symA (2 * p + q + 2) (4 * p + 2 * q + 2 * w + 2 * z + 6) (2 * p + w + 4) x = 0 ∧
        3 * (2 * p + q + 2) * x ^ 2 + 2 * (4 * p + 2 * q + 2 * w + 2 * z + 6) * x + (2 * p + w + 4) = 0 := by
    refine ⟨_, rfl, ?_⟩
    intro v hv
    unfold rootU at hv
    split at hv
    · rename_i x hx
      split_ifs at hv with h1
      obtain ⟨e1, e2⟩ := hX.root _ _ _ _ hx
      refine ⟨x, (Option.some.inj hv).symm, ?_, e1, e2⟩
      rintro rfl
      simp [symA] at e1
    · simp at hv
  obtain ⟨u, eu, hu⟩ := hu
  rw [eu] at h
  cases hd : u.bind (iranDouble m rem p q) with
  | some C' =>
    rw [hd] at h
    rw [← Option.some.inj (Except.ok.inj h)]
    obtain ⟨v, rfl, hv⟩ := Option.bind_eq_some_iff.1 hd
    obtain ⟨x, rfl, -, e1, e2⟩ := hu v rfl
    exact iranDouble_sound hm hr e1 e2 hv
  | none =>
    rw [hd] at h
    dsimp only at h
    have hune : ∀ v, u = some v → v ≠ 1 := by
      intro v hv e
      obtain ⟨x, e', hx, -, -⟩ := hu v hv
      rw [e] at e'
      have : 1 / x = 0 := by linear_combination -e'
      exact one_div_ne_zero hx this
    cases hper : iranPerturb X rat p q w z u with
    | none => rw [hper] at h; simp at h
    | some n =>
      obtain ⟨q', w', z', yh⟩ := n
      rw [hper] at h
      dsimp only at h
      -- the final number
      have hfin : ∃ fu, pickU u (uSelect X (-(p - (p + 4 + 2 * X.hex.sq (2 * p + q' + 2))) / 2) (w' + 2 * (p + 4 + 2 * X.hex.sq (2 * p + q' + 2)))
          (z' - 2 * (p + 4 + 2 * X.hex.sq (2 * p + q' + 2)))) = fu ∧ ∀ v, fu = some v →
            ((v = 1 → -(p - (p + 4 + 2 * X.hex.sq (2 * p + q' + 2))) / 2 = 2 ∧ u.isSome = false) ∧ (u.isSome = true → u = some v)) := by
        refine ⟨_, rfl, ?_⟩
        intro v hv
        cases u with
        | some u0 =>
          unfold pickU at hv
          exact ⟨fun e => absurd e (hune v hv), fun _ => hv⟩
        | none =>
          unfold pickU at hv
          refine ⟨fun e => ⟨?_, rfl⟩, fun h => by simp at h⟩
          rw [e] at hv
          exact uSelect_one hX hv
      obtain ⟨fu, efu, hfu⟩ := hfin
      rw [efu] at h
      cases fu with
      | none => unfold iranLast at h; simp at h
      | some v =>
        obtain ⟨hv1, hv2⟩ := hfu v rfl
        have hspec : 0 ≤ 2 * p + q' + 2 ∧ q = q' + yh ∧ w = w' + hexDw u.isSome v * yh ∧ z = z' + hexDz u.isSome v * yh := by
          unfold iranPerturb at hper
          split at hper
          · obtain ⟨n, hn, en⟩ := Option.map_eq_some_iff.1 hper
            dsimp only at en
            obtain ⟨rfl, rfl, rfl, rfl⟩ : _ ∧ _ ∧ _ ∧ _ := by
              simp only [Prod.mk.injEq] at en
              exact en
            refine ⟨by nlinarith [sq_nonneg n], by ring, ?_, ?_⟩
            · cases u with
              | none => simp [hexDw]
              | some u0 =>
                obtain rfl := Option.some.inj (hv2 rfl)
                simp [hexDw]
            · cases u with
              | none => simp [hexDz]
              | some u0 =>
                obtain rfl := Option.some.inj (hv2 rfl)
                simp [hexDz]
          · obtain ⟨rfl, rfl, rfl, rfl⟩ : _ ∧ _ ∧ _ ∧ _ := by
              simp only [Option.some.injEq, Prod.mk.injEq] at hper
              exact hper
            exact ⟨hq0, by ring, by ring, by ring⟩
        obtain ⟨s0, s1, s2, s3⟩ := hspec
        have hs := hX.sqrt _ s0
        refine (iranLast_sound (s := X.hex.sq (2 * p + q' + 2)) hm rfl rfl hv1 h).congr (normV_congr ?_ s2.symm s3.symm)
        rw [hs, s1]; ring

/-- **Every answer of the solver of symmetric sextics without `a^6` is a proof of the polynomial or of a smaller one.**  The three alternatives are the recorded faults. -/
theorem sxIran_sound {X : IranExt K} (hX : X.Sound) {real : Bool} {f : Sextic K} {C : Cert K} (h : sxIran X real f = .ok (some C)) :
    Holds f.poly C ∨ (0 < f.poly 1 1 1 ∧ Holds (fun a b c => f.poly a b c - f.poly 1 1 1 * (a * b * c) ^ 2) C) ∨
      (∃ k, 0 < k ∧ Holds (fun a b c => f.poly a b c - k * hx2 a b c) C) ∨
      ∃ k, 0 < k ∧ Holds (fun a b c => f.poly a b c - k * (sab3 a b c * cyc3 (fun a b c => a ^ 2 * (b - c) ^ 2) a b c)) C := by
  unfold sxIran at h
  split at h
  · simp at h
  rename_i h0
  obtain ⟨c0, c1, c2, c3, c4⟩ := not_not.1 h0
  have hs : f.Symm := ⟨c1.symm, c2.symm, c3.symm⟩
  split at h
  · simp at h
  rename_i hr
  push Not at hr
  split at h
  · rename_i hm
    exact .inl (sxHexagon_sound hX.nd hX.sqrt ⟨c0, hm, hs.c501.trans hm, hs.c402, hs.c312⟩ h)
  rename_i hm
  have hI : f.Iran := ⟨hs, c0, lt_of_le_of_ne c4 (Ne.symm hm)⟩
  have step : ∀ {r n : Except PyErr (Option (Cert K))}, tryNext r n = .ok (some C) → r = .ok (some C) ∨ n = .ok (some C) := by
    intro r n h
    unfold tryNext at h
    split at h
    · simp at h
    · exact .inl h
    · exact .inr h
  rcases step h with h | h
  · rcases schurSplit_sound hX.lift hs h with h | h
    · exact .inl h
    · rcases eq_or_lt_of_le hr.2 with e | e
      · left
        rw [symm_111 hs, ← e] at h
        simpa using h
      · right; left
        exact ⟨by rw [symm_111 hs]; exact e, h⟩
  rcases step h with h | h
  · obtain ⟨k, hk, h⟩ := iranEasy_sound hI h
    rcases eq_or_lt_of_le hk with e | e
    · left
      rw [← e] at h
      simpa using h
    · exact .inr (.inr (.inl ⟨k, e, h⟩))
  rcases step h with h | h
  · exact .inl (iranBorder_sound hI h)
  rcases step h with h | h
  · split_ifs at h
    · obtain ⟨k, hk, h, -⟩ := iranRat_sound hI h
      rcases eq_or_lt_of_le hk with e | e
      · left
        rw [← e] at h
        simpa using h
      · exact .inr (.inr (.inr ⟨k, e, h⟩))
    · simp at h
  · left
    exact (iranMain_sound hX hI.pos hr.2 h).congr fun a b c => (norm_poly hI a b c).symm

/-- **If the solver answers, the polynomial is nonnegative** for positive numbers that are not all equal. -/
theorem sxIran_nonneg {X : IranExt K} (hX : X.Sound) {real : Bool} {f : Sextic K} {C : Cert K} (h : sxIran X real f = .ok (some C)) {a b c : K} (ha : 0 < a) (hb : 0 < b) (hc : 0 < c)
    (hn : ¬ (a = b ∧ b = c)) : 0 ≤ f.poly a b c := by
  have ho : Octant a b c := ⟨ha.le, hb.le, hc.le⟩
  rcases sxIran_sound hX h with h | ⟨hp, h⟩ | ⟨k, hk, h⟩ | ⟨k, hk, h⟩
  · exact h.nonneg ha hb hc hn
  · have := h.nonneg ha hb hc hn
    nlinarith [mul_nonneg hp.le (sq_nonneg (a * b * c))]
  · have := h.nonneg ha hb hc hn
    nlinarith [mul_nonneg hk.le (hx2_nonneg ho)]
  · have := h.nonneg ha hb hc hn
    have h2 : 0 ≤ sab3 a b c * cyc3 (fun a b c => a ^ 2 * (b - c) ^ 2) a b c := mul_nonneg (by unfold sab3; oct_pos) (by oct_pos)
    nlinarith [mul_nonneg hk.le h2]

/-- **Exceptions come only from the solver of hexagons and from the lifted polynomial.** -/
theorem sxIran_error {X : IranExt K} {real : Bool} {f : Sextic K} {e : PyErr} (h : sxIran X real f = .error e) : (f.c510 = 0 ∧ sxHexagon X.hex real f = .error e) ∨ X.lift f = .error e := by
  have step : ∀ {r n : Except PyErr (Option (Cert K))}, tryNext r n = .error e → r = .error e ∨ n = .error e := by
    intro r n h
    unfold tryNext at h
    split at h
    · exact .inl h
    · simp at h
    · exact .inr h
  unfold sxIran at h
  split at h
  · simp at h
  split at h
  · simp at h
  split at h
  · rename_i hm; exact .inl ⟨hm, h⟩
  right
  rcases step h with h | h
  · unfold schurSplit at h
    split at h
    · simp at h
    · cases hl : X.lift f with
      | error e' => rw [hl] at h; simpa [Except.map] using h
      | ok r => rw [hl] at h; simp [Except.map] at h
  exfalso
  rcases step h with h | h
  · unfold iranEasy at h
    simp only [schurinv, schur] at h
    split_ifs at h <;> simp at h
  rcases step h with h | h
  · unfold iranBorder at h
    simp only [schur] at h
    split_ifs at h <;> simp at h
  rcases step h with h | h
  · split_ifs at h
    unfold iranRat at h
    simp only [schur] at h
    split_ifs at h <;> simp at h
  · unfold iranMain at h
    dsimp only at h
    split at h
    · simp at h
    split at h
    · simp at h
    split at h
    · simp at h
    · generalize pickU _ _ = u at h
      cases u with
      | none => simp [iranLast] at h
      | some u =>
        simp only [iranLast, schur] at h
        generalize (if _ = true then (0 : K) else _) = y0 at h
        split_ifs at h <;> simp at h

end Verif.Ternary
