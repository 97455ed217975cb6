import Verif.Props.QuinticSymmetric
import Verif.Props.NonicPoly
import Verif.Model.Extract
import Verif.Proofs.PolyClosure

/-!
# What the symmetric ternary quintic solver guarantees, with fifth powers
-/

set_option linter.unusedSectionVars false

namespace Verif.Ternary

open Verif Verif.TermsPoly Verif.Acute Verif.Dense

variable {K : Type*} [Field K] [LinearOrder K] [IsStrictOrderedRing K]

/-! ### `z >= -1` -/

theorem schur5_holds {S : Cert K} (h : schur 5 = some S) : Holds (cyc3 fun a b c => a ^ 3 * (a - b) * (a - c)) S := by
  rw [← Option.some.inj h]
  refine holds_mk ?_ ?_ ?_ ?_ ?_
  · intro a b c
    simp only [List.map_cons, List.map_nil, List.sum_cons, List.sum_nil, sumA, cyc3, cycp3]
    ring
  · intro t ht
    simp only [List.mem_cons, List.not_mem_nil, or_false] at ht
    rcases ht with rfl | rfl <;> norm_num
  · intro t ht a b c ho
    simp only [List.mem_cons, List.not_mem_nil, or_false] at ht
    rcases ht with rfl | rfl
    · oct_pos
    · exact sdisc_nonneg a b c ho
  · exact fun a b c _ => sd3_nonneg a b c
  · exact fun a b c _ _ _ hn => sd3_pos hn

theorem upTriv_sound {m z u v w : K} (hm : 0 ≤ m) (hz : -1 ≤ z) (hr : 0 ≤ (1 + v + (z + u) * 2) * m + w) (h1 : 0 ≤ u + 1 + z) (h2 : 0 ≤ v + 3 + 4 * z + 2 * u) :
    ∃ C, upTriv m z u v ((1 + v + (z + u) * 2) * m + w) = .ok (some C) ∧ Holds (symQ m (m * z) (m * u) (m * v) w) C := by
  have hw3 : 0 ≤ (u + 1 + z) * m := mul_nonneg h1 hm
  have hw4 : 0 ≤ (v + 3 + 4 * z + 2 * u) * m / 2 := div_nonneg (mul_nonneg h2 hm) zero_le_two
  unfold upTriv
  dsimp only
  by_cases hz2 : 2 * z + 1 < 0
  · rw [if_pos hz2, if_neg (not_le.2 hz2), if_pos hz2]
    obtain ⟨S, hS⟩ : ∃ S : Cert K, schur 5 = some S := ⟨_, rfl⟩
    rw [hS]
    refine ⟨_, rfl, ?_⟩
    refine Holds.congr (((schur5_holds hS).smul hm).plus (holds_sumY (f := fun a b c => m * (z + 1) * tgc 1 a b c + (u + 1 + z) * m * cyc3 (fun a b c => a ^ 3 * (b - c) ^ 2) a b c +
      (v + 3 + 4 * z + 2 * u) * m / 2 * (prodA a b c * sd3 a b c) + ((1 + v + (z + u) * 2) * m + w) * tail5 a b c) ?_ ?_ ?_)) ?_
    · intro a b c
      simp only [List.map_cons, List.map_nil, List.sum_cons, List.sum_nil]
      ring
    · intro t ht
      simp only [List.mem_cons, List.not_mem_nil, or_false] at ht
      rcases ht with rfl | rfl | rfl | rfl | rfl
      · exact le_refl _
      · exact mul_nonneg hm (by linarith)
      · exact hw3
      · exact hw4
      · exact hr
    · intro t ht h0 a b c ho
      simp only [List.mem_cons, List.not_mem_nil, or_false] at ht
      rcases ht with rfl | rfl | rfl | rfl | rfl
      · exact absurd rfl h0
      · exact tgc_nonneg 1 a b c ho
      · exact cube_nonneg a b c ho
      · exact prodSd_nonneg a b c ho
      · exact tail5_nonneg a b c ho
    · intro a b c
      rw [← upTriv_id, tgt_schur5]
      ring
  · rw [if_neg hz2, if_pos (not_lt.1 hz2), if_neg hz2]
    refine ⟨_, rfl, holds_sumY ?_ ?_ ?_⟩
    · intro a b c
      rw [← upTriv_id]
      simp only [List.map_cons, List.map_nil, List.sum_cons, List.sum_nil]
      ring
    · intro t ht
      simp only [List.mem_cons, List.not_mem_nil, or_false] at ht
      rcases ht with rfl | rfl | rfl | rfl | rfl
      · exact div_nonneg hm zero_le_two
      · exact le_refl _
      · exact hw3
      · exact hw4
      · exact hr
    · intro t ht h0 a b c ho
      simp only [List.mem_cons, List.not_mem_nil, or_false] at ht
      rcases ht with rfl | rfl | rfl | rfl | rfl
      · exact tgt_nonneg_of_nonneg (not_lt.1 hz2) 1 a b c ho
      · exact absurd rfl h0
      · exact cube_nonneg a b c ho
      · exact prodSd_nonneg a b c ho
      · exact tail5_nonneg a b c ho

theorem upSecond_sound {m z u v w : K} (hz : -1 ≤ z) (hw : ∀ t ∈ upSecond m z u v ((1 + v + (z + u) * 2) * m + w), 0 ≤ t.1) :
    Holds (symQ m (m * z) (m * u) (m * v) w) (.plain (sumY (upSecond m z u v ((1 + v + (z + u) * 2) * m + w)))) := by
  refine holds_sumY ?_ hw ?_
  · intro a b c
    rw [← upSecond_id]
    simp only [upSecond, List.map_cons, List.map_nil, List.sum_cons, List.sum_nil]
    ring
  · intro t ht _ a b c ho
    simp only [upSecond, List.mem_cons, List.not_mem_nil, or_false] at ht
    rcases ht with rfl | rfl | rfl | rfl
    · dsimp only
      by_cases h : 0 ≤ (2 * z - 1) / 3
      · exact tgt_nonneg_of_nonneg h _ a b c ho
      · push Not at h
        refine tgt_nonneg ?_ ?_ ?_ a b c ho <;> linarith
    · exact cube_nonneg a b c ho
    · exact prodSd_nonneg a b c ho
    · exact tail5_nonneg a b c ho

/-- The point is on the line through the cusp and the point `t2`. -/
theorem secant_line {z u v : K} (hd : secDen z u v ≠ 0) (hy : curveV z ((1 - 2 * z) / 3) ≠ curveV z (secT z u v)) :
    let w1 := (v - curveV z (secT z u v)) / (curveV z ((1 - 2 * z) / 3) - curveV z (secT z u v))
    u = w1 * curveU z ((1 - 2 * z) / 3) + (1 - w1) * curveU z (secT z u v) ∧ v = w1 * curveV z ((1 - 2 * z) / 3) + (1 - w1) * curveV z (secT z u v) := by
  intro w1
  have hy' : curveV z ((1 - 2 * z) / 3) - curveV z (secT z u v) ≠ 0 := sub_ne_zero.2 hy
  have hw : w1 * (curveV z ((1 - 2 * z) / 3) - curveV z (secT z u v)) = v - curveV z (secT z u v) := div_mul_cancel₀ _ hy'
  have ht : secT z u v * secDen z u v = -(2 * u * z - u + v * z + 4 * v + 2 * z - 1) := div_mul_cancel₀ _ hd
  generalize secT z u v = t at *
  constructor
  · apply mul_right_cancel₀ hy'
    have e : (u - curveU z t) * (curveV z ((1 - 2 * z) / 3) - curveV z t) = (v - curveV z t) * (curveU z ((1 - 2 * z) / 3) - curveU z t) := by
      unfold secDen at ht
      unfold curveU curveV
      linear_combination (-(t - (1 - 2 * z) / 3) ^ 2 / 3) * ht
    linear_combination e - (curveU z ((1 - 2 * z) / 3) - curveU z t) * hw
  · linear_combination -hw

theorem curveV_cusp (z : K) : curveV z ((1 - 2 * z) / 3) = ((1 - 2 * z) / 3) ^ 3 := by
  unfold curveV
  ring

theorem two_points {m z u v w s t1 t2 : K} (hu : u = s * curveU z t1 + (1 - s) * curveU z t2) (hv : v = s * curveV z t1 + (1 - s) * curveV z t2) (a b c : K) :
    symQ m (m * z) (m * u) (m * v) w a b c = s * m / 2 * tgt (2 * z - 1 + 2 * t1) t1 a b c + (1 - s) * m / 2 * tgt (2 * z - 1 + 2 * t2) t2 a b c +
      ((1 + v + (z + u) * 2) * m + w) * tail5 a b c := by
  rw [move_id, tgt_id, tgt_id, hu, hv, move_w]
  ring

theorem secPlain_ident {m z u v w s t1 t2 : K} (hu : u = s * curveU z t1 + (1 - s) * curveU z t2) (hv : v = s * curveV z t1 + (1 - s) * curveV z t2)
    (h1 : s = 0 ∨ 0 ≤ 2 * z - 1 + 2 * t1) (h2 : 0 ≤ 2 * z - 1 + 2 * t2) :
    Ident (symQ m (m * z) (m * u) (m * v) w) (secPlain m z t1 t2 s ((1 + v + (z + u) * 2) * m + w)) := by
  refine ident_sumY ?_ ?_
  · intro a b c
    rw [two_points hu hv]
    simp only [List.map_cons, List.map_nil, List.sum_cons, List.sum_nil]
    ring
  · intro t ht h0 a b c ho
    simp only [List.mem_cons, List.not_mem_nil, or_false] at ht
    rcases ht with rfl | rfl | rfl
    · rcases h1 with rfl | h1
      · exact absurd (by simp) h0
      · exact tgt_nonneg_of_nonneg h1 _ a b c ho
    · exact tgt_nonneg_of_nonneg h2 _ a b c ho
    · exact tail5_nonneg a b c ho

theorem half_schur (z t a b c : K) : sd3 a b c / 2 * tgt (2 * z - 1 + 2 * t) t a b c =
    schurTimes t a b c + 2 * (2 - t) * (t + 1) * (sumA a b c * discV3 a b c) + (z + t) * (sd3 a b c * tgc t a b c) := by
  have e := tgt_schur t a b c
  unfold halfSd at e
  rw [tgt_split, mul_add, e]
  ring

theorem half_sq (z t a b c : K) : sd3 a b c * tgt (2 * z - 1 + 2 * t) t a b c =
    midSq t a b c + (3 - t) * (1 + t) * (sumA a b c * discV3 a b c) + 2 * (z + t) * (sd3 a b c * tgc t a b c) := by
  rw [tgt_split, mul_add, tgt_sq]
  ring

theorem sdTail_nonneg (a b c : K) (ho : Octant a b c) : 0 ≤ sd3 a b c * tail5 a b c := mul_nonneg (sd3_nonneg a b c) (tail5_nonneg a b c ho)

theorem secHigh_ident {m z u v w s t1 t2 : K} (hu : u = s * curveU z t1 + (1 - s) * curveU z t2) (hv : v = s * curveV z t1 + (1 - s) * curveV z t2) (h2 : 0 ≤ 2 * z - 1 + 2 * t2) :
    Ident (symQ m (m * z) (m * u) (m * v) w) (secHigh m z t1 t2 s ((1 + v + (z + u) * 2) * m + w)) := by
  refine ident_half ?_ ?_
  · intro a b c
    rw [two_points hu hv]
    unfold halfSd
    simp only [List.map_cons, List.map_nil, List.sum_cons, List.sum_nil]
    linear_combination (-(s * m / 2)) * half_schur z t1 a b c
  · intro t ht _ a b c ho
    simp only [List.mem_cons, List.not_mem_nil, or_false] at ht
    rcases ht with rfl | rfl | rfl | rfl | rfl
    · exact schurTimes_nonneg t1 a b c ho
    · exact sdisc_nonneg a b c ho
    · exact mul_nonneg (sd3_nonneg a b c) (tgc_nonneg t1 a b c ho)
    · exact mul_nonneg (sd3_nonneg a b c) (tgt_nonneg_of_nonneg h2 t2 a b c ho)
    · exact sdTail_nonneg a b c ho

theorem secHigher_ident {m z u v w s t1 t2 : K} (hu : u = s * curveU z t1 + (1 - s) * curveU z t2) (hv : v = s * curveV z t1 + (1 - s) * curveV z t2) :
    Ident (symQ m (m * z) (m * u) (m * v) w) (secHigher m z t1 t2 s ((1 + v + (z + u) * 2) * m + w)) := by
  refine ident_half ?_ ?_
  · intro a b c
    rw [two_points hu hv]
    unfold halfSd
    simp only [List.map_cons, List.map_nil, List.sum_cons, List.sum_nil]
    linear_combination (-(s * m / 2)) * half_schur z t1 a b c + (-((1 - s) * m / 2)) * half_schur z t2 a b c
  · intro t ht _ a b c ho
    simp only [List.mem_cons, List.not_mem_nil, or_false] at ht
    rcases ht with rfl | rfl | rfl | rfl | rfl | rfl
    · exact schurTimes_nonneg t1 a b c ho
    · exact schurTimes_nonneg t2 a b c ho
    · exact sdisc_nonneg a b c ho
    · exact mul_nonneg (sd3_nonneg a b c) (tgc_nonneg t1 a b c ho)
    · exact mul_nonneg (sd3_nonneg a b c) (tgc_nonneg t2 a b c ho)
    · exact sdTail_nonneg a b c ho

/-- The degenerate secant: `t2 = 0` while the cusp is above the axis. -/
def SecantDegenerate (z u v : K) : Prop := secT z u v = 0 ∧ z < 1 / 2

/-- The weights of the last answer of the secant method that it does not test. -/
def SecantPositive (z u v : K) : Prop :=
  let t1 := (1 - 2 * z) / 3
  let t2 := secT z u v
  let w1 := (v - curveV z t2) / (curveV z t1 - curveV z t2)
  0 < curveV z t2 → 0 ≤ z + t2 ∧ 0 ≤ w1 * (2 - t1) * (t1 + 1) + (1 - w1) * (2 - t2) * (t2 + 1)

theorem curveV_nonpos {z t : K} (h : curveV z t ≤ 0) (ht : t ≠ 0) : 0 ≤ 2 * z - 1 + 2 * t := by
  unfold curveV at h
  by_contra hc
  push Not at hc
  have : 0 < t ^ 2 := by positivity
  nlinarith

theorem secant_sound {m z u v w : K} (hm : 0 ≤ m) (hz : -1 ≤ z) (hr : 0 ≤ (1 + v + (z + u) * 2) * m + w) (hn : ¬ SecantDegenerate z u v) {C : Cert K}
    (h : secant m z u v ((1 + v + (z + u) * 2) * m + w) = .ok (some C)) :
    Ident (symQ m (m * z) (m * u) (m * v) w) C ∧ (SecantPositive z u v → Holds (symQ m (m * z) (m * u) (m * v) w) C) := by
  unfold secant at h
  dsimp only at h
  have hx2 : curveV z (secT z u v) ≤ 0 → 0 ≤ 2 * z - 1 + 2 * secT z u v := by
    intro hy
    by_cases h0 : secT z u v = 0
    · have : ¬ z < 1 / 2 := fun hlt => hn ⟨h0, hlt⟩
      push Not at this
      rw [h0]
      linarith
    · exact curveV_nonpos hy h0
  have hx1 : curveV z ((1 - 2 * z) / 3) ≤ 0 → 0 ≤ 2 * z - 1 + 2 * ((1 - 2 * z) / 3) := by
    intro hy
    rw [curveV_cusp] at hy
    have : (1 - 2 * z) / 3 ≤ 0 := by
      by_contra hc
      push Not at hc
      have := pow_pos hc 3
      linarith
    linarith
  have hx1' : ¬ curveV z ((1 - 2 * z) / 3) ≤ 0 → 0 < (1 - 2 * z) / 3 := by
    intro hy
    rw [curveV_cusp] at hy
    by_contra hc
    push Not at hc
    apply hy
    have e : ((1 - 2 * z) / 3) ^ 3 = ((1 - 2 * z) / 3) ^ 2 * ((1 - 2 * z) / 3) := by ring
    rw [e]
    exact mul_nonpos_of_nonneg_of_nonpos (sq_nonneg _) hc
  split_ifs at h with hd hy hA hB
  · obtain ⟨hu, hv⟩ := secant_line hd hy.1
    rw [← Option.some.inj (Except.ok.inj h)]
    have hI := secPlain_ident (m := m) (w := w) hu hv (hA.imp (fun h => h.1) fun h => hx1 h.1) (hx2 (hA.elim (fun h => h.2) fun h => h.2))
    refine ⟨hI, fun _ => hI.holds (weights_sumY ?_)⟩
    intro t ht
    simp only [List.mem_cons, List.not_mem_nil, or_false] at ht
    rcases ht with rfl | rfl | rfl
    · exact div_nonneg (mul_nonneg hy.2.1 hm) zero_le_two
    · exact div_nonneg (mul_nonneg (sub_nonneg.2 hy.2.2) hm) zero_le_two
    · exact hr
  · obtain ⟨hu, hv⟩ := secant_line hd hy.1
    rw [← Option.some.inj (Except.ok.inj h)]
    have hI := secHigh_ident (m := m) (w := w) hu hv (hx2 hB)
    refine ⟨hI, fun _ => hI.holds (weights_sumY ?_)⟩
    have hy1 : ¬ curveV z ((1 - 2 * z) / 3) ≤ 0 := fun h1 => hA (Or.inr ⟨h1, hB⟩)
    have ht1 := hx1' hy1
    have hw1 := mul_nonneg hy.2.1 hm
    intro t ht
    simp only [List.mem_cons, List.not_mem_nil, or_false] at ht
    rcases ht with rfl | rfl | rfl | rfl | rfl
    · exact div_nonneg hw1 zero_le_two
    · exact mul_nonneg (mul_nonneg hw1 (by linarith)) (by linarith)
    · exact div_nonneg (mul_nonneg hw1 (by linarith)) zero_le_two
    · exact div_nonneg (mul_nonneg (sub_nonneg.2 hy.2.2) hm) zero_le_four
    · exact div_nonneg hr zero_le_two
  · obtain ⟨hu, hv⟩ := secant_line hd hy.1
    rw [← Option.some.inj (Except.ok.inj h)]
    have hI := secHigher_ident (m := m) (w := w) hu hv
    refine ⟨hI, fun hp => hI.holds (weights_sumY ?_)⟩
    obtain ⟨hp1, hp2⟩ := hp (not_le.1 hB)
    have hw1 := mul_nonneg hy.2.1 hm
    have hw2 := mul_nonneg (sub_nonneg.2 hy.2.2) hm
    intro t ht
    simp only [List.mem_cons, List.not_mem_nil, or_false] at ht
    rcases ht with rfl | rfl | rfl | rfl | rfl | rfl
    · exact div_nonneg hw1 zero_le_two
    · exact div_nonneg hw2 zero_le_two
    · exact mul_nonneg hp2 hm
    · exact div_nonneg (mul_nonneg hw1 (by linarith)) zero_le_two
    · exact div_nonneg (mul_nonneg hw2 hp1) zero_le_two
    · exact div_nonneg hr zero_le_two
  · cases h

theorem quinUp_sound {m z u v w : K} (hm : 0 ≤ m) (hz : -1 ≤ z) (hr : 0 ≤ (1 + v + (z + u) * 2) * m + w) (hn : ¬ SecantDegenerate z u v) {C : Cert K}
    (h : quinUp m z u v ((1 + v + (z + u) * 2) * m + w) = .ok (some C)) :
    Ident (symQ m (m * z) (m * u) (m * v) w) C ∧ (SecantPositive z u v → Holds (symQ m (m * z) (m * u) (m * v) w) C) := by
  unfold quinUp at h
  split_ifs at h with h1 h2
  · obtain ⟨E, hE, hH⟩ := upTriv_sound hm hz hr h1.1 h1.2
    rw [hE] at h
    obtain rfl := Option.some.inj (Except.ok.inj h)
    exact ⟨hH.ident, fun _ => hH⟩
  · rw [← Option.some.inj (Except.ok.inj h)]
    have := upSecond_sound hz h2
    exact ⟨this.ident, fun _ => this⟩
  · exact secant_sound hm hz hr hn h

/-! ### `-3 <= z <= -1` -/

theorem midTriv_sound {m z u v w : K} (hw : ∀ t ∈ midTriv m z u v ((1 + v + (z + u) * 2) * m + w), 0 ≤ t.1) :
    Holds (symQ m (m * z) (m * u) (m * v) w) (over (.plain (sumY (midTriv m z u v ((1 + v + (z + u) * 2) * m + w)))) halfSd) := by
  refine holds_half ?_ hw ?_
  · intro a b c
    rw [← midTriv_id]
    simp only [midTriv, List.map_cons, List.map_nil, List.sum_cons, List.sum_nil]
    ring
  · intro t ht _ a b c ho
    simp only [midTriv, List.mem_cons, List.not_mem_nil, or_false] at ht
    rcases ht with rfl | rfl | rfl | rfl | rfl
    · oct_pos
    · exact sdisc_nonneg a b c ho
    · exact mul_nonneg (sd3_nonneg a b c) (cube_nonneg a b c ho)
    · exact mul_nonneg (prodA_nonneg a b c ho) (sq_nonneg _)
    · exact sdTail_nonneg a b c ho

theorem bary_spec {z u v t : K} (hd : baryDen z t ≠ 0) :
    v = baryW z u v t * curveV z (-z) + (1 - baryW z u v t) * curveV z t - 2 * (u - baryW z u v t * (-z - 1) - (1 - baryW z u v t) * curveU z t) := by
  have h : baryW z u v t * baryDen z t = u * -2 - curveU z t * -2 - v + curveV z t := div_mul_cancel₀ _ hd
  generalize baryW z u v t = s at *
  unfold baryDen at h
  have e : curveV z (-z) = z ^ 2 := by
    unfold curveV
    ring
  rw [e]
  linear_combination h

theorem midBary_sound {m z u v w t : K} (hd : baryDen z t ≠ 0) (hw : ∀ s ∈ midBary m z u t (baryW z u v t) ((1 + v + (z + u) * 2) * m + w), 0 ≤ s.1) :
    Holds (symQ m (m * z) (m * u) (m * v) w) (over (.plain (sumY (midBary m z u t (baryW z u v t) ((1 + v + (z + u) * 2) * m + w)))) halfSd) := by
  have hv := bary_spec (u := u) (v := v) hd
  generalize baryW z u v t = s at *
  refine holds_half ?_ hw ?_
  · intro a b c
    obtain ⟨g, hg⟩ : ∃ g, u - s * (-z - 1) - (1 - s) * curveU z t = g := ⟨_, rfl⟩
    have hu : u = s * curveU z (-z) + (1 - s) * curveU z t + g := by
      have e : curveU z (-z) = -z - 1 := by
        unfold curveU
        ring
      rw [e]
      linear_combination hg
    rw [hg] at hv
    have e1 := two_points (m := m) (z := z) (w := w) (s := s) (t1 := -z) (t2 := t) rfl rfl a b c
    have e2 : symQ m (m * z) (m * u) (m * v) w a b c =
        symQ m (m * z) (m * (s * curveU z (-z) + (1 - s) * curveU z t)) (m * (s * curveV z (-z) + (1 - s) * curveV z t)) w a b c +
          m * g * cyc3 (fun a b c => a ^ 3 * (b - c) ^ 2) a b c := by
      rw [move_id, move_id, hu, hv, move_u]
      ring
    have e3 : ∀ z : K, 2 * z - 1 + 2 * -z = -1 := fun z => by ring
    have e4 := half_sq z (-z) a b c
    have e5 := half_sq z t a b c
    rw [e2, e1]
    unfold halfSd
    simp only [midBary, List.map_cons, List.map_nil, List.sum_cons, List.sum_nil, hg]
    rw [hv, hu]
    unfold tail5
    linear_combination (-(s * m / 4)) * e4 + (-((1 - s) * m / 4)) * e5
  · intro r hr _ a b c ho
    simp only [midBary, List.mem_cons, List.not_mem_nil, or_false] at hr
    rcases hr with rfl | rfl | rfl | rfl | rfl | rfl
    · exact midSq_nonneg _ a b c ho
    · exact midSq_nonneg _ a b c ho
    · exact sdisc_nonneg a b c ho
    · exact mul_nonneg (sd3_nonneg a b c) (tgc_nonneg _ a b c ho)
    · exact mul_nonneg (sd3_nonneg a b c) (cube_nonneg a b c ho)
    · exact mul_nonneg (prodSd_nonneg a b c ho) (sab3_nonneg a b c ho)

theorem quinMid_sound {m z u v w : K} {C : Cert K} (h : quinMid m z u v ((1 + v + (z + u) * 2) * m + w) = .ok (some C)) : Holds (symQ m (m * z) (m * u) (m * v) w) C := by
  unfold quinMid at h
  dsimp only at h
  split_ifs at h with h1 h2 h3 h4
  · rw [← Option.some.inj (Except.ok.inj h)]
    exact midTriv_sound h1
  · rw [← Option.some.inj (Except.ok.inj h)]
    exact midBary_sound h3 h4
  · cases h

/-! ### `z < -3` -/

/-- The contracts of the calls.  `quart` is discharged for the modelled quartic solver by `quartic_contract`; `dbl` says that a common root of a cubic and its
derivative is a root of both. -/
structure QuinticExt.Sound (X : QuinticExt K) : Prop where
  quart : ∀ g C, X.quart g = .ok (some C) → Holds g.poly C
  dbl : ∀ z u v r, X.dbl z u v = some r →
    r ^ 3 + (2 * z + 2) * r ^ 2 + (2 * u + v + 4 * z + 3) * r + (2 * u + 2 * z + 2) = 0 ∧ 3 * r ^ 2 + 2 * (2 * z + 2) * r + (2 * u + v + 4 * z + 3) = 0

/-- The twenty digits of `.n(20)` do not change the outcome of the test of case b. -/
def QuinticExt.Digits (X : QuinticExt K) : Prop := ∀ t w p, bVerify t w p → bVerify t w (X.approx p)

theorem lowTriv_sound {m z u v w : K} (hm : 0 ≤ m) (hr : 0 ≤ (1 + v + (z + u) * 2) * m + w) (hd : ¬ duOf z u < 0)
    (h3 : 0 ≤ m * (v - (z ^ 2 - 6 * z - 9) / 2 + 2 * duOf z u) / 4) :
    Holds (symQ m (m * z) (m * u) (m * v) w) (over (.plain (sumY (lowTriv m z u v ((1 + v + (z + u) * 2) * m + w)))) halfSd) := by
  push Not at hd
  refine holds_half ?_ ?_ ?_
  · intro a b c
    rw [← lowTriv_id]
    simp only [lowTriv, List.map_cons, List.map_nil, List.sum_cons, List.sum_nil]
    ring
  · intro t ht
    simp only [lowTriv, List.mem_cons, List.not_mem_nil, or_false] at ht
    rcases ht with rfl | rfl | rfl | rfl
    · exact hm
    · exact div_nonneg (mul_nonneg hm hd) zero_le_two
    · exact h3
    · exact div_nonneg hr zero_le_two
  · intro t ht _ a b c ho
    simp only [lowTriv, List.mem_cons, List.not_mem_nil, or_false] at ht
    rcases ht with rfl | rfl | rfl | rfl
    · oct_pos
    · refine mul_nonneg ?_ (sd3_nonneg a b c)
      oct_pos
    · exact mul_nonneg (sq_nonneg _) (prodA_nonneg a b c ho)
    · exact sdTail_nonneg a b c ho

theorem aAnswer_sound {X : QuinticExt K} (hX : X.Sound) {m z u v w : K} (hm : 0 ≤ m) (hr : 0 ≤ (1 + v + (z + u) * 2) * m + w) (hd : duOf z u = 0) {p : K × K} {C : Cert K}
    (h : aAnswer X m ((1 - z) / 2) v ((1 + v + (z + u) * 2) * m + w) p = .ok (some C)) : Holds (symQ m (m * z) (m * u) (m * v) w) C := by
  unfold aAnswer at h
  dsimp only at h
  split at h
  · cases h
  · rename_i E hE
    split at h
    · cases h
    · cases h
    · rename_i Q hQ
      obtain rfl := Option.some.inj (Except.ok.inj h)
      obtain ⟨hk, hden, hv⟩ := quad1_some hE
      have hH := hX.quart _ _ hQ
      have h1 := (((hH.add hr (e := fun a b c => sab3 a b c * E.val a b c) fun a b c ho => mul_nonneg (sab3_nonneg a b c ho) (by
        rw [hv]
        exact quad1_nonneg hk a b c ho)).times prodA_nonneg).add hm (e := cyc3 fun a b c => c * aFunc ((1 - z) / 2) p.1 p.2 a b c ^ 2) (by
          intro a b c ho
          oct_pos))
      refine (h1.ident.quot1 hE ?_).holds (weights_quot h1.1.weights)
      intro a b c
      rw [hv]
      have hu : u = (z ^ 2 + 2 * z + 5) / 4 := by
        unfold duOf at hd
        linarith
      have e := caseA_id m ((1 - z) / 2) v p.1 p.2 w a b c
      have ez : 1 - 2 * ((1 - z) / 2) = z := by ring
      rw [ez, ← hu] at e
      exact e.symm

theorem dbl_point {z u v r : K} (h : r ^ 3 + (2 * z + 2) * r ^ 2 + (2 * u + v + 4 * z + 3) * r + (2 * u + 2 * z + 2) = 0)
    (h' : 3 * r ^ 2 + 2 * (2 * z + 2) * r + (2 * u + v + 4 * z + 3) = 0) : u = curveU z (r + 1) ∧ v = curveV z (r + 1) := by
  unfold curveU curveV
  constructor
  · linear_combination h / 2 - r / 2 * h'
  · linear_combination (1 + r) * h' - h

theorem bAnswer_sound {m z t W ex w : K} (hm : 0 ≤ m) (ht : t ≠ 1) (hz : W + ex = 2 * z - 1 + 2 * t) {p : K × K} {C : Cert K}
    (h : bAnswer m t W ex ((1 + curveV z t + (z + curveU z t) * 2) * m + w) p = .ok (some C)) :
    Ident (symQ m (m * z) (m * curveU z t) (m * curveV z t) w) C ∧
      (0 ≤ (1 + curveV z t + (z + curveU z t) * 2) * m + w → 0 ≤ ex → bVerify t W p → Holds (symQ m (m * z) (m * curveU z t) (m * curveV z t) w) C) := by
  unfold bAnswer at h
  dsimp only at h
  split at h
  · cases h
  · rename_i E hE
    obtain rfl := Option.some.inj (Except.ok.inj h)
    obtain ⟨hk, hden, hv⟩ := quad1_some hE
    have hI := (ident_sumY (f := fun a b c => quad1 (bCoef t p.1 p.2 W).u a b c * symQ m (m * z) (m * curveU z t) (m * curveV z t) w a b c) (l := [
      (m, cyc3 fun a b c => c * bFunc t p.1 p.2 a b c ^ 2),
      (m * (bCoef t p.1 p.2 W).v, fun a b c => sumA a b c * discV3 a b c),
      (m * (bCoef t p.1 p.2 W).q, cyc3 fun a b c => c * (a - b) ^ 2 * (t * a * b - (t - 1) * a * c - (t - 1) * b * c) ^ 2),
      (m * ex / 2, fun a b c => E.val a b c * tgc t a b c),
      (m * (bCoef t p.1 p.2 W).ind / 2, fun a b c => prodA a b c * cyc3 (fun a b c => (a - b) ^ 2 * (a + b - t * c) ^ 2) a b c),
      ((1 + curveV z t + (z + curveU z t) * 2) * m + w, fun a b c => E.val a b c * tail5 a b c)]) (by
        intro a b c
        have e := caseB_id m z t p.1 p.2 W ex w a b c (sub_ne_zero.2 ht) hz
        unfold quad1
        rw [e]
        simp only [List.map_cons, List.map_nil, List.sum_cons, List.sum_nil, hv, quad1]
        ring) (by
        intro s hs _ a b c ho
        simp only [List.mem_cons, List.not_mem_nil, or_false] at hs
        rcases hs with rfl | rfl | rfl | rfl | rfl | rfl
        · oct_pos
        · exact sdisc_nonneg a b c ho
        · oct_pos
        · dsimp only
          rw [hv]
          exact mul_nonneg (quad1_nonneg hk a b c ho) (tgc_nonneg t a b c ho)
        · exact mul_nonneg (prodA_nonneg a b c ho) (cyc3_nonneg_all (fun a b c => by positivity) a b c)
        · dsimp only
          rw [hv]
          exact mul_nonneg (quad1_nonneg hk a b c ho) (tail5_nonneg a b c ho))).quot1 hE (fun _ _ _ => rfl)
    refine ⟨hI, fun hr hex hb => hI.holds (weights_quot (weights_sumY ?_))⟩
    obtain ⟨_, h2, h3, h4⟩ := hb
    intro s hs
    simp only [List.mem_cons, List.not_mem_nil, or_false] at hs
    rcases hs with rfl | rfl | rfl | rfl | rfl | rfl
    · exact hm
    · exact mul_nonneg hm h2
    · exact mul_nonneg hm h3
    · exact div_nonneg (mul_nonneg hm hex) zero_le_two
    · exact div_nonneg (mul_nonneg hm h4) zero_le_two
    · exact hr

theorem bWeight_spec {X : QuinticExt K} {t u w : K} {W : K × K} (h : bWeight X t u w = some W) : W.1 + W.2 = w ∧ 0 ≤ W.2 ∧ bVerify t W.1 (bStart t u) := by
  unfold bWeight at h
  split_ifs at h with h1
  · obtain rfl := Option.some.inj h
    exact ⟨by simp, le_refl _, h1⟩
  · obtain ⟨w', hw', rfl⟩ := Option.map_eq_some_iff.1 h
    have := of_decide_eq_true (List.find?_some (p := fun w' => decide (w' ≤ w ∧ bVerify t w' (bStart t u))) hw')
    exact ⟨by simp, by simpa using this.1, this.2⟩

theorem bPick_verify {X : QuinticExt K} (hX : X.Digits) {t w u du : K} {p : K × K} (h : bVerify t w p) : bVerify t w (bPick X t w u du p) := by
  unfold bPick
  split_ifs with h1
  · cases hf : (X.rounds (X.approx p)).find? fun q => decide (bVerify t w q) with
    | none => exact hX t w p h
    | some q => exact of_decide_eq_true (List.find?_some (p := fun q => decide (bVerify t w q)) hf)
  · exact h

theorem caseB_sound {X : QuinticExt K} {m z u v w u0 r : K} (hm : 0 ≤ m) (hr : 0 ≤ (1 + v + (z + u) * 2) * m + w)
    (h0 : r ^ 3 + (2 * z + 2) * r ^ 2 + (2 * u + v + 4 * z + 3) * r + (2 * u + 2 * z + 2) = 0) (h1 : 3 * r ^ 2 + 2 * (2 * z + 2) * r + (2 * u + v + 4 * z + 3) = 0) {C : Cert K}
    (h : caseB X m z u ((1 + v + (z + u) * 2) * m + w) u0 r = .ok (some C)) :
    Ident (symQ m (m * z) (m * u) (m * v) w) C ∧ (X.Digits → Holds (symQ m (m * z) (m * u) (m * v) w) C) := by
  obtain ⟨hu, hv⟩ := dbl_point h0 h1
  unfold caseB at h
  dsimp only at h
  split at h
  · cases h
  · cases h
  · rename_i u1 _
    split_ifs at h with h2 h3
    · cases h
    · split at h
      · cases h
      · rename_i W hW
        obtain ⟨hs, hex, hb⟩ := bWeight_spec hW
        push Not at h3
        have hq : X.Digits → bVerify (r + 1) W.1 (bPick X (r + 1) W.1 u1 (duOf z u) (bStart (r + 1) u1)) := fun hX => bPick_verify hX hb
        generalize bPick X (r + 1) W.1 u1 (duOf z u) (bStart (r + 1) u1) = q at h hq
        clear h0 h1
        rw [hu, hv] at h hr ⊢
        obtain ⟨hI, hH⟩ := bAnswer_sound hm h3.1 hs h
        exact ⟨hI, fun hX => hH hr hex (hq hX)⟩

theorem caseC_sound {m z u v w t : K} (hm : 0 ≤ m) (hr : 0 ≤ (1 + v + (z + u) * 2) * m + w) (ht : 3 ≤ t) {C : Cert K}
    (h : caseC m z u v ((1 + v + (z + u) * 2) * m + w) t = .ok (some C)) : Holds (symQ m (m * z) (m * u) (m * v) w) C := by
  have ht0 : t ≠ 0 := by
    rintro rfl
    norm_num at ht
  unfold caseC at h
  dsimp only at h
  split_ifs at h with h1 h2 h3 h4
  · cases h
  · rw [← Option.some.inj (Except.ok.inj h)]
    push Not at h2
    refine holds_sumY ?_ h2 ?_
    · intro a b c
      rw [← caseC_first_id m z u v w t a b c ht0]
      simp only [cFirst, List.map_cons, List.map_nil, List.sum_cons, List.sum_nil]
      ring
    · intro s hs _ a b c ho
      simp only [cFirst, List.mem_cons, List.not_mem_nil, or_false] at hs
      rcases hs with rfl | rfl | rfl | rfl
      · exact tgt_nonneg_of_nonneg (sub_nonneg.2 h1) _ a b c ho
      · dsimp only
        oct_pos
      · exact prodSd_nonneg a b c ho
      · exact tail5_nonneg a b c ho
  · cases h
  · push Not at h4
    split at h
    · cases h
    · rename_i E hE
      obtain rfl := Option.some.inj (Except.ok.inj h)
      obtain ⟨hk, hden, hv⟩ := quad1_some hE
      have hI := (ident_sumY (f := fun a b c => quad1 (-((7 * t ^ 2 + 30 * t - 9) / (16 * t ^ 2))) a b c * symQ m (m * z) (m * u) (m * v) w a b c)
        (l := cSecond m z u v ((1 + v + (z + u) * 2) * m + w) t E) (by
          intro a b c
          have e := caseC_second_id m z u v w t a b c ht0
          unfold quad1
          rw [e]
          simp only [cSecond, List.map_cons, List.map_nil, List.sum_cons, List.sum_nil, hv, quad1]
          ring) (by
          intro s hs _ a b c ho
          have hE0 : 0 ≤ E.val a b c := by
            rw [hv]
            exact quad1_nonneg hk a b c ho
          simp only [cSecond, List.mem_cons, List.not_mem_nil, or_false] at hs
          rcases hs with rfl | rfl | rfl | rfl | rfl | rfl
          · oct_pos
          · exact mul_nonneg (prodA_nonneg a b c ho) (cyc3_nonneg_all (fun a b c => by positivity) a b c)
          · exact mul_nonneg hE0 (tgc_nonneg _ a b c ho)
          · refine mul_nonneg hE0 ?_
            oct_pos
          · exact mul_nonneg hE0 (prodSd_nonneg a b c ho)
          · exact mul_nonneg hE0 (tail5_nonneg a b c ho))).quot1 hE (fun _ _ _ => rfl)
      refine hI.holds (weights_quot (weights_sumY ?_))
      have hq : 0 ≤ t ^ 2 - t + 2 := by nlinarith
      have ht3 : 0 ≤ t ^ 3 := by positivity
      intro s hs
      simp only [cSecond, List.mem_cons, List.not_mem_nil, or_false] at hs
      rcases hs with rfl | rfl | rfl | rfl | rfl | rfl
      · exact hm
      · exact mul_nonneg (div_nonneg (div_nonneg (mul_nonneg (by linarith) hq) ht3) (by norm_num)) hm
      · exact div_nonneg (mul_nonneg h3 hm) zero_le_two
      · exact h4.1
      · exact h4.2
      · exact hr
  · cases h

theorem cPick_ge {X : QuinticExt K} {z u v t : K} (ht : 3 ≤ t) : 3 ≤ cPick X z u v t := by
  unfold cPick
  split_ifs with h
  · exact ht
  · cases hf : (X.boundT t (decide (9 * t ^ 2 + 8 * t * z + 2 * t + 9 ≤ 0))).find? fun s => decide (3 ≤ s ∧ eqt1 z u s ≤ 0 ∧ eqt2 z v s ≤ 0) with
    | none => exact ht
    | some q => exact (of_decide_eq_true (List.find?_some (p := fun s => decide (3 ≤ s ∧ eqt1 z u s ≤ 0 ∧ eqt2 z v s ≤ 0)) hf)).1

theorem quinLow_sound {X : QuinticExt K} (hX : X.Sound) {m z u v w : K} (hm : 0 ≤ m) (hr : 0 ≤ (1 + v + (z + u) * 2) * m + w) {C : Cert K}
    (h : quinLow X m z u v ((1 + v + (z + u) * 2) * m + w) = .ok (some C)) :
    Ident (symQ m (m * z) (m * u) (m * v) w) C ∧ (X.Digits → Holds (symQ m (m * z) (m * u) (m * v) w) C) := by
  unfold quinLow at h
  by_cases h1 : duOf z u < 0
  · rw [if_pos h1] at h
    cases h
  rw [if_neg h1] at h
  by_cases h2 : 0 ≤ m * (v - (z ^ 2 - 6 * z - 9) / 2 + 2 * duOf z u) / 4
  · rw [if_pos h2] at h
    rw [← Option.some.inj (Except.ok.inj h)]
    have := lowTriv_sound hm hr h1 h2
    exact ⟨this.ident, fun _ => this⟩
  · rw [if_neg h2] at h
    split at h
    · cases h
    · rename_i u0 hu0
      have hu3 := (of_decide_eq_true (List.find?_some (p := fun t => decide (3 ≤ t ∧ eqt2 z v t ≤ 1 / 10 ^ 8)) hu0)).1
      dsimp only at h
      by_cases h3 : duOf z u = 0 ∧ aVerify ((1 - z) / 2) v (-((1 - z) / 2) * lowW0 u0 - lowW1 u0, -lowW0 u0)
      · rw [if_pos h3] at h
        have := aAnswer_sound hX hm hr h3.1 h
        exact ⟨this.ident, fun _ => this⟩
      · rw [if_neg h3] at h
        by_cases h4 : duOf z u = 0 ∧ X.rational = true
        · rw [if_pos h4] at h
          cases h
        · rw [if_neg h4] at h
          split at h
          · rename_i r hd
            exact caseB_sound hm hr (hX.dbl z u v r hd).1 (hX.dbl z u v r hd).2 h
          · have := caseC_sound hm hr (cPick_ge hu3) h
            exact ⟨this.ident, fun _ => this⟩

/-! ### The solver -/

theorem quintic_normal {f : Quintic K} (h0 : f.c500 ≠ 0) (hs : f.c410 = f.c140 ∧ f.c320 = f.c230) :
    symQ f.c500 (f.c500 * (f.c410 / f.c500)) (f.c500 * (f.c320 / f.c500)) (f.c500 * (f.c311 / f.c500)) f.c221 = f.poly := by
  rw [mul_div_cancel₀ _ h0, mul_div_cancel₀ _ h0, mul_div_cancel₀ _ h0]
  unfold symQ
  congr 1
  cases f
  simp_all

/-- What the solver reads, normalised. -/
def Quintic.z (f : Quintic K) : K := f.c410 / f.c500
def Quintic.u (f : Quintic K) : K := f.c320 / f.c500
def Quintic.v (f : Quintic K) : K := f.c311 / f.c500

/-- **Every answer of the solver is an identity, and unless two recorded conditions fail, all its weights are nonnegative.** -/
theorem quinSym_sound {X : QuinticExt K} (hX : X.Sound) {f : Quintic K} {C : Cert K} (h : quinSym X f = .ok (some C))
    (hn : f.c500 ≠ 0 → -1 ≤ f.z → ¬ SecantDegenerate f.z f.u f.v) :
    Ident f.poly C ∧ ((f.c500 ≠ 0 → -1 ≤ f.z → SecantPositive f.z f.u f.v) → X.Digits → Holds f.poly C) := by
  unfold quinSym at h
  dsimp only at h
  by_cases h1 : ¬ (f.c410 = f.c140 ∧ f.c320 = f.c230) ∨ f.c500 < 0
  · rw [if_pos h1] at h
    cases h
  · rw [if_neg h1] at h
    push Not at h1
    obtain ⟨hs, hm⟩ := h1
    by_cases h2 : f.c500 = 0
    · rw [if_pos h2] at h
      obtain ⟨r, hr, hr2⟩ := quinHexagon_sound f.c410 f.c320 f.c311 f.c221
      rw [hr] at h
      have hp : symQ 0 f.c410 f.c320 f.c311 f.c221 = f.poly := by
        unfold symQ
        congr 1
        cases f
        simp_all
      have := hr2 C (Except.ok.inj h)
      rw [hp] at this
      exact ⟨this.ident, fun _ _ => this⟩
    · rw [if_neg h2] at h
      by_cases h3 : (1 + f.c311 / f.c500 + (f.c410 / f.c500 + f.c320 / f.c500) * 2) * f.c500 + f.c221 < 0
      · rw [if_pos h3] at h
        cases h
      · rw [if_neg h3] at h
        push Not at h3
        have e := quintic_normal h2 hs
        have hfirst : ∀ C, (match findX X (f.c410 / f.c500) (f.c320 / f.c500) (f.c311 / f.c500) with
            | none => (.ok none : Except PyErr (Option (Cert K)))
            | some p => firstAns f.c500 (f.c410 / f.c500) (f.c320 / f.c500) (f.c311 / f.c500) f.c221 p) = .ok (some C) → Holds f.poly C := by
          intro C hC
          split at hC
          · cases hC
          · rename_i p _
            obtain ⟨r, hr, hr2⟩ := firstAns_sound (z := f.c410 / f.c500) (u := f.c320 / f.c500) (v := f.c311 / f.c500) (w := f.c221) hm p
            rw [hr] at hC
            rw [← e]
            exact hr2 C (Except.ok.inj hC)
        split at h
        · cases h
        · rename_i C' hC'
          obtain rfl := Option.some.inj (Except.ok.inj h)
          have := hfirst _ hC'
          exact ⟨this.ident, fun _ _ => this⟩
        · rw [← e]
          split_ifs at h with h4 h5
          · obtain ⟨a, b⟩ := quinUp_sound hm h4 h3 (hn h2 h4) h
            exact ⟨a, fun hp _ => b (hp h2 h4)⟩
          · have := quinMid_sound h
            exact ⟨this.ident, fun _ _ => this⟩
          · obtain ⟨a, b⟩ := quinLow_sound hX hm h3 h
            exact ⟨a, fun _ hd => b hd⟩

/-- A quintic that is nonnegative at positive, not all equal numbers is so on the closed octant. -/
theorem quintic_closure {f : Quintic K} (h : ∀ a b c : K, 0 < a → 0 < b → 0 < c → ¬ (a = b ∧ b = c) → 0 ≤ f.poly a b c) {a b c : K} (ha : 0 ≤ a) (hb : 0 ≤ b) (hc : 0 ≤ c) :
    0 ≤ f.poly a b c := by
  have key : ∀ x y z : K, 0 < x → 0 < y → 0 < z → (∀ e : K, 0 < e → ¬ (a + e * x = b + e * y ∧ b + e * y = c + e * z)) → 0 ≤ f.poly a b c := by
    intro x y z hx hy hz hne
    let A : Polynomial K := .C a + .X * .C x
    let B : Polynomial K := .C b + .X * .C y
    let D : Polynomial K := .C c + .X * .C z
    have hA : ∀ e, A.eval e = a + e * x := fun e => by rw [Polynomial.eval_add, Polynomial.eval_mul, Polynomial.eval_C, Polynomial.eval_C, Polynomial.eval_X]
    have hB : ∀ e, B.eval e = b + e * y := fun e => by rw [Polynomial.eval_add, Polynomial.eval_mul, Polynomial.eval_C, Polynomial.eval_C, Polynomial.eval_X]
    have hD : ∀ e, D.eval e = c + e * z := fun e => by rw [Polynomial.eval_add, Polynomial.eval_mul, Polynomial.eval_C, Polynomial.eval_C, Polynomial.eval_X]
    obtain ⟨q, hq⟩ : ∃ q : Polynomial K, ∀ e, q.eval e = f.poly (a + e * x) (b + e * y) (c + e * z) := by
      refine ⟨.C f.c500 * (A ^ 5 + B ^ 5 + D ^ 5) + .C f.c410 * (A ^ 4 * B + B ^ 4 * D + D ^ 4 * A) + .C f.c320 * (A ^ 3 * B ^ 2 + B ^ 3 * D ^ 2 + D ^ 3 * A ^ 2) +
        .C f.c230 * (A ^ 2 * B ^ 3 + B ^ 2 * D ^ 3 + D ^ 2 * A ^ 3) + .C f.c140 * (A * B ^ 4 + B * D ^ 4 + D * A ^ 4) +
        .C f.c311 * (A ^ 3 * B * D + B ^ 3 * D * A + D ^ 3 * A * B) + .C f.c221 * (A ^ 2 * B ^ 2 * D + B ^ 2 * D ^ 2 * A + D ^ 2 * A ^ 2 * B), fun e => ?_⟩
      simp only [Polynomial.eval_add, Polynomial.eval_mul, Polynomial.eval_pow, Polynomial.eval_C, hA, hB, hD]
      rfl
    have := eval_zero_nonneg q fun e he => by
      rw [hq]
      exact h _ _ _ (by positivity) (by positivity) (by positivity) (hne e he)
    rw [hq] at this
    simpa using this
  by_cases hd : a = b ∧ b = c
  · obtain ⟨rfl, rfl⟩ := hd
    refine key 1 2 3 one_pos two_pos three_pos fun e he ⟨h1, _⟩ => ?_
    linarith
  · refine key 1 1 1 one_pos one_pos one_pos fun e he ⟨h1, h2⟩ => hd ⟨?_, ?_⟩ <;> linarith

theorem Holds.quintic_nonneg {f : Quintic K} {C : Cert K} (h : Holds f.poly C) {a b c : K} (ha : 0 ≤ a) (hb : 0 ≤ b) (hc : 0 ≤ c) : 0 ≤ f.poly a b c :=
  quintic_closure (fun _ _ _ => h.nonneg) ha hb hc

/-- **So under the two conditions an answer shows that the quintic is nonnegative on the closed octant.** -/
theorem quinSym_nonneg {X : QuinticExt K} (hX : X.Sound) (hd : X.Digits) {f : Quintic K} {C : Cert K} (h : quinSym X f = .ok (some C))
    (hn : f.c500 ≠ 0 → -1 ≤ f.z → ¬ SecantDegenerate f.z f.u f.v ∧ SecantPositive f.z f.u f.v) {a b c : K} (ha : 0 ≤ a) (hb : 0 ≤ b) (hc : 0 ≤ c) : 0 ≤ f.poly a b c :=
  ((quinSym_sound hX h fun h0 h1 => (hn h0 h1).1).2 (fun h0 h1 => (hn h0 h1).2) hd).quintic_nonneg ha hb hc

/-! ### Refusals and completeness -/

/-- The first two refusals are right. -/
theorem quinSym_refuse {f : Quintic K} (hs : f.c410 = f.c140 ∧ f.c320 = f.c230)
    (h : f.c500 < 0 ∨ (0 < f.c500 ∧ (1 + f.c311 / f.c500 + (f.c410 / f.c500 + f.c320 / f.c500) * 2) * f.c500 + f.c221 < 0)) :
    ∃ a b c : K, 0 ≤ a ∧ 0 ≤ b ∧ 0 ≤ c ∧ f.poly a b c < 0 := by
  rcases h with h | ⟨h0, h⟩
  · refine ⟨1, 0, 0, zero_le_one, le_refl _, le_refl _, ?_⟩
    have : f.poly 1 0 0 = f.c500 := by
      unfold Quintic.poly
      ring
    rwa [this]
  · refine ⟨1, 1, 1, zero_le_one, zero_le_one, zero_le_one, ?_⟩
    rw [← quintic_normal h0.ne' hs]
    have : symQ f.c500 (f.c500 * (f.c410 / f.c500)) (f.c500 * (f.c320 / f.c500)) (f.c500 * (f.c311 / f.c500)) f.c221 1 1 1 =
        3 * ((1 + f.c311 / f.c500 + (f.c410 / f.c500 + f.c320 / f.c500) * 2) * f.c500 + f.c221) := by
      unfold symQ Quintic.poly
      ring
    rw [this]
    linarith

/-- The refusal for `z < -3` below the parabola is right over the reals. -/
theorem quinLow_refuse {f : Quintic ℝ} (hm : 0 < f.c500) (hs : f.c410 = f.c140 ∧ f.c320 = f.c230) (hz : f.z < -3) (hd : duOf f.z f.u < 0) :
    ∃ a b c : ℝ, 0 ≤ a ∧ 0 ≤ b ∧ 0 ≤ c ∧ f.poly a b c < 0 := by
  obtain ⟨s, hs2⟩ : ∃ s, s = (1 - f.z) / 2 := ⟨_, rfl⟩
  have hsp : 2 < s := by linarith
  have hD : 0 ≤ s ^ 2 - 4 := by nlinarith
  obtain ⟨x, hx⟩ : ∃ x, x = (s + Real.sqrt (s ^ 2 - 4)) / 2 := ⟨_, rfl⟩
  have hq := Real.sq_sqrt hD
  have hx0 : 0 < x := by
    have := Real.sqrt_nonneg (s ^ 2 - 4)
    rw [hx]
    linarith
  have hxe : x ^ 2 - s * x + 1 = 0 := by
    rw [hx]
    linear_combination hq / 4
  refine ⟨x, 1, 0, hx0.le, zero_le_one, le_refl _, ?_⟩
  rw [← quintic_normal hm.ne' hs]
  have hz' : f.z = 1 - 2 * s := by linarith
  have e : symQ f.c500 (f.c500 * (f.c410 / f.c500)) (f.c500 * (f.c320 / f.c500)) (f.c500 * (f.c311 / f.c500)) f.c221 x 1 0 =
      f.c500 * ((x + 1) * x ^ 2 * duOf f.z f.u) := by
    change symQ f.c500 (f.c500 * f.z) (f.c500 * f.u) (f.c500 * f.v) f.c221 x 1 0 = _
    rw [hz']
    unfold symQ Quintic.poly duOf
    linear_combination (f.c500 * (x + 1) * (x ^ 2 - s * x + 1)) * hxe
  rw [e]
  exact mul_neg_of_pos_of_neg hm (mul_neg_of_pos_of_neg (by positivity) hd)

theorem firstX_spec {z u v : K} : ∀ {l : List K} {p : K × K}, firstX z u v l = some p → criterion z u v p.1 = some p.2
  | [], p, h => by cases h
  | x :: l, p, h => by
    unfold firstX at h
    split at h
    · rename_i y hy
      obtain rfl := Option.some.inj h
      exact hy
    · exact firstX_spec h

theorem firstXs_spec {z u v : K} : ∀ {l : List (K × List K)} {p : K × K}, firstXs z u v l = some p → criterion z u v p.1 = some p.2
  | [], p, h => by cases h
  | x :: l, p, h => by
    unfold firstXs at h
    split at h
    · exact firstXs_spec h
    · split at h
      · rename_i q hq
        obtain rfl := Option.some.inj h
        exact firstX_spec hq
      · exact firstXs_spec h

theorem findX_spec {X : QuinticExt K} {z u v : K} {p : K × K} (h : findX X z u v = some p) : criterion z u v p.1 = some p.2 := by
  unfold findX at h
  split at h
  · rename_i q hq
    obtain rfl := Option.some.inj h
    exact firstX_spec hq
  · split_ifs at h
    · exact firstX_spec h
    · exact firstXs_spec h

/-- **Completeness of the first method**: a number that passes the criterion gives an answer for every quintic that is nonnegative at `(1, 1, 1)`, whatever the
other calls return. -/
theorem quinSym_first_complete {X : QuinticExt K} {f : Quintic K} (hm : 0 < f.c500) (hs : f.c410 = f.c140 ∧ f.c320 = f.c230) {p : K × K}
    (hp : findX X f.z f.u f.v = some p) (h1 : 0 ≤ f.poly 1 1 1) : ∃ C, quinSym X f = .ok (some C) ∧ Holds f.poly C := by
  have e := quintic_normal hm.ne' hs
  have h1' := h1
  rw [← e] at h1'
  obtain ⟨C, hC⟩ := firstAns_complete hm (findX_spec hp) h1'
  obtain ⟨r, hr, hr2⟩ := firstAns_sound (z := f.c410 / f.c500) (u := f.c320 / f.c500) (v := f.c311 / f.c500) (w := f.c221) hm.le p
  have hC' : firstAns f.c500 (f.c410 / f.c500) (f.c320 / f.c500) (f.c311 / f.c500) f.c221 p = .ok (some C) := hC
  rw [hC'] at hr
  refine ⟨C, ?_, e ▸ hr2 C (Except.ok.inj hr).symm⟩
  have hrem : ¬ (1 + f.c311 / f.c500 + (f.c410 / f.c500 + f.c320 / f.c500) * 2) * f.c500 + f.c221 < 0 := by
    have : symQ f.c500 (f.c500 * (f.c410 / f.c500)) (f.c500 * (f.c320 / f.c500)) (f.c500 * (f.c311 / f.c500)) f.c221 1 1 1 =
        3 * ((1 + f.c311 / f.c500 + (f.c410 / f.c500 + f.c320 / f.c500) * 2) * f.c500 + f.c221) := by
      unfold symQ Quintic.poly
      ring
    rw [this] at h1'
    linarith
  unfold quinSym
  dsimp only
  rw [if_neg (by push Not; exact ⟨hs, hm.le⟩), if_neg hm.ne', if_neg hrem]
  have hp' : findX X (f.c410 / f.c500) (f.c320 / f.c500) (f.c311 / f.c500) = some p := hp
  rw [hp']
  dsimp only
  rw [hC']

/-- **Completeness of the trivial case**: above the leftmost point of the curve there is always an answer. -/
theorem quinSym_trivial_complete {X : QuinticExt K} {f : Quintic K} (hm : 0 < f.c500) (hs : f.c410 = f.c140 ∧ f.c320 = f.c230) (hz : -1 ≤ f.z) (h1 : 0 ≤ f.u + 1 + f.z)
    (h2 : 0 ≤ f.v + 3 + 4 * f.z + 2 * f.u) (hr : 0 ≤ f.poly 1 1 1) : ∃ C, quinSym X f = .ok (some C) ∧ Holds f.poly C := by
  cases hp : findX X f.z f.u f.v with
  | some p => exact quinSym_first_complete hm hs hp hr
  | none =>
    have e := quintic_normal hm.ne' hs
    have hr' := hr
    rw [← e] at hr'
    have hrem : 0 ≤ (1 + f.c311 / f.c500 + (f.c410 / f.c500 + f.c320 / f.c500) * 2) * f.c500 + f.c221 := by
      have : symQ f.c500 (f.c500 * (f.c410 / f.c500)) (f.c500 * (f.c320 / f.c500)) (f.c500 * (f.c311 / f.c500)) f.c221 1 1 1 =
          3 * ((1 + f.c311 / f.c500 + (f.c410 / f.c500 + f.c320 / f.c500) * 2) * f.c500 + f.c221) := by
        unfold symQ Quintic.poly
        ring
      rw [this] at hr'
      linarith
    obtain ⟨C, hC, hH⟩ := upTriv_sound (z := f.c410 / f.c500) (u := f.c320 / f.c500) (v := f.c311 / f.c500) (w := f.c221) hm.le hz hrem h1 h2
    refine ⟨C, ?_, e ▸ hH⟩
    unfold quinSym
    dsimp only
    have hp' : findX X (f.c410 / f.c500) (f.c320 / f.c500) (f.c311 / f.c500) = none := hp
    have hz' : -1 ≤ f.c410 / f.c500 := hz
    rw [if_neg (by push Not; exact ⟨hs, hm.le⟩), if_neg hm.ne', if_neg (not_lt.2 hrem), hp']
    dsimp only
    rw [if_pos hz']
    unfold quinUp
    have hcond : 0 ≤ f.c320 / f.c500 + 1 + f.c410 / f.c500 ∧ 0 ≤ f.c311 / f.c500 + 3 + 4 * (f.c410 / f.c500) + 2 * (f.c320 / f.c500) := ⟨h1, h2⟩
    rw [if_pos hcond]
    exact hC

/-! ### What goes wrong -/

/-- When the first method finds nothing the branch depends on `z`. -/
theorem quinSym_rest {X : QuinticExt K} {f : Quintic K} (hm : 0 < f.c500) (hs : f.c410 = f.c140 ∧ f.c320 = f.c230) (h1 : 0 ≤ f.poly 1 1 1)
    (hp : findX X f.z f.u f.v = none) :
    quinSym X f = (if -1 ≤ f.z then quinUp f.c500 f.z f.u f.v ((1 + f.v + (f.z + f.u) * 2) * f.c500 + f.c221)
      else if -3 ≤ f.z then quinMid f.c500 f.z f.u f.v ((1 + f.v + (f.z + f.u) * 2) * f.c500 + f.c221)
      else quinLow X f.c500 f.z f.u f.v ((1 + f.v + (f.z + f.u) * 2) * f.c500 + f.c221)) := by
  have e := quintic_normal hm.ne' hs
  rw [← e] at h1
  have hrem : 0 ≤ (1 + f.v + (f.z + f.u) * 2) * f.c500 + f.c221 := by
    have : symQ f.c500 (f.c500 * (f.c410 / f.c500)) (f.c500 * (f.c320 / f.c500)) (f.c500 * (f.c311 / f.c500)) f.c221 1 1 1 =
        3 * ((1 + f.v + (f.z + f.u) * 2) * f.c500 + f.c221) := by
      unfold symQ Quintic.poly Quintic.z Quintic.u Quintic.v
      ring
    rw [this] at h1
    linarith
  unfold quinSym
  dsimp only
  change (if _ then _ else if _ then _ else if (1 + f.v + (f.z + f.u) * 2) * f.c500 + f.c221 < 0 then _ else _) = _
  rw [if_neg (by push Not; exact ⟨hs, hm.le⟩), if_neg hm.ne', if_neg (not_lt.2 hrem)]
  have hp' : findX X (f.c410 / f.c500) (f.c320 / f.c500) (f.c311 / f.c500) = none := hp
  rw [hp']
  rfl

/-- For a quintic with a negative value on the octant the first method never answers. -/
theorem quinSym_neg {X : QuinticExt K} {f : Quintic K} (hm : 0 < f.c500) (hs : f.c410 = f.c140 ∧ f.c320 = f.c230) (h1 : 0 ≤ f.poly 1 1 1)
    {a b c : K} (ho : Octant a b c) (hneg : f.poly a b c < 0) :
    quinSym X f = (if -1 ≤ f.z then quinUp f.c500 f.z f.u f.v ((1 + f.v + (f.z + f.u) * 2) * f.c500 + f.c221)
      else if -3 ≤ f.z then quinMid f.c500 f.z f.u f.v ((1 + f.v + (f.z + f.u) * 2) * f.c500 + f.c221)
      else quinLow X f.c500 f.z f.u f.v ((1 + f.v + (f.z + f.u) * 2) * f.c500 + f.c221)) := by
  cases hp : findX X f.z f.u f.v with
  | some p =>
    obtain ⟨C, _, hH⟩ := quinSym_first_complete hm hs hp h1
    exact absurd (hH.quintic_nonneg ho.1 ho.2.1 ho.2.2) (not_le.2 hneg)
  | none => exact quinSym_rest hm hs h1 hp

/-- A quintic that is negative at `(1, 1, 0)`. -/
def degenerateQ : Quintic ℚ := ⟨1, -1 / 2, -1, -1, -1 / 2, 0, 2⟩

/-- **First fault**: whatever the calls return, the degenerate secant gives an answer of nonnegative weights for a quintic that is negative at `(1, 1, 0)`. -/
theorem quinSym_degenerate_fault (X : QuinticExt ℚ) :
    (∃ C, quinSym X degenerateQ = .ok (some C) ∧ ∀ t ∈ C.terms, 0 ≤ t.1) ∧ degenerateQ.poly 1 1 0 < 0 ∧ SecantDegenerate degenerateQ.z degenerateQ.u degenerateQ.v := by
  have hneg : degenerateQ.poly 1 1 0 < 0 := by
    norm_num [degenerateQ, Quintic.poly]
  refine ⟨?_, hneg, ?_⟩
  · rw [quinSym_neg (by norm_num [degenerateQ]) (by norm_num [degenerateQ]) (by norm_num [degenerateQ, Quintic.poly]) (by norm_num [Octant]) hneg,
      if_pos (by norm_num [degenerateQ, Quintic.z])]
    refine ⟨secPlain 1 (-1 / 2) (2 / 3) 0 0 0, by norm_num [quinUp, upSecond, degenerateQ, Quintic.z, Quintic.u, Quintic.v, secant, secDen, secT, curveV], ?_⟩
    exact weights_sumY (by simp)
  · norm_num [SecantDegenerate, secT, secDen, degenerateQ, Quintic.z, Quintic.u, Quintic.v]

def verticalQ : Quintic ℚ := ⟨1, 1 / 2, -2, -2, 1 / 2, 2, 0⟩

/-- **Second fault**: when the secant has no second point the solver raises `TypeError` instead of returning `None`. -/
theorem quinSym_vertical_fault (X : QuinticExt ℚ) : quinSym X verticalQ = .error .typeError ∧ verticalQ.poly 1 1 0 < 0 := by
  have hneg : verticalQ.poly 1 1 0 < 0 := by
    norm_num [verticalQ, Quintic.poly]
  refine ⟨?_, hneg⟩
  rw [quinSym_neg (by norm_num [verticalQ]) (by norm_num [verticalQ]) (by norm_num [verticalQ, Quintic.poly]) (by norm_num [Octant]) hneg,
    if_pos (by norm_num [verticalQ, Quintic.z])]
  norm_num [quinUp, upSecond, verticalQ, Quintic.z, Quintic.u, Quintic.v, secant, secDen]

def lowerQ : Quintic ℚ := ⟨1, 0, -79 / 27, -79 / 27, 0, 41 / 27, 10⟩

/-- **Third fault**: the last answer of the secant method can have a negative weight. -/
theorem quinSym_negative_weight (X : QuinticExt ℚ) : ∃ C, quinSym X lowerQ = .ok (some C) ∧ ∃ t ∈ C.terms, t.1 < 0 := by
  have hneg : lowerQ.poly 1 1 0 < 0 := by
    norm_num [lowerQ, Quintic.poly]
  rw [quinSym_neg (by norm_num [lowerQ]) (by norm_num [lowerQ]) (by norm_num [lowerQ, Quintic.poly]) (by norm_num [Octant]) hneg,
    if_pos (by norm_num [lowerQ, Quintic.z])]
  refine ⟨secHigher 1 0 (1 / 3) (-1) (1 / 2) (1 + 41 / 27 + -79 / 27 * 2 + 10),
    by norm_num [quinUp, upSecond, lowerQ, Quintic.z, Quintic.u, Quintic.v, secant, secDen, secT, curveV], ?_⟩
  refine ⟨(-1 / 4, fun a b c => sd3 a b c * tgc (-1) a b c), ?_, by norm_num⟩
  norm_num [secHigher, over, Cert.plain, sumY]

/-- `CyclicSum(a*(a-b)*(a-c))` over the symbols 0, 1, 2. -/
def schurTree : Extract.Ex K :=
  .cyc false (.mul [.sym 0, .add [.sym 0, .mul [.const (-1), .sym 1]], .add [.sym 0, .mul [.const (-1), .sym 2]]]) [0, 1, 2] [[0, 1, 2], [1, 2, 0], [2, 0, 1]]

theorem dfsL_none {S : Extract.Sem K} {ok : Extract.Ex K → Bool} {e : Extract.Ex K} (he : Extract.dfs S (fun _ => none) ok e = none) :
    ∀ {l : List (Extract.Ex K)}, e ∈ l → Extract.dfsL S (fun _ => none) ok l = none
  | x :: l, h => by
    unfold Extract.dfsL
    rcases List.mem_cons.1 h with rfl | h
    · rw [he]
    · cases Extract.dfs S (fun _ => none) ok x with
      | none => rfl
      | some y =>
        dsimp only
        rw [dfsL_none he h]

theorem closedL_false {e : Extract.Ex K} (he : Extract.closed e = false) : ∀ {l : List (Extract.Ex K)}, e ∈ l → Extract.closedL l = false
  | x :: l, h => by
    unfold Extract.closedL
    rcases List.mem_cons.1 h with rfl | h
    · rw [he, Bool.false_and]
    · rw [closedL_false he h, Bool.and_false]

theorem schurTree_lost (S : Extract.Sem K) (ok : Extract.Ex K → Bool) : Extract.dfs S (fun _ => none) ok schurTree = none := by
  simp [schurTree, Extract.dfs, Extract.dfsL, Extract.isPow2, Extract.isMulPow2, Extract.closed, Extract.closedL]

/-- **Fourth fault**: the sign check at the end of the ternary solver rejects every answer one of whose terms has the factor `CyclicSum(a*(a-b)*(a-c))`, as have the two
answers of higher degree of the secant method. -/
theorem quinSym_schur_lost (S : Extract.Sem K) (ok : Extract.Ex K → Bool) {factors summands : List (Extract.Ex K)} (h1 : schurTree ∈ factors) (h2 : .mul factors ∈ summands)
    (rest : List (Extract.Ex K)) : Extract.dfs S (fun _ => none) ok (.mul (.add summands :: rest)) = none := by
  have c0 : Extract.closedL factors = false := closedL_false (e := schurTree) (by simp [schurTree, Extract.closed, Extract.closedL]) h1
  have e1 : Extract.dfs S (fun _ => none) ok (.mul factors) = none := by
    unfold Extract.dfs
    dsimp only
    rw [c0, dfsL_none (schurTree_lost S ok) h1]
    rfl
  have c1 : Extract.closedL summands = false := closedL_false (e := .mul factors) (by simpa [Extract.closed] using c0) h2
  have e2 : Extract.dfs S (fun _ => none) ok (.add summands) = none := by
    unfold Extract.dfs
    dsimp only
    rw [c1, dfsL_none e1 h2]
    rfl
  have c2 : Extract.closedL (.add summands :: rest) = false := closedL_false (e := .add summands) (by simpa [Extract.closed] using c1) (by simp)
  unfold Extract.dfs
  dsimp only
  rw [c2, dfsL_none e2 (by simp)]
  rfl

/-! ### Coefficients -/

/-- The seven numbers determine the value of a cyclic quintic. -/
theorem quintic_ofCoeff (co : Coeff K) (h : co.WF) (hn : co.nvars = 3) (hd : co.Hom 5) (hc : co.isCyclicDefault = true) (a b c : K) :
    Coeff.evalDict co.coeffs [a, b, c] = (Quintic.ofCoeff co).poly a b c := by
  have hrot := (Coeff.isCyclicDefault_iff co h (by omega)).1 hc
  rw [Coeff.evalDict_hom co h 5 hd, hn]
  have e : generatePartitions 3 5 true = [[5, 0, 0], [4, 1, 0], [4, 0, 1], [3, 2, 0], [3, 1, 1], [3, 0, 2], [2, 3, 0], [2, 2, 1], [2, 1, 2], [2, 0, 3], [1, 4, 0], [1, 3, 1],
    [1, 2, 2], [1, 1, 3], [1, 0, 4], [0, 5, 0], [0, 4, 1], [0, 3, 2], [0, 2, 3], [0, 1, 4], [0, 0, 5]] := by decide +kernel
  have r1 : ∀ x y z : ℕ, co.call [y, z, x] = co.call [x, y, z] := fun x y z => hrot [x, y, z] 1 (by simp [hn])
  have r2 : ∀ x y z : ℕ, co.call [z, x, y] = co.call [x, y, z] := fun x y z => hrot [x, y, z] 2 (by simp [hn])
  rw [e]
  simp only [List.map_cons, List.map_nil, List.sum_cons, List.sum_nil, Coeff.evalMonom, List.zipWith_cons_cons, List.zipWith_nil_left, List.zipWith_nil_right,
    List.prod_cons, List.prod_nil, Quintic.poly, Quintic.ofCoeff]
  rw [r1 5 0 0, r2 5 0 0, r1 4 1 0, r2 4 1 0, r1 3 2 0, r2 3 2 0, r1 2 3 0, r2 2 3 0, r1 1 4 0, r2 1 4 0, r1 3 1 1, r2 3 1 1, r1 2 2 1, r2 2 2 1]
  ring

/-! ### The hypotheses are met -/

/-- Calls that find nothing. -/
def nothingX : QuinticExt ℚ :=
  ⟨true, fun _ _ _ => none, fun _ _ _ => [], fun _ _ _ => [], fun _ => .ok none, fun _ _ => [], fun _ => true, id, fun _ => [], fun _ _ _ => none, fun x => .ok x, fun _ => [],
    fun _ _ => []⟩

theorem nothingX_sound : nothingX.Sound where
  quart g C h := by simp [nothingX] at h
  dbl z u v r h := by simp [nothingX] at h

theorem nothingX_digits : nothingX.Digits := fun _ _ _ h => h

def midQ : Quintic ℚ := ⟨1, -2, 2, 2, -2, 2, -3⟩

/-- The branch `-3 <= z <= -1`. -/
theorem quinMid_example : ∃ C, quinSym nothingX midQ = .ok (some C) := by
  rw [quinSym_rest (by norm_num [midQ]) (by norm_num [midQ]) (by norm_num [midQ, Quintic.poly]) rfl, if_neg (by norm_num [midQ, Quintic.z]),
    if_pos (by norm_num [midQ, Quintic.z])]
  unfold quinMid
  rw [if_pos (by norm_num [midTriv, midQ, Quintic.z, Quintic.u, Quintic.v])]
  exact ⟨_, rfl⟩

def upQ : Quintic ℚ := ⟨1, 1, 5 / 54, 5 / 54, 1, -541 / 54, 10⟩

/-- The branch `z >= -1`, outside the trivial cases, with a secant that is not degenerate. -/
theorem quinUp_example : (∃ C, quinSym nothingX upQ = .ok (some C)) ∧ ¬ SecantDegenerate upQ.z upQ.u upQ.v ∧ SecantPositive upQ.z upQ.u upQ.v := by
  refine ⟨?_, by norm_num [SecantDegenerate, upQ, Quintic.z, Quintic.u, Quintic.v], ?_⟩
  · rw [quinSym_rest (by norm_num [upQ]) (by norm_num [upQ]) (by norm_num [upQ, Quintic.poly]) rfl, if_pos (by norm_num [upQ, Quintic.z])]
    refine ⟨secPlain 1 1 (-1 / 3) 2 (1 / 2) (1 + -541 / 54 + (1 + 5 / 54) * 2 + 10), ?_⟩
    norm_num [quinUp, upSecond, secant, secDen, secT, curveV, upQ, Quintic.z, Quintic.u, Quintic.v]
  · norm_num [SecantPositive, secDen, secT, curveV, upQ, Quintic.z, Quintic.u, Quintic.v]

def lowQ : Quintic ℚ := ⟨1, -4, 5, 5, -4, 20, -23⟩

/-- The branch `z < -3`. -/
theorem quinLow_example : ∃ C, quinSym nothingX lowQ = .ok (some C) := by
  rw [quinSym_rest (by norm_num [lowQ]) (by norm_num [lowQ]) (by norm_num [lowQ, Quintic.poly]) rfl, if_neg (by norm_num [lowQ, Quintic.z]),
    if_neg (by norm_num [lowQ, Quintic.z])]
  unfold quinLow
  rw [if_neg (by norm_num [duOf, lowQ, Quintic.z, Quintic.u]), if_pos (by norm_num [duOf, lowQ, Quintic.z, Quintic.u, Quintic.v])]
  exact ⟨_, rfl⟩

end Verif.Ternary
