import Verif.Model.OcticSymmetric
import Mathlib.Tactic.FieldSimp
import Mathlib.Tactic.LinearCombination
import Mathlib.Tactic.Ring

/-!
# The parameters of the semidefinite method for octics fit the coefficients
-/

set_option linter.unusedSectionVars false

namespace Verif.Ternary

open Verif Verif.Univariate

variable {K : Type*} [Field K] [LinearOrder K] [IsStrictOrderedRing K]

/-- The seven coefficient equations of `r * s(ker^2) + quad_form = poly`. -/
structure HexSol.Fits (s : HexSol K) (h : Hex K) : Prop where
  e620 : 2*s.u210^2*s.r - 2*s.u210*s.u201*s.r + 2*s.u201^2*s.r + s.q.m00 = h.c620
  e611 : -2*s.u210^2*s.r + 8*s.u210*s.u201*s.r - 2*s.u201^2*s.r + 2*s.q.m01 = h.c611
  e530 : -2*s.u210*s.u102*s.r + 4*s.u102*s.u201*s.r + 2*s.q.m02 = h.c530
  e521 : 4*s.u210*s.u102*s.r - 2*s.u210*s.u201*s.r + 2*s.u210*s.u111*s.r - 2*s.u102*s.u201*s.r - 2*s.u201^2*s.r + 2*s.u201*s.u111*s.r - 2*s.q.m00 - 2*s.q.m01 = h.c521
  e440 : -2*s.u210^2*s.r - 4*s.u210*s.u201*s.r + 2*s.u102^2*s.r + 4*s.u201^2*s.r + 2*s.q.m01 + s.q.m22 = h.c440
  e431 : -2*s.u210^2*s.r + 6*s.u210*s.u201*s.r - 4*s.u210*s.u111*s.r - 2*s.u102*s.u201*s.r + 2*s.u102*s.u111*s.r - 4*s.u201^2*s.r + 2*s.u201*s.u111*s.r - 2*s.q.m01 - 6*s.q.m02 - 2*s.q.m22 = h.c431
  e422 : -4*s.u210*s.u201*s.r + 4*s.u210*s.u111*s.r - 2*s.u102^2*s.r + 10*s.u201^2*s.r - 12*s.u201*s.u111*s.r + 2*s.u111^2*s.r - 2*s.q.m00 - 2*s.q.m01 + 3*s.q.m22 = h.c422

theorem Hex.eq521 (h : Hex K) : h.c521 = h.w1 - h.c611 - 2 * h.c620 := by unfold Hex.w1; ring

theorem Hex.eq431 (h : Hex K) : h.c431 = h.w2 - 2 * h.c440 - 3 * h.c530 + h.c611 := by unfold Hex.w2; ring

theorem Hex.eq422 (h : Hex K) : h.c422 = h.w4 - 4 * (h.w2 - 2 * h.c440 - 3 * h.c530 + h.c611) - 5 * h.c440 - 8 * (h.w1 - h.c611 - 2 * h.c620) - 12 * h.c530 - 8 * h.c611 - 18 * h.c620 := by
  unfold Hex.w1 Hex.w2 Hex.w4; ring

/-- Case `w1 = 0`. -/
theorem nd_fits {h : Hex K} {t : K} (h1 : h.w1 = 0) (h4 : h.w4 ≠ 0) (ht : t ≠ 0) (hd : 3*t*h.w2 - t*h.w4 - h.w4 ≠ 0) : (ndParams h t).Fits h := by
  have e521 := h.eq521
  have e431 := h.eq431
  have e422 := h.eq422
  rw [h1] at e521 e422
  constructor
  all_goals (first | rw [e521] | rw [e431] | rw [e422] | skip)
  all_goals
    simp only [ndParams, ndM00, ndM01, ndM02, ndM22, List.reverse_cons, List.reverse_nil, List.nil_append, List.cons_append, uev]
    generalize h.w2 = w2 at *
    generalize h.w4 = w4 at *
    generalize h.c620 = c620
    generalize h.c530 = c530
    generalize h.c440 = c440
    generalize h.c611 = c611
    generalize hd' : 3*t*w2 - t*w4 - w4 = d at *
    field_simp
    rw [← hd']
    ring

set_option maxHeartbeats 1600000 in
/-- The general case. -/
theorem nh_fits {h : Hex K} {t : K} (h1 : h.w1 ≠ 0) (h2 : h.w2 ≠ 0) (h4 : h.w4 ≠ 0) (ht : t ≠ 0) (ht' : t + 1 ≠ 0) : (nhParams h t).Fits h := by
  have e521 := h.eq521
  have e431 := h.eq431
  have e422 := h.eq422
  unfold nhParams
  dsimp only
  by_cases hp : (h.w1*h.w4 + 3*h.w2^2 - h.w2*h.w4)*t + h.w1*h.w4 = 0
  · rw [if_neg (by simpa using hp)]
    constructor
    all_goals (first | rw [e521] | rw [e431] | rw [e422] | skip)
    all_goals
      simp only [nhM00, nhM01, nhM02, nhM22, List.reverse_cons, List.reverse_nil, List.nil_append, List.cons_append, uev]
      rw [hp]
      generalize h.w1 = w1 at *
      generalize h.w2 = w2 at *
      generalize h.w4 = w4 at *
      generalize h.c620 = c620
      generalize h.c530 = c530
      generalize h.c440 = c440
      generalize h.c611 = c611
      generalize hs : t + 1 = s at *
      have hw : w1 = t * w2 * (w4 - 3 * w2) / (w4 * s) := by
        rw [eq_div_iff (mul_ne_zero h4 ht'), ← hs]
        linear_combination hp
      have hk : w4 - 3 * w2 ≠ 0 := by
        intro hk
        rw [hk] at hw
        exact h1 (by rw [hw]; simp)
      clear hp e521 e431 e422
      subst hw
      generalize hk' : w4 - 3 * w2 = k at *
      field_simp
      rw [← hk', ← hs]
      ring
  · rw [if_pos hp]
    constructor
    all_goals (first | rw [e521] | rw [e431] | rw [e422] | skip)
    all_goals
      simp only [nhM00, nhM01, nhM02, nhM22, List.reverse_cons, List.reverse_nil, List.nil_append, List.cons_append, uev]
      generalize h.w1 = w1 at *
      generalize h.w2 = w2 at *
      generalize h.w4 = w4 at *
      generalize h.c620 = c620
      generalize h.c530 = c530
      generalize h.c440 = c440
      generalize h.c611 = c611
      generalize hs : t + 1 = s at *
      generalize hp4 : (w1*w4 + 3*w2^2 - w2*w4)*t + w1*w4 = p4 at *
      field_simp
      rw [← hp4, ← hs]
      ring

/-- The limit `t → -1`. -/
theorem limit_fits {h : Hex K} (h1 : h.w1 ≠ 0) (h2 : h.w2 ≠ 0) (h3 : 3 * h.w1 + h.w2 ≠ 0) (h4 : h.w4 = 9 * h.w1 + 3 * h.w2) : (nhLimit h).Fits h := by
  have e521 := h.eq521
  have e431 := h.eq431
  have e422 := h.eq422
  rw [h4] at e422
  constructor
  all_goals (first | rw [e521] | rw [e431] | rw [e422] | skip)
  all_goals
    simp only [nhLimit]
    clear h4 e521 e431 e422
    generalize h.w1 = w1 at *
    generalize h.w2 = w2 at *
    generalize h.c620 = c620
    generalize h.c530 = c530
    generalize h.c440 = c440
    generalize h.c611 = c611
    generalize hs : 3 * w1 + w2 = s at *
    field_simp
    rw [← hs]
    ring

/-- The case `w2 = w4 = 0`, `w1 ≠ 0`. -/
theorem dh_fits {h : Hex K} {x y : K} {s : HexSol K} (h1 : h.w1 ≠ 0) (h2 : h.w2 = 0) (h4 : h.w4 = 0) (hs : dhParams h x y = some s) : s.Fits h := by
  have e521 := h.eq521
  have e431 := h.eq431
  have e422 := h.eq422
  rw [h4, h2] at e422
  rw [h2] at e431
  unfold dhParams at hs
  dsimp only at hs
  split_ifs at hs with h0 h5
  cases hs
  constructor
  all_goals (first | rw [e521] | rw [e431] | rw [e422] | skip)
  all_goals
    dsimp only
    clear h4 e521 e431 e422 h5
    generalize h.w1 = w1 at *
    generalize h.c620 = c620
    generalize h.c530 = c530
    generalize h.c440 = c440
    generalize h.c611 = c611
    generalize x / -w1 - y - 1 = u at *
    have h6 : y ≠ 0 := by rintro rfl; simp at h0
    have h7 : u + y + 1 ≠ 0 := by intro h7; rw [h7] at h0; simp at h0
    generalize hv : u + y + 1 = v at *
    field_simp
    rw [← hv]
    ring

/-- The case `w1 = w2 = w4 = 0`, first formula. -/
theorem dd_fits1 {h : Hex K} (h1 : h.w1 = 0) (h2 : h.w2 = 0) (h4 : h.w4 = 0) (hk : h.c611 + 2*h.c620 ≠ 0) :
    HexSol.Fits ⟨1, -h.c530/(h.c611 + 2*h.c620), 0, -2*(-h.c530/(h.c611 + 2*h.c620)) - 1, (2*h.c620 - h.c611)/6,
        ⟨(h.c611 + h.c620)/3, (h.c611 + h.c620)/3, 2*h.c530*(h.c611 + h.c620)/(3*(h.c611 + 2*h.c620)),
          (4*h.c530^2*(h.c611 + h.c620) + 3*(h.c440*h.c611 + 2*h.c440*h.c620 - h.c530^2 - h.c611^2 - 2*h.c611*h.c620)*(h.c611 + 2*h.c620))/(3*(h.c611 + 2*h.c620)^2)⟩⟩ h := by
  have e521 := h.eq521
  have e431 := h.eq431
  have e422 := h.eq422
  rw [h4, h2, h1] at e422
  rw [h2] at e431
  rw [h1] at e521
  constructor
  all_goals (first | rw [e521] | rw [e431] | rw [e422] | skip)
  all_goals
    dsimp only
    clear h4 h1 h2 e521 e431 e422
    generalize h.c620 = c620 at *
    generalize h.c530 = c530 at *
    generalize h.c440 = c440 at *
    generalize h.c611 = c611 at *
    generalize hk' : c611 + 2 * c620 = k at *
    field_simp
    try rw [← hk']
    ring

/-- The case `w1 = w2 = w4 = 0`, second formula. -/
theorem dd_fits2 {h : Hex K} (h1 : h.w1 = 0) (h2 : h.w2 = 0) (h4 : h.w4 = 0) (hk : h.c611 + 2*h.c620 ≠ 0) :
    HexSol.Fits ⟨1, -h.c530/(h.c611 + 2*h.c620), 0, -2*(-h.c530/(h.c611 + 2*h.c620)) - 1, (2*h.c620 + h.c611)/2,
        ⟨-(h.c611 + h.c620), h.c611 + h.c620, 0, (h.c440*h.c611 + 2*h.c440*h.c620 - h.c530^2 - h.c611^2 - 2*h.c611*h.c620) / (h.c611 + 2*h.c620)⟩⟩ h := by
  have e521 := h.eq521
  have e431 := h.eq431
  have e422 := h.eq422
  rw [h4, h2, h1] at e422
  rw [h2] at e431
  rw [h1] at e521
  constructor
  all_goals (first | rw [e521] | rw [e431] | rw [e422] | skip)
  all_goals
    dsimp only
    clear h4 h1 h2 e521 e431 e422
    generalize h.c620 = c620 at *
    generalize h.c530 = c530 at *
    generalize h.c440 = c440 at *
    generalize h.c611 = c611 at *
    generalize hk' : c611 + 2 * c620 = k at *
    field_simp
    try rw [← hk']
    ring

end Verif.Ternary
