import Verif.Model.StructUtils
import Mathlib.Algebra.Order.BigOperators.Group.List
import Mathlib.Data.Rat.Defs
import Mathlib.Tactic.Ring
import Mathlib.Tactic.Linarith
import Mathlib.Tactic.FieldSimp
import Mathlib.Tactic.NormNum

/-!
# C07: `quadratic_weighting`
-/

namespace Verif

variable {K : Type*} [Field K] [LinearOrder K] [IsStrictOrderedRing K]

/-- **C07 (soundness).** Every weight is nonnegative and the weighted squares add up to the form. -/
theorem quadraticWeighting_sound (c1 c2 c3 : K) (l : List (K × (K × K)))
    (h : quadraticWeighting c1 c2 c3 = some l) :
    (∀ w ∈ l, 0 ≤ w.1) ∧
    ∀ a b : K, (l.map fun w => w.1 * (w.2.1 * a + w.2.2 * b) ^ 2).sum = c1 * a ^ 2 + c2 * a * b + c3 * b ^ 2 := by
  unfold quadraticWeighting at h
  split_ifs at h with h0 h1 h2
  · push Not at h0
    obtain ⟨hd, h1n, h3n⟩ := h0
    subst h1
    have hc2 : c2 = 0 := by
      have : c2 ^ 2 ≤ 0 := by simpa using hd
      exact pow_eq_zero_iff (two_ne_zero) |>.1 (le_antisymm this (sq_nonneg _))
    cases h
    refine ⟨by simpa using h3n, ?_⟩
    intro a b; simp [hc2]
  · push Not at h0
    obtain ⟨hd, h1n, h3n⟩ := h0
    subst h2
    have hc2 : c2 = 0 := by
      have : c2 ^ 2 ≤ 0 := by simpa using hd
      exact pow_eq_zero_iff (two_ne_zero) |>.1 (le_antisymm this (sq_nonneg _))
    cases h
    refine ⟨by simpa using h1n, ?_⟩
    intro a b; simp [hc2]
  · push Not at h0
    obtain ⟨hd, h1n, h3n⟩ := h0
    have hpos : 0 < c1 := lt_of_le_of_ne h1n (Ne.symm h1)
    cases h
    have e : c3 - (c2 / c1 / 2) ^ 2 * c1 = (4 * c1 * c3 - c2 ^ 2) / (4 * c1) := by field_simp; ring
    refine ⟨?_, ?_⟩
    · intro w hw
      simp only [List.mem_cons, List.not_mem_nil, or_false] at hw
      rcases hw with rfl | rfl
      · exact h1n
      · simp only [e]
        exact div_nonneg (by linarith) (by linarith)
    · intro a b
      simp only [List.map_cons, List.map_nil, List.sum_cons, List.sum_nil]
      field_simp
      ring

/-- **C07 (completeness).** `None` is returned exactly when the form takes a negative value. -/
theorem quadraticWeighting_none_iff (c1 c2 c3 : K) :
    quadraticWeighting c1 c2 c3 = none ↔ ∃ a b : K, c1 * a ^ 2 + c2 * a * b + c3 * b ^ 2 < 0 := by
  constructor
  · intro h
    unfold quadraticWeighting at h
    split_ifs at h with h0
    rcases h0 with h0 | h0 | h0
    · by_cases h1 : c1 = 0
      · subst h1
        have hc2 : c2 ≠ 0 := by rintro rfl; simp at h0
        refine ⟨-(c3 + 1) / c2, 1, ?_⟩
        have : c2 * (-(c3 + 1) / c2) = -(c3+1) := by field_simp
        simp only [zero_mul, zero_add, mul_one, one_pow]
        rw [this]; linarith
      · by_cases hpos : 0 < c1
        · refine ⟨-c2, 2 * c1, ?_⟩
          have : c1 * (-c2) ^ 2 + c2 * (-c2) * (2 * c1) + c3 * (2 * c1) ^ 2 = c1 * (4 * c1 * c3 - c2 ^ 2) := by ring
          rw [this]; exact mul_neg_of_pos_of_neg hpos (by linarith)
        · refine ⟨1, 0, ?_⟩
          have : c1 < 0 := lt_of_le_of_ne (not_lt.1 hpos) h1
          simpa using this
    · exact ⟨1, 0, by simpa using h0⟩
    · exact ⟨0, 1, by simpa using h0⟩
  · rintro ⟨a, b, hab⟩
    cases h : quadraticWeighting c1 c2 c3 with
    | none => rfl
    | some l =>
      exfalso
      obtain ⟨h1, h2⟩ := quadraticWeighting_sound c1 c2 c3 l h
      have := h2 a b
      have h3 : 0 ≤ (l.map fun w => w.1 * (w.2.1 * a + w.2.2 * b) ^ 2).sum := by
        apply List.sum_nonneg
        intro x hx
        rw [List.mem_map] at hx
        obtain ⟨w, hw, rfl⟩ := hx
        exact mul_nonneg (h1 w hw) (sq_nonneg _)
      linarith

/-- With the default mapping the returned expression has the value of the form. -/
theorem quadraticWeightingSum_eq (c1 c2 c3 a b v : K)
    (h : quadraticWeightingSum c1 c2 c3 (fun x y => (x * a + y * b) ^ 2) = some v) :
    v = c1 * a ^ 2 + c2 * a * b + c3 * b ^ 2 ∧ 0 ≤ v := by
  unfold quadraticWeightingSum at h
  rw [Option.map_eq_some_iff] at h
  obtain ⟨l, hl, rfl⟩ := h
  obtain ⟨h1, h2⟩ := quadraticWeighting_sound c1 c2 c3 l hl
  refine ⟨h2 a b, ?_⟩
  apply List.sum_nonneg
  intro x hx
  rw [List.mem_map] at hx
  obtain ⟨w, hw, rfl⟩ := hx
  exact mul_nonneg (h1 w hw) (sq_nonneg _)

example : quadraticWeighting (2 : ℚ) 2 3 = some [(2, (1, 1/2)), (5/2, (0, 1))] := by decide +kernel
example : quadraticWeighting (1 : ℚ) 3 2 = none := by decide +kernel

end Verif
