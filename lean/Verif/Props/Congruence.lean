import Verif.Proofs.Congruence
import Mathlib.Tactic.NormNum

/-!
# C05, C06: `congruence` computes an exact LDL decomposition and decides semidefiniteness
-/

namespace Verif
open Finset

variable {K : Type*} [Field K] [LinearOrder K] [IsStrictOrderedRing K]

/-- The quadratic form `xᵀ M x` of an `n × n` matrix (specification). -/
def quadForm (n : ℕ) (M : ℕ → ℕ → K) (x : ℕ → K) : K :=
  ∑ r ∈ range n, ∑ c ∈ range n, x r * M r c * x c

/-- **C05.** Whenever `congruence` returns `(U, S)` for a symmetric matrix, `M = Uᵀ diag(S) U`
entrywise, `U` is upper triangular, and every weight is nonnegative. -/
theorem congruence_sound (n : ℕ) (M : ℕ → ℕ → K) (hsym : ∀ r c, r < n → c < n → M r c = M c r)
    (U : ℕ → ℕ → K) (S : ℕ → K) (h : congruence n M = .ok (some (U, S))) :
    (∀ r c, r < n → c < n → M r c = ∑ k ∈ range n, U k r * S k * U k c)
    ∧ (∀ k c, c < k → U k c = 0) ∧ (∀ k, k < n → 0 ≤ S k) := by
  unfold congruence at h
  by_cases hn : n = 0
  · simp [hn] at h
  rw [if_neg hn] at h
  cases hl : congLoop n 0 (n-1) (⟨M, fun _ _ => 0, fun _ => 0⟩ : CongState K) with
  | none => rw [hl] at h; simp at h
  | some st =>
    rw [hl] at h
    have inv := congLoop_inv (M0 := M) (n-1) 0 _ st (by omega) (congInv_init hsym) hl
    rw [zero_add] at inv
    simp only [if_true] at h
    by_cases hneg : st.M (n-1) (n-1) < 0
    · rw [if_pos hneg] at h; simp at h
    rw [if_neg hneg] at h
    have h' := Prod.mk.inj (Option.some.inj (Except.ok.inj h))
    obtain ⟨rfl, rfl⟩ := h'
    refine ⟨?_, ?_, ?_⟩
    · intro r c hr hc
      rw [inv.dec r c hr hc]
      obtain ⟨m, rfl⟩ : ∃ m, n = m + 1 := ⟨n - 1, by omega⟩
      simp only [Nat.add_sub_cancel] at *
      rw [sum_range_succ]
      congr 1
      · apply sum_congr rfl; intro k hk
        have : k ≠ m := by have := mem_range.mp hk; omega
        simp [this]
      · simp only [true_and, if_true]
        by_cases h1 : m ≤ r ∧ m ≤ c
        · have e1 : r = m := by omega
          have e2 : c = m := by omega
          subst e1; subst e2; simp
        · rw [if_neg h1]
          by_cases hrm : r = m
          · have : c ≠ m := by omega
            simp [this, inv.later m c le_rfl]
          · simp [hrm, inv.later m r le_rfl]
    · intro k c hc
      have : ¬ (k = n - 1 ∧ c = n - 1) := by omega
      simp only [this, if_false]
      exact inv.upper k c hc
    · intro k hk
      by_cases hkn : k = n - 1
      · simp only [hkn, if_true]; exact not_lt.mp hneg
      · simp only [hkn, if_false]; exact inv.nonneg k (by omega)

/-- The value of the form as the weighted sum of squares that the callers print:
`xᵀ M x = Σ_k S_k (U_k · x)²`. -/
theorem congruence_sum_of_squares (n : ℕ) (M : ℕ → ℕ → K)
    (hsym : ∀ r c, r < n → c < n → M r c = M c r)
    (U : ℕ → ℕ → K) (S : ℕ → K) (h : congruence n M = .ok (some (U, S))) (x : ℕ → K) :
    quadForm n M x = ∑ k ∈ range n, S k * (∑ c ∈ range n, U k c * x c)^2 := by
  obtain ⟨hd, -, -⟩ := congruence_sound n M hsym U S h
  unfold quadForm
  have : ∀ r ∈ range n, ∑ c ∈ range n, x r * M r c * x c
      = ∑ k ∈ range n, ∑ c ∈ range n, S k * (U k r * x r) * (U k c * x c) := by
    intro r hr
    rw [sum_comm]
    apply sum_congr rfl; intro c hc
    rw [hd r c (mem_range.mp hr) (mem_range.mp hc), mul_sum, sum_mul]
    apply sum_congr rfl; intro k _; ring
  rw [sum_congr rfl this, sum_comm]
  apply sum_congr rfl; intro k _
  rw [pow_two, sum_mul_sum, mul_sum]
  apply sum_congr rfl; intro r _
  rw [mul_sum]; apply sum_congr rfl; intro c _; ring

/-- **C06.** For a nonempty symmetric matrix `congruence` never raises, and it returns `None`
exactly when the form takes a negative value. -/
theorem congruence_none_iff (n : ℕ) (hn : n ≠ 0) (M : ℕ → ℕ → K)
    (hsym : ∀ r c, r < n → c < n → M r c = M c r) :
    congruence n M = .ok none ↔ ∃ x : ℕ → K, quadForm n M x < 0 := by
  constructor
  · intro h
    by_contra hall
    push Not at hall
    have hblk : ∀ x : ℕ → K, 0 ≤ blockForm n 0 M x := by
      intro x; have := hall x
      unfold quadForm at this; unfold blockForm
      rwa [Finset.range_eq_Ico] at this
    obtain ⟨st, hl, hp⟩ := congLoop_psd (M0 := M) (n-1) 0 (⟨M, fun _ _ => 0, fun _ => 0⟩ : CongState K)
      (by omega) (congInv_init hsym) hblk
    unfold congruence at h
    rw [if_neg hn, hl] at h
    simp only [if_true] at h
    have h0 : 0 ≤ st.M (n-1) (n-1) := by
      have := hp (fun _ => 1)
      unfold blockForm at this
      have e : Ico (0 + (n-1)) n = {n-1} := by
        ext k; simp only [mem_Ico, mem_singleton]; omega
      rw [e] at this
      simpa using this
    rw [if_neg (not_lt.mpr h0)] at h
    simp at h
  · rintro ⟨x, hx⟩
    cases hc : congruence n M with
    | error e =>
      unfold congruence at hc
      rw [if_neg hn] at hc
      split at hc
      · simp at hc
      · simp only at hc; split_ifs at hc
    | ok o =>
      cases o with
      | none => rfl
      | some US =>
        exfalso
        obtain ⟨U, S⟩ := US
        rw [congruence_sum_of_squares n M hsym U S hc x] at hx
        obtain ⟨-, -, hS⟩ := congruence_sound n M hsym U S hc
        have : 0 ≤ ∑ k ∈ range n, S k * (∑ c ∈ range n, U k c * x c)^2 :=
          sum_nonneg fun k hk => mul_nonneg (hS k (mem_range.mp hk)) (sq_nonneg _)
        linarith

omit [IsStrictOrderedRing K] in
/-- The empty matrix is the one input on which `congruence` raises (`M[0,0]`). -/
theorem congruence_error_iff (n : ℕ) (M : ℕ → ℕ → K) (e : PyErr) :
    congruence n M = .error e ↔ n = 0 ∧ e = .indexError := by
  unfold congruence
  by_cases hn : n = 0
  · simp [hn, eq_comm]
  · simp only [hn, if_false, false_and, iff_false]
    split
    · simp
    · split_ifs <;> simp

/-! Non-vacuity: a singular 3×3 matrix with a zero pivot in the middle is accepted, and an
indefinite one is rejected. -/

/-- `[[1,1,2],[1,1,2],[2,2,5]]`: pivots 1, 0, 1. -/
def exPSD : ℕ → ℕ → ℚ
  | 0, 0 => 1 | 0, 1 => 1 | 0, 2 => 2
  | 1, 0 => 1 | 1, 1 => 1 | 1, 2 => 2
  | 2, 0 => 2 | 2, 1 => 2 | 2, 2 => 5
  | _, _ => 0

/-- `[[1,2],[2,1]]`, which is indefinite. -/
def exIndef : ℕ → ℕ → ℚ
  | 0, 0 => 1 | 0, 1 => 2 | 1, 0 => 2 | 1, 1 => 1
  | _, _ => 0

/-- The decomposition as finite data, for the examples. -/
def showCong (n : ℕ) (r : Except PyErr (Option ((ℕ → ℕ → ℚ) × (ℕ → ℚ)))) :
    Option (Option (List (List ℚ) × List ℚ)) :=
  match r with
  | .error _ => none
  | .ok none => some none
  | .ok (some (U, S)) =>
    some (some ((List.range n).map fun i => (List.range n).map (U i), (List.range n).map S))

example : showCong 3 (congruence 3 exPSD) =
    some (some ([[1, 1, 2], [0, 0, 0], [0, 0, 1]], [1, 0, 1])) := by decide +kernel

example : ∀ r < 3, ∀ c < 3, exPSD r c = exPSD c r := by decide +kernel

example : showCong 2 (congruence 2 exIndef) = some none := by decide +kernel

example : quadForm 2 exIndef (fun k => if k = 0 then 1 else -1) < 0 := by decide +kernel

end Verif
