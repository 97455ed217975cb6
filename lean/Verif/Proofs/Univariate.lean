import Verif.Model.Univariate
import Verif.Props.Congruence
import Mathlib.Tactic.Ring
import Mathlib.Tactic.Linarith
import Mathlib.Algebra.BigOperators.Ring.Finset

/-!
# Lemmas on the univariate Gram matrix
-/

set_option linter.unusedSectionVars false

namespace Verif.Univariate
open Verif Finset

variable {K : Type*} [Field K] [LinearOrder K] [IsStrictOrderedRing K]

theorem list_range_sum (f : ℕ → K) (n : ℕ) : ((List.range n).map f).sum = ∑ i ∈ range n, f i := by
  induction n with
  | zero => simp
  | succ n ih => rw [List.range_succ, Finset.sum_range_succ]; simp [ih]

/-- The entries with row plus column equal to `2m`. -/
theorem fiber_even (n m : ℕ) (hm : m < n) (M : ℕ → ℕ → K) (hs : ∀ r c, r < n → c < n → M r c = M c r) :
    ∑ p ∈ (range n ×ˢ range n) with p.1 + p.2 = 2 * m, M p.1 p.2 = M m m + evenSum n M m * 2 := by
  have hlt : ∑ p ∈ (range n ×ˢ range n) with p.1 + p.2 = 2 * m ∧ p.1 < p.2, M p.1 p.2 = evenSum n M m := by
    unfold evenSum
    rw [list_range_sum]
    symm
    apply Finset.sum_nbij' (fun j => (m - (j+1), m + (j+1))) (fun p => m - p.1 - 1)
    · intro j hj; simp only [mem_filter, mem_product, mem_range, lt_min_iff] at *; omega
    · intro p hp; simp only [mem_filter, mem_product, mem_range, lt_min_iff] at *; omega
    · intro j hj; simp only [mem_range, lt_min_iff] at *; omega
    · intro p hp; simp only [mem_filter, mem_product, mem_range] at hp
      ext <;> simp <;> omega
    · intro j hj; rfl
  have hgt : ∑ p ∈ (range n ×ˢ range n) with p.1 + p.2 = 2 * m ∧ p.2 < p.1, M p.1 p.2 = evenSum n M m := by
    rw [← hlt]
    apply Finset.sum_nbij' (fun p => (p.2, p.1)) (fun p => (p.2, p.1))
    · intro p hp; simp only [mem_filter, mem_product, mem_range] at *; omega
    · intro p hp; simp only [mem_filter, mem_product, mem_range] at *; omega
    · intro p hp; rfl
    · intro p hp; rfl
    · intro p hp; simp only [mem_filter, mem_product, mem_range] at hp; exact hs _ _ hp.1.1 hp.1.2
  have heq : ∑ p ∈ (range n ×ˢ range n) with p.1 + p.2 = 2 * m ∧ p.1 = p.2, M p.1 p.2 = M m m := by
    have : (range n ×ˢ range n).filter (fun p => p.1 + p.2 = 2 * m ∧ p.1 = p.2) = {(m, m)} := by
      ext p; simp only [mem_filter, mem_product, mem_range, mem_singleton, Prod.ext_iff]
      omega
    rw [this, sum_singleton]
  have hsplit : (range n ×ˢ range n).filter (fun p => p.1 + p.2 = 2 * m) =
      ((range n ×ˢ range n).filter (fun p => p.1 + p.2 = 2 * m ∧ p.1 = p.2)) ∪
      (((range n ×ˢ range n).filter (fun p => p.1 + p.2 = 2 * m ∧ p.1 < p.2)) ∪
      ((range n ×ˢ range n).filter (fun p => p.1 + p.2 = 2 * m ∧ p.2 < p.1))) := by
    ext p; simp only [mem_filter, mem_product, mem_range, mem_union]
    omega
  rw [hsplit, sum_union, sum_union, heq, hlt, hgt]
  · ring
  · rw [Finset.disjoint_left]; intro p hp; simp only [mem_filter] at *; omega
  · rw [Finset.disjoint_left]; intro p hp; simp only [mem_filter, mem_union] at *; omega

/-- The entries with row plus column equal to `2m+1`. -/
theorem fiber_odd (n m : ℕ) (hm : m + 1 < n) (M : ℕ → ℕ → K) (hs : ∀ r c, r < n → c < n → M r c = M c r) :
    ∑ p ∈ (range n ×ˢ range n) with p.1 + p.2 = 2 * m + 1, M p.1 p.2 = (oddSum n M m + M m (m + 1)) * 2 := by
  have hlt : ∑ p ∈ (range n ×ˢ range n) with p.1 + p.2 = 2 * m + 1 ∧ p.1 < p.2, M p.1 p.2 =
      oddSum n M m + M m (m+1) := by
    have : oddSum n M m + M m (m+1) = ∑ j ∈ range (min m (n - m - 2) + 1), M (m - j) (m + j + 1) := by
      unfold oddSum
      rw [list_range_sum, Finset.sum_range_succ']
      rfl
    rw [this]
    symm
    apply Finset.sum_nbij' (fun j => (m - j, m + j + 1)) (fun p => m - p.1)
    · intro j hj; simp only [mem_filter, mem_product, mem_range] at *; omega
    · intro p hp; simp only [mem_filter, mem_product, mem_range] at *; omega
    · intro j hj; simp only [mem_range] at *; omega
    · intro p hp; simp only [mem_filter, mem_product, mem_range] at hp
      ext <;> simp <;> omega
    · intro j hj; rfl
  have hgt : ∑ p ∈ (range n ×ˢ range n) with p.1 + p.2 = 2 * m + 1 ∧ p.2 < p.1, M p.1 p.2 =
      oddSum n M m + M m (m+1) := by
    rw [← hlt]
    apply Finset.sum_nbij' (fun p => (p.2, p.1)) (fun p => (p.2, p.1))
    · intro p hp; simp only [mem_filter, mem_product, mem_range] at *; omega
    · intro p hp; simp only [mem_filter, mem_product, mem_range] at *; omega
    · intro p hp; rfl
    · intro p hp; rfl
    · intro p hp; simp only [mem_filter, mem_product, mem_range] at hp; exact hs _ _ hp.1.1 hp.1.2
  have hsplit : (range n ×ˢ range n).filter (fun p => p.1 + p.2 = 2 * m + 1) =
      (((range n ×ˢ range n).filter (fun p => p.1 + p.2 = 2 * m + 1 ∧ p.1 < p.2)) ∪
      ((range n ×ˢ range n).filter (fun p => p.1 + p.2 = 2 * m + 1 ∧ p.2 < p.1))) := by
    ext p; simp only [mem_filter, mem_product, mem_range, mem_union]
    omega
  rw [hsplit, sum_union, hlt, hgt]
  · ring
  · rw [Finset.disjoint_left]; intro p hp; simp only [mem_filter] at *; omega

/-- `v^T M v` for `v = (x^{n-1}, ..., x, 1)`, grouped by powers of `x`. -/
theorem quadForm_fibers (n : ℕ) (M : ℕ → ℕ → K) (hs : ∀ r c, r < n → c < n → M r c = M c r) (x : K) :
    quadForm n M (fun i => x ^ (n - 1 - i)) =
      ∑ k ∈ range (2 * n - 1), minorCoeff n M k * x ^ (2 * n - 2 - k) := by
  unfold quadForm
  rw [← Finset.sum_product' (range n) (range n) (fun r c => x ^ (n - 1 - r) * M r c * x ^ (n - 1 - c))]
  rw [← Finset.sum_fiberwise_of_maps_to (g := fun p : ℕ × ℕ => p.1 + p.2) (t := range (2 * n - 1))]
  · apply Finset.sum_congr rfl
    intro k hk
    rw [mem_range] at hk
    have h1 : ∑ p ∈ (range n ×ˢ range n) with p.1 + p.2 = k, x ^ (n - 1 - p.1) * M p.1 p.2 * x ^ (n - 1 - p.2) =
        (∑ p ∈ (range n ×ˢ range n) with p.1 + p.2 = k, M p.1 p.2) * x ^ (2 * n - 2 - k) := by
      rw [Finset.sum_mul]
      apply Finset.sum_congr rfl
      intro p hp
      simp only [mem_filter, mem_product, mem_range] at hp
      have : 2 * n - 2 - k = (n - 1 - p.1) + (n - 1 - p.2) := by omega
      rw [this, pow_add]; ring
    rw [h1]
    congr 1
    unfold minorCoeff
    simp only
    by_cases he : k % 2 = 0
    · rw [if_pos he]
      have hk2 : k = 2 * (k / 2) := by omega
      have := fiber_even n (k/2) (by omega) M hs
      rw [← hk2] at this
      rw [this]; ring
    · rw [if_neg he]
      have hk2 : k = 2 * (k / 2) + 1 := by omega
      have := fiber_odd n (k/2) (by omega) M hs
      rw [← hk2] at this
      rw [this]
  · intro p hp
    simp only [mem_product, mem_range] at *; omega

/-- Entries off the three central diagonals decide `evenSum`. -/
theorem evenSum_congr (n m : ℕ) (M M' : ℕ → ℕ → K) (h : ∀ r c, r + 2 ≤ c → M r c = M' r c) :
    evenSum n M m = evenSum n M' m := by
  unfold evenSum
  congr 1
  apply List.map_congr_left
  intro j hj
  rw [List.mem_range] at hj
  apply h; omega

theorem oddSum_congr (n m : ℕ) (M M' : ℕ → ℕ → K) (h : ∀ r c, r + 2 ≤ c → M r c = M' r c) :
    oddSum n M m = oddSum n M' m := by
  unfold oddSum
  congr 1
  apply List.map_congr_left
  intro j hj
  rw [List.mem_range] at hj
  apply h; omega

/-- What the filling loop establishes. -/
theorem detLoop_spec (n : ℕ) (cs : List K) (M0 : ℕ → ℕ → K) (k i : ℕ) (M M' : ℕ → ℕ → K)
    (hoff : ∀ r c, (r + 2 ≤ c ∨ c + 2 ≤ r) → M r c = M0 r c)
    (hd : ∀ m, 2 * m < i → M m m = cs.getD (2 * m) 0 - evenSum n M0 m * 2)
    (ho : ∀ m, 2 * m + 1 < i → M m (m+1) = cs.getD (2 * m + 1) 0 / 2 - oddSum n M0 m ∧ M (m+1) m = M m (m+1))
    (h : detLoop n cs i k M = .ok M') :
    (∀ r c, (r + 2 ≤ c ∨ c + 2 ≤ r) → M' r c = M0 r c) ∧
    (∀ m, 2 * m < i + k → M' m m = cs.getD (2 * m) 0 - evenSum n M0 m * 2) ∧
    (∀ m, 2 * m + 1 < i + k → M' m (m+1) = cs.getD (2 * m + 1) 0 / 2 - oddSum n M0 m ∧ M' (m+1) m = M' m (m+1)) := by
  induction k generalizing i M with
  | zero =>
    have := Except.ok.inj h
    subst this
    exact ⟨hoff, hd, ho⟩
  | succ k ih =>
    unfold detLoop at h
    split at h
    · cases h
    · rename_i M1 hM1
      have := ih (i + 1) M1 ?_ ?_ ?_ h
      · rw [show i + (k + 1) = i + 1 + k by omega]; exact this
      all_goals
        unfold detStep at hM1
        simp only at hM1
        split_ifs at hM1 with h1 h2 h2
        all_goals
          have hM1 := Except.ok.inj hM1
          subst hM1
          beta_reduce
      · intro r c hrc
        rw [if_neg (by omega)]; exact hoff r c hrc
      · intro r c hrc
        rw [if_neg (by omega)]; exact hoff r c hrc
      · intro m hm
        by_cases hmi : m = i / 2
        · rw [if_pos ⟨hmi, hmi⟩, evenSum_congr n _ M M0 (fun r c hrc => hoff r c (Or.inl hrc)), hmi]
          rw [show 2 * (i / 2) = i by omega]
        · rw [if_neg (by omega)]; exact hd m (by omega)
      · intro m hm
        rw [if_neg (by omega)]; exact hd m (by omega)
      · intro m hm
        rw [if_neg (by omega), if_neg (by omega)]; exact ho m (by omega)
      · intro m hm
        by_cases hmi : m = i / 2
        · rw [if_pos (Or.inl ⟨hmi, by omega⟩), if_pos (Or.inr ⟨by omega, hmi⟩),
            oddSum_congr n _ M M0 (fun r c hrc => hoff r c (Or.inl hrc)), hmi]
          rw [show 2 * (i / 2) + 1 = i by omega]
          exact ⟨rfl, rfl⟩
        · rw [if_neg (by omega), if_neg (by omega)]; exact ho m (by omega)

/-- Descending list value. -/
theorem uev_reverse (cs : List K) (x : K) (n : ℕ) (h : cs.length = n + 1) :
    uev cs.reverse x = ∑ k ∈ range (n + 1), cs.getD k 0 * x ^ (n - k) := by
  rw [uev_eq_sum _ x (n + 1) (by simp [h]), ← Finset.sum_range_reflect]
  apply Finset.sum_congr rfl
  intro k hk
  rw [mem_range] at hk
  have : cs.reverse.getD (n + 1 - 1 - k) 0 = cs.getD k 0 := by
    simp only [List.getD_eq_getElem?_getD]
    rw [List.getElem?_reverse (by omega)]
    congr 2; omega
  rw [this, show n + 1 - 1 - k = n - k by omega]

end Verif.Univariate
