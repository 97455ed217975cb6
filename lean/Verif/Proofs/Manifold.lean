import Verif.Model.Manifold
import Verif.Proofs.Closure
import Mathlib.Algebra.Polynomial.Coeff
import Mathlib.Algebra.Polynomial.Taylor
import Mathlib.RingTheory.Coprime.Basic
import Mathlib.RingTheory.Polynomial.Basic
import Mathlib.Data.Nat.Factorial.Cast
import Mathlib.Tactic.FieldSimp

/-!
# Lemmas for the nullspaces of SDPSOS
-/

set_option linter.unusedSectionVars false

namespace Verif.Manifold

open Verif Verif.Coeff Verif.TermsPoly Polynomial Finset

/-! ### Lines -/

section
variable {R : Type*} [CommRing R]

/-- The point `r` moved along direction `i`. -/
noncomputable def line (r : List R) (i : ℕ) : List R[X] := (r.map C).modify i (X + ·)

theorem line_length (r : List R) (i : ℕ) : (line r i).length = r.length := by simp [line]

theorem evalMonom_cons (a : ℕ) (m : List ℕ) (x : R) (r : List R) : evalMonom (a :: m) (x :: r) = x ^ a * evalMonom m r := by simp [evalMonom]

theorem evalMonom_C : ∀ (m : List ℕ) (r : List R), evalMonom m (r.map C) = C (evalMonom m r)
  | [], _ => by simp [evalMonom]
  | _ :: _, [] => by simp [evalMonom]
  | a :: m, x :: r => by rw [List.map_cons, evalMonom_cons, evalMonom_cons, evalMonom_C m r, C_mul, C_pow]

theorem evalMonom_line : ∀ (m : List ℕ) (r : List R) (i : ℕ), m.length = r.length → i < r.length →
    evalMonom m (line r i) = C (evalMonom (m.set i 0) r) * (X + C (r.getD i 0)) ^ m.getD i 0
  | [], [], _, _, h => absurd h (by simp)
  | a :: m, x :: r, 0, hl, _ => by
      change evalMonom (a :: m) ((X + C x) :: r.map C) = _
      rw [evalMonom_cons, evalMonom_C]
      simp only [List.set_cons_zero, evalMonom_cons, pow_zero, one_mul, List.getD_cons_zero]
      ring
  | a :: m, x :: r, i + 1, hl, hi => by
      change evalMonom (a :: m) (C x :: line r i) = _
      rw [evalMonom_cons, evalMonom_line m r i (by simpa using hl) (by simpa using hi)]
      simp only [List.set_cons_succ, evalMonom_cons, List.getD_cons_succ, C_mul, C_pow]
      ring

theorem eval_line (r : List R) (i : ℕ) (s : R) : (line r i).map (Polynomial.eval s) = r.modify i (s + ·) := by
  unfold line
  induction r generalizing i with
  | nil => cases i <;> rfl
  | cons x r ih =>
    cases i with
    | zero =>
      have e : (Polynomial.eval s ∘ ⇑C : R → R) = id := by funext y; simp
      simp [e]
    | succ i => simpa using ih i

theorem eval_evalMonom (s : R) : ∀ (m : List ℕ) (l : List R[X]), (evalMonom m l).eval s = evalMonom m (l.map (Polynomial.eval s))
  | [], _ => by simp [evalMonom]
  | _ :: _, [] => by simp [evalMonom]
  | a :: m, x :: r => by rw [List.map_cons, evalMonom_cons, evalMonom_cons, eval_mul, eval_pow, eval_evalMonom s m r]

end

/-! ### Derivatives of monomials -/

theorem derv_eq (n i : ℕ) : derv n i = n.descFactorial i := by
  unfold derv
  split
  · rename_i h
    subst h
    simp
  · split
    · rename_i h
      exact (Nat.descFactorial_eq_zero_iff_lt.2 h).symm
    · rename_i h
      rw [Nat.descFactorial_eq_div (by omega)]

section
variable {R : Type*} [CommRing R]

/-- The entry without the test: the product vanishes by itself when an exponent is too small. -/
theorem asEntry_eq (r : List R) (o m : List ℕ) : asEntry r o m = ((List.zipWith derv m o).prod : ℕ) * evalMonom (List.zipWith (· - ·) m o) r := by
  unfold asEntry
  split
  · rename_i h
    obtain ⟨t, ht, hlt⟩ := List.any_eq_true.1 h
    have hlt : t.1 < t.2 := of_decide_eq_true hlt
    have : (List.zipWith derv m o).prod = 0 := by
      rw [List.prod_eq_zero_iff]
      rw [← List.map_uncurry_zip_eq_zipWith]
      exact List.mem_map.2 ⟨t, ht, by rw [Function.uncurry, derv_eq]; exact Nat.descFactorial_eq_zero_iff_lt.2 hlt⟩
    rw [this]
    simp
  · rfl

theorem asEntry_cons (x : R) (r : List R) (k a : ℕ) (o m : List ℕ) : asEntry (x :: r) (k :: o) (a :: m) = (a.descFactorial k : R) * x ^ (a - k) * asEntry r o m := by
  rw [asEntry_eq, asEntry_eq]
  simp only [List.zipWith_cons_cons, List.prod_cons, evalMonom_cons, derv_eq]
  push_cast
  ring

theorem asEntry_nil (r : List R) (o : List ℕ) : asEntry r o [] = 1 := by rw [asEntry_eq]; simp [evalMonom]

theorem asEntry_zero : ∀ (n : ℕ) (r : List R) (m : List ℕ), m.length = n → r.length = n → asEntry r (List.replicate n 0) m = evalMonom m r
  | 0, [], [], _, _ => by rw [asEntry_eq]; simp [evalMonom]
  | n + 1, x :: r, a :: m, h1, h2 => by
      rw [List.replicate_succ, asEntry_cons, evalMonom_cons, asEntry_zero n r m (by simpa using h1) (by simpa using h2)]
      simp

theorem asEntry_C : ∀ (o m : List ℕ) (r : List R), asEntry (r.map C) o m = C (asEntry r o m) := by
  intro o m r
  rw [asEntry_eq, asEntry_eq, evalMonom_C, C_mul, map_natCast]

/-- Raising the order by one in direction `i` is one derivative in that direction. -/
theorem asEntry_diff : ∀ (o m : List ℕ) (r : List R) (i : ℕ), o.length = r.length → m.length = r.length → i < r.length →
    asEntry r (o.modify i (· + 1)) m = (derivative (asEntry (line r i) o m)).eval 0
  | _, _, [], _, _, _, h => absurd h (by simp)
  | k :: o, a :: m, x :: r, 0, h1, h2, _ => by
      change asEntry (x :: r) ((k + 1) :: o) (a :: m) = (derivative (asEntry ((X + C x) :: r.map C) (k :: o) (a :: m))).eval 0
      rw [asEntry_cons, asEntry_cons, asEntry_C]
      simp only [derivative_mul, derivative_natCast, derivative_C, derivative_pow, derivative_add, derivative_X, eval_add, eval_mul, eval_natCast, eval_pow, eval_X, eval_C,
        zero_mul, zero_add, mul_zero, add_zero, eval_one, mul_one, map_natCast, Nat.descFactorial_succ]
      push_cast
      rw [← Nat.sub_sub]
      by_cases h : a < k
      · rw [Nat.descFactorial_eq_zero_iff_lt.2 h]; simp
      · ring
  | k :: o, a :: m, x :: r, i + 1, h1, h2, h3 => by
      change asEntry (x :: r) (k :: o.modify i (· + 1)) (a :: m) = (derivative (asEntry (C x :: line r i) (k :: o) (a :: m))).eval 0
      rw [asEntry_cons, asEntry_cons, asEntry_diff o m r i (by simpa using h1) (by simpa using h2) (by simpa using h3)]
      simp only [derivative_mul, derivative_natCast, derivative_pow, derivative_C, eval_add, eval_mul, eval_natCast, eval_pow, eval_C, zero_mul, zero_add, mul_zero, add_zero]

end

section
variable {K : Type*} [Field K] [CharZero K]

theorem dirOrder_cons_zero (n j : ℕ) : dirOrder (n + 1) 0 j = j :: List.replicate n 0 := rfl

theorem dirOrder_cons_succ (n i j : ℕ) : dirOrder (n + 1) (i + 1) j = 0 :: dirOrder n i j := rfl

theorem asEntry_dir : ∀ (n i j : ℕ) (r : List K) (m : List ℕ), r.length = n → m.length = n → i < n →
    asEntry r (dirOrder n i j) m = (j.factorial : K) * (evalMonom m (line r i)).coeff j
  | n + 1, 0, j, x :: r, a :: m, h1, h2, _ => by
      have hl : m.length = r.length := by simp at h1 h2; omega
      rw [dirOrder_cons_zero, asEntry_cons, asEntry_zero n r m (by simpa using h2) (by simpa using h1)]
      change _ = _ * (evalMonom (a :: m) ((X + C x) :: r.map C)).coeff j
      rw [evalMonom_cons, evalMonom_C, coeff_mul_C, coeff_X_add_C_pow, Nat.descFactorial_eq_factorial_mul_choose]
      push_cast
      ring
  | n + 1, i + 1, j, x :: r, a :: m, h1, h2, h3 => by
      rw [dirOrder_cons_succ, asEntry_cons, asEntry_dir n i j r m (by simpa using h1) (by simpa using h2) (by omega)]
      change _ = _ * (evalMonom (a :: m) (C x :: line r i)).coeff j
      rw [evalMonom_cons, ← C_pow, coeff_C_mul]
      simp
      ring

end

/-! ### Derivatives of polynomials -/

section
variable {K : Type*} [Field K] [CharZero K]

/-- The polynomial on the line through `r` in direction `i`. -/
noncomputable def onLine (p : List (List ℕ × K)) (r : List K) (i : ℕ) : K[X] := (p.map fun t => C t.2 * evalMonom t.1 (line r i)).sum

theorem eval_onLine (p : List (List ℕ × K)) (r : List K) (i : ℕ) (s : K) : (onLine p r i).eval s = evalDict p (r.modify i (s + ·)) := by
  induction p with
  | nil => simp [onLine, evalDict]
  | cons t p ih =>
    unfold onLine at ih ⊢
    rw [List.map_cons, List.sum_cons, eval_add, ih, evalDict_cons, eval_mul, eval_C, eval_evalMonom, eval_line]

theorem set_modify (m : List ℕ) (i : ℕ) (f : ℕ → ℕ) : (m.modify i f).set i 0 = m.set i 0 := by
  induction m generalizing i with
  | nil => cases i <;> rfl
  | cons a m ih =>
    cases i with
    | zero => rfl
    | succ i => simpa using ih i

theorem getD_modify (m : List ℕ) (i : ℕ) (f : ℕ → ℕ) (h : i < m.length) : (m.modify i f).getD i 0 = f (m.getD i 0) := by
  induction m generalizing i with
  | nil => simp at h
  | cons a m ih =>
    cases i with
    | zero => rfl
    | succ i => simpa using ih i (by simpa using h)

theorem arity_pdiff {n i : ℕ} {p : List (List ℕ × K)} (hp : Arity n p) : Arity n (pdiff i p) := by
  intro t ht
  obtain ⟨s, hs, e⟩ := List.mem_filterMap.1 ht
  split at e
  · simp at e
  · rw [← Option.some.inj e]
    simpa using hp s hs

theorem onLine_pdiff {n : ℕ} {p : List (List ℕ × K)} (hp : Arity n p) {r : List K} (hr : r.length = n) {i : ℕ} (hi : i < n) :
    onLine (pdiff i p) r i = derivative (onLine p r i) := by
  induction p with
  | nil => simp [onLine, pdiff]
  | cons t p ih =>
    have ih := ih fun s hs => hp s (List.mem_cons_of_mem _ hs)
    have ht : t.1.length = r.length := (hp t (List.mem_cons_self ..)).trans hr.symm
    have e : derivative (onLine (t :: p) r i) = derivative (C t.2 * evalMonom t.1 (line r i)) + derivative (onLine p r i) := by
      unfold onLine
      rw [List.map_cons, List.sum_cons, derivative_add]
    rw [e, ← ih, evalMonom_line _ _ _ ht (by omega)]
    unfold pdiff
    by_cases h0 : t.1.getD i 0 = 0
    · rw [List.filterMap_cons_none (by rw [if_pos h0]), h0]
      simp [derivative_mul]
    · rw [List.filterMap_cons_some (by rw [if_neg h0])]
      unfold onLine
      rw [List.map_cons, List.sum_cons, evalMonom_line _ _ _ (by simpa using ht) (by omega), set_modify, getD_modify _ _ _ (by omega)]
      congr 1
      simp only [derivative_mul, derivative_C, derivative_pow, derivative_add, derivative_X, zero_mul, zero_add, add_zero, mul_one, C_mul, map_natCast]
      ring

theorem eval_modify_zero (r : List K) (i : ℕ) : r.modify i ((0 : K) + ·) = r := by
  have : (fun x : K => (0 : K) + x) = id := by funext x; simp
  rw [this, List.modify_id]

/-- The derivatives at the root are the coefficients on the line. -/
theorem eval_pdiff {n : ℕ} {p : List (List ℕ × K)} (hp : Arity n p) {r : List K} (hr : r.length = n) {i : ℕ} (hi : i < n) (j : ℕ) :
    evalDict ((pdiff i)^[j] p) r = (j.factorial : K) * (onLine p r i).coeff j := by
  have h1 : ∀ j, Arity n ((pdiff i)^[j] p) ∧ onLine ((pdiff i)^[j] p) r i = derivative^[j] (onLine p r i) := by
    intro j
    induction j with
    | zero => exact ⟨hp, rfl⟩
    | succ j ih =>
      rw [Function.iterate_succ_apply', Function.iterate_succ_apply']
      exact ⟨arity_pdiff ih.1, by rw [onLine_pdiff ih.1 hr hi, ih.2]⟩
  have h2 := eval_onLine ((pdiff i)^[j] p) r i 0
  rw [eval_modify_zero, (h1 j).2] at h2
  rw [← h2, ← coeff_zero_eq_eval_zero, coeff_iterate_derivative]
  simp [Nat.descFactorial_self]

end

/-! ### Quadratic forms -/

section
variable {K : Type*} [Field K] [LinearOrder K] [IsStrictOrderedRing K]

/-- The bilinear form of a matrix of size `n`. -/
def bil (n : ℕ) (M : ℕ → ℕ → K) (x y : ℕ → K) : K := ∑ i ∈ range n, ∑ j ∈ range n, x i * M i j * y j

/-- Symmetric and positive semidefinite. -/
structure PSD (n : ℕ) (M : ℕ → ℕ → K) : Prop where
  symm : ∀ i j, i < n → j < n → M i j = M j i
  nonneg : ∀ x, 0 ≤ bil n M x x

theorem bil_symm {n : ℕ} {M : ℕ → ℕ → K} (h : PSD n M) (x y : ℕ → K) : bil n M x y = bil n M y x := by
  unfold bil
  rw [sum_comm]
  refine sum_congr rfl fun i hi => sum_congr rfl fun j hj => ?_
  rw [h.symm j i (mem_range.1 hj) (mem_range.1 hi)]
  ring

theorem bil_add (n : ℕ) (M : ℕ → ℕ → K) (x y z : ℕ → K) (t : K) : bil n M x (fun i => y i + t * z i) = bil n M x y + t * bil n M x z := by
  unfold bil
  rw [mul_sum, ← sum_add_distrib]
  refine sum_congr rfl fun i _ => ?_
  rw [mul_sum, ← sum_add_distrib]
  exact sum_congr rfl fun j _ => by ring

theorem bil_add_left {n : ℕ} {M : ℕ → ℕ → K} (h : PSD n M) (x y z : ℕ → K) (t : K) : bil n M (fun i => y i + t * z i) x = bil n M y x + t * bil n M z x := by
  rw [bil_symm h, bil_add, bil_symm h x y, bil_symm h x z]

/-- A vector on which the form vanishes is annihilated by the matrix. -/
theorem bil_kernel {n : ℕ} {M : ℕ → ℕ → K} (h : PSD n M) {x : ℕ → K} (h0 : bil n M x x = 0) (y : ℕ → K) : bil n M y x = 0 := by
  have key : ∀ t : K, 0 ≤ 2 * t * bil n M y x + t ^ 2 * bil n M y y := by
    intro t
    have := h.nonneg fun i => x i + t * y i
    rw [bil_add, bil_add_left h, bil_add_left h, h0, bil_symm h x y] at this
    linarith
  by_contra hne
  have hyy := h.nonneg y
  rcases eq_or_lt_of_le hyy with h1 | h1
  · have := key (-(bil n M y x))
    rw [← h1] at this
    have : 0 < bil n M y x ^ 2 := by positivity
    nlinarith
  · have := key (-(bil n M y x) / bil n M y y)
    have e : 2 * (-(bil n M y x) / bil n M y y) * bil n M y x + (-(bil n M y x) / bil n M y y) ^ 2 * bil n M y y = -(bil n M y x ^ 2 / bil n M y y) := by
      field_simp
      ring
    rw [e] at this
    have : 0 < bil n M y x ^ 2 / bil n M y y := by positivity
    linarith

theorem mulVec_zero {n : ℕ} {M : ℕ → ℕ → K} (h : PSD n M) {x : ℕ → K} (h0 : bil n M x x = 0) {i : ℕ} (hi : i < n) : ∑ j ∈ range n, M i j * x j = 0 := by
  have := bil_kernel h h0 fun k => if k = i then 1 else 0
  unfold bil at this
  rw [sum_eq_single i (fun b _ hb => by simp [hb]) (fun hn => absurd (mem_range.2 hi) hn)] at this
  simpa using this

theorem bil_of_mulVec {n : ℕ} {M : ℕ → ℕ → K} {x : ℕ → K} (h : ∀ i, i < n → ∑ j ∈ range n, M i j * x j = 0) (y : ℕ → K) : bil n M y x = 0 := by
  unfold bil
  refine sum_eq_zero fun i hi => ?_
  have : ∑ j ∈ range n, y i * M i j * x j = y i * ∑ j ∈ range n, M i j * x j := by
    rw [mul_sum]
    exact sum_congr rfl fun j _ => by ring
  rw [this, h i (mem_range.1 hi), mul_zero]

end

end Verif.Manifold
