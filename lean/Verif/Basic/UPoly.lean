import Mathlib.Tactic.Ring
import Mathlib.Tactic.LinearCombination
import Mathlib.Tactic.TypeStar
import Mathlib.Algebra.BigOperators.Group.Finset.Basic
import Mathlib.Algebra.BigOperators.Ring.Finset
import Mathlib.Algebra.BigOperators.Intervals
import Mathlib.Algebra.Polynomial.Roots
import Mathlib.Algebra.Order.Field.Basic
import Mathlib.Algebra.CharZero.Infinite
import Mathlib.Algebra.Order.Ring.Nat

/-!
# Univariate polynomials as coefficient lists

Shared vocabulary.  A SymPy `Poly` in one generator is the list of its coefficients in ascending order
(`poly.all_coeffs()[::-1]`), not necessarily normalised; `pstrip` is the normalisation SymPy keeps.
Arithmetic is the usual one; nothing here belongs to /repo.
-/

namespace Verif

/-- ascending coefficient list -/
abbrev UPoly (K : Type*) := List K

section defs
variable {K : Type*} [Field K]

/-- value at a point -/
def uev : UPoly K → K → K
  | [], _ => 0
  | a :: p, x => a + x * uev p x

def padd : UPoly K → UPoly K → UPoly K
  | [], q => q
  | p, [] => p
  | a :: p, b :: q => (a + b) :: padd p q

def psmul (c : K) (p : UPoly K) : UPoly K := p.map (c * ·)

def pmul : UPoly K → UPoly K → UPoly K
  | [], _ => []
  | a :: p, q => padd (psmul a q) (0 :: pmul p q)

def ppow (p : UPoly K) : ℕ → UPoly K
  | 0 => [1]
  | k + 1 => pmul p (ppow p k)

variable [DecidableEq K]

/-- drop vanishing leading coefficients (`dup_strip`) -/
def pstrip : UPoly K → UPoly K
  | [] => []
  | a :: p => match pstrip p with
    | [] => if a = 0 then [] else [a]
    | b :: q => a :: b :: q

/-- `poly.degree()`; `none` is `-oo` for the zero polynomial -/
def pdeg (p : UPoly K) : Option ℕ :=
  match pstrip p with
  | [] => none
  | q => some (q.length - 1)

/-- `poly.all_coeffs()`: descending, `[0]` for the zero polynomial -/
def allCoeffs (p : UPoly K) : List K :=
  match pstrip p with
  | [] => [0]
  | q => q.reverse

/-- `poly.LC()` -/
def plc (p : UPoly K) : K := (pstrip p).getLastD 0

end defs

section lemmas
variable {K : Type*} [Field K]

@[simp] theorem uev_nil (x : K) : uev ([] : UPoly K) x = 0 := rfl
@[simp] theorem uev_cons (a : K) (p : UPoly K) (x : K) : uev (a :: p) x = a + x * uev p x := rfl

theorem uev_padd (p q : UPoly K) (x : K) : uev (padd p q) x = uev p x + uev q x := by
  induction p generalizing q with
  | nil => simp [padd]
  | cons a p ih =>
    cases q with
    | nil => simp [padd]
    | cons b q => simp only [padd, uev_cons, ih]; ring

theorem uev_psmul (c : K) (p : UPoly K) (x : K) : uev (psmul c p) x = c * uev p x := by
  induction p with
  | nil => simp [psmul]
  | cons a p ih => simp only [psmul, List.map_cons, uev_cons] at *; rw [ih]; ring

theorem uev_pmul (p q : UPoly K) (x : K) : uev (pmul p q) x = uev p x * uev q x := by
  induction p with
  | nil => simp [pmul]
  | cons a p ih => simp only [pmul, uev_padd, uev_psmul, uev_cons, ih]; ring

theorem uev_ppow (p : UPoly K) (k : ℕ) (x : K) : uev (ppow p k) x = uev p x ^ k := by
  induction k with
  | zero => simp [ppow]
  | succ k ih => simp only [ppow, uev_pmul, ih]; ring

theorem uev_append (p q : UPoly K) (x : K) : uev (p ++ q) x = uev p x + x ^ p.length * uev q x := by
  induction p with
  | nil => simp
  | cons a p ih => simp only [List.cons_append, uev_cons, ih, List.length_cons]; ring

/-- value as a sum over coefficients -/
theorem uev_eq_sum (p : UPoly K) (x : K) (n : ℕ) (h : p.length ≤ n) :
    uev p x = ∑ i ∈ Finset.range n, p.getD i 0 * x ^ i := by
  induction p generalizing n with
  | nil => simp
  | cons a p ih =>
    cases n with
    | zero => simp at h
    | succ n =>
      rw [Finset.sum_range_succ', uev_cons, ih n (by simpa using h), Finset.mul_sum]
      simp only [List.getD_cons_succ, List.getD_cons_zero, pow_zero, mul_one]
      rw [add_comm]
      congr 1
      apply Finset.sum_congr rfl
      intro i _; ring

variable [DecidableEq K]

theorem uev_pstrip (p : UPoly K) (x : K) : uev (pstrip p) x = uev p x := by
  induction p with
  | nil => rfl
  | cons a p ih =>
    unfold pstrip
    split
    · rename_i h
      rw [h] at ih
      split_ifs with ha
      · simp [← ih, ha]
      · simp [← ih]
    · rename_i b q h
      rw [h] at ih
      simp only [uev_cons] at *; rw [ih]

theorem pstrip_length_le (p : UPoly K) : (pstrip p).length ≤ p.length := by
  induction p with
  | nil => simp [pstrip]
  | cons a p ih =>
    unfold pstrip
    split
    · split_ifs <;> simp
    · rename_i b q h
      rw [h] at ih
      simpa using ih

/-- the last entry of a stripped nonzero polynomial is nonzero -/
theorem pstrip_getLast (p : UPoly K) (h : pstrip p ≠ []) : (pstrip p).getLast h ≠ 0 := by
  induction p with
  | nil => simp [pstrip] at h
  | cons a p ih =>
    by_cases hp : pstrip p = []
    · have : pstrip (a :: p) = if a = 0 then [] else [a] := by
        conv_lhs => unfold pstrip
        rw [hp]
      by_cases ha : a = 0
      · exact absurd (by rw [this, if_pos ha]) h
      · rw [if_neg ha] at this
        simp only [this]
        simpa using ha
    · obtain ⟨b, q, hbq⟩ := List.exists_cons_of_ne_nil hp
      have : pstrip (a :: p) = a :: pstrip p := by
        conv_lhs => unfold pstrip
        rw [hbq]
      simp only [this]
      rw [List.getLast_cons hp]
      exact ih hp

theorem uev_allCoeffs (p : UPoly K) (x : K) : uev (allCoeffs p).reverse x = uev p x := by
  unfold allCoeffs
  rw [← uev_pstrip p]
  split
  · rename_i h; rw [h]; simp
  · simp

/-- the Mathlib polynomial of a coefficient list -/
noncomputable def toPoly : UPoly K → Polynomial K
  | [] => 0
  | a :: p => Polynomial.C a + Polynomial.X * toPoly p

omit [DecidableEq K] in
theorem eval_toPoly (p : UPoly K) (x : K) : (toPoly p).eval x = uev p x := by
  induction p with
  | nil => simp [toPoly]
  | cons a p ih => simp [toPoly, ih]

omit [DecidableEq K] in
theorem coeff_toPoly (p : UPoly K) (i : ℕ) : (toPoly p).coeff i = p.getD i 0 := by
  induction p generalizing i with
  | nil => simp [toPoly]
  | cons a p ih =>
    cases i with
    | zero => simp [toPoly]
    | succ i => simp only [toPoly, Polynomial.coeff_add, Polynomial.coeff_C_succ, Polynomial.coeff_X_mul, ih,
        List.getD_cons_succ, zero_add]

omit [DecidableEq K] in
/-- Two coefficient lists with equal values away from one point have equal values everywhere. -/
theorem uev_eq_of_ne [LinearOrder K] [IsStrictOrderedRing K] (p q : UPoly K) (b : K)
    (h : ∀ x, x ≠ b → uev p x = uev q x) (x : K) : uev p x = uev q x := by
  have hinf : Infinite K := inferInstance
  have : toPoly p = toPoly q := by
    apply Polynomial.eq_of_infinite_eval_eq
    apply Set.Infinite.mono (s := {x : K | x ≠ b})
    · intro x hx
      simp only [Set.mem_ofPred_eq, eval_toPoly]
      exact h x hx
    · exact (Set.finite_singleton b).infinite_compl
  rw [← eval_toPoly, ← eval_toPoly, this]

omit [DecidableEq K] in
/-- Equal values everywhere give equal coefficients. -/
theorem getD_eq_of_uev_eq [LinearOrder K] [IsStrictOrderedRing K] (p q : UPoly K)
    (h : ∀ x, uev p x = uev q x) (i : ℕ) : p.getD i 0 = q.getD i 0 := by
  have hinf : Infinite K := inferInstance
  have : toPoly p = toPoly q := by
    apply Polynomial.funext
    intro x; rw [eval_toPoly, eval_toPoly, h]
  rw [← coeff_toPoly, ← coeff_toPoly, this]

end lemmas
end Verif
