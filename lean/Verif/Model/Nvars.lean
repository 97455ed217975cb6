import Verif.Model.Coeff
import Verif.Model.Congruence
import Verif.Model.StructUtils
import Mathlib.Data.Fintype.Perm
import Mathlib.Algebra.BigOperators.Group.Finset.Basic
import Mathlib.Data.Nat.Factorial.Basic

/-!
# Symmetric quartics in four or more variables

Model of `triples/core/structsos/nvars.py`.

Simplifications.  The search for a point of a region of the plane, `common_region_of_conics`, is a parameter: for each of the three candidates for `u`
it gives a pair of numbers or nothing, and nothing is assumed about it.  The numbers are those of an ordered field, so `u_.is_finite` always holds.
Answers are their values as functions of the variables; `SymmetricSum` is the sum over all permutations.
-/

namespace Verif.Nvars

open Finset

variable {K : Type*} [Field K] [LinearOrder K]

/-- The five coefficients (nvars.py 31-33). -/
structure Coeffs (K : Type*) where
  /-- `(4)` -/
  c4 : K
  /-- `(3, 1)` -/
  c3 : K
  /-- `(2, 2)` -/
  c22 : K
  /-- `(2, 1, 1)` -/
  c21 : K
  /-- `(1, 1, 1, 1)` -/
  c1 : K

/-- `_ + [0]*(n - len(_))` (nvars.py 32). -/
def pad (n : ℕ) (l : List ℕ) : List ℕ := l ++ List.replicate (n - l.length) 0

/-- Reading the coefficients (nvars.py 31-33). -/
def readCoeffs (n : ℕ) (co : Coeff K) : Coeffs K :=
  ⟨co.call (pad n [4]), co.call (pad n [3, 1]), co.call (pad n [2, 2]), co.call (pad n [2, 1, 1]), co.call (pad n [1, 1, 1, 1])⟩

/-- `m = factorial(n - 2)` (nvars.py 29). -/
def mfac (K : Type*) [Field K] (n : ℕ) : K := ((n - 2).factorial : ℕ)

/-- `cq` (nvars.py 35). -/
def cqOf (n : ℕ) (c : Coeffs K) : K := (c.c4 / (n - 1) + c.c3 + c.c22 / 2 + (n - 2) * (c.c21 / 2 + (n - 3) * c.c1 / 24)) / n

/-- `q2` (nvars.py 36). -/
def q2Of (n : ℕ) (c : Coeffs K) (q1 q3 : K) : K := cqOf n c - q1 / (n - 1) - q3 * (n - 1) / 4

/-- `x` (nvars.py 37). -/
def xOf (n : ℕ) (c : Coeffs K) (q1 : K) : K := (c.c4 - q1) / (2 * mfac K n * (n - 1))

/-- `cy` (nvars.py 38). -/
def cyOf (n : ℕ) (c : Coeffs K) (q1 q3 : K) : K := (2 * q1 + q3 - c.c22) / 4 / mfac K n + xOf n c q1

/-- `y` (nvars.py 39). -/
def yOf (n : ℕ) (c : Coeffs K) (q1 q3 u : K) : K := cyOf n c q1 q3 / 2 + (n - 2) * u / 2

/-- `v` (nvars.py 40). -/
def vOf (n : ℕ) (c : Coeffs K) (q3 : K) : K := (6 * q3 - c.c1) / 48 / mfac K n

/-- `cr` (nvars.py 41). -/
def crOf (n : ℕ) (c : Coeffs K) (q1 q3 : K) : K := ((c.c3 - 2 * q2Of n c q1 q3) / (2 * mfac K n) + 2 * xOf n c q1 - cyOf n c q1 q3) / (2 * (n - 2))

/-- `r` (nvars.py 42). -/
def rOf (n : ℕ) (c : Coeffs K) (q1 q3 u : K) : K := crOf n c q1 q3 - u / 2

/-- `_create_quad` (nvars.py 53-61). -/
def createQuad (x y u v r : K) (i j : ℕ) : K :=
  if i < 2 then
    if j < 2 then (if i = j then x else y) else r
  else if j < 2 then r
  else if i = j then u else v

/-- The variables after a permutation. -/
def permuted (n : ℕ) (z : ℕ → K) (σ : Equiv.Perm (Fin n)) (i : ℕ) : K := if h : i < n then z (σ ⟨i, h⟩) else 0

/-- `SymmetricSum(f, poly.gens)`. -/
def symSum (n : ℕ) (f : (ℕ → K) → K) (z : ℕ → K) : K := ∑ σ : Equiv.Perm (Fin n), f (permuted n z σ)

/-- `_get_solution` (nvars.py 63-72). -/
def getSolution (n : ℕ) (x y u v r : K) : Except PyErr (Option ((ℕ → K) → K)) :=
  match congruence n (createQuad x y u v r) with
  | .error e => .error e
  | .ok none => .ok none
  | .ok (some (U, S)) => .ok (some (symSum n fun z => (z 0 - z 1) ^ 2 * ∑ i ∈ range n, S i * (∑ j ∈ range n, U i j * z j) ^ 2))

/-- `_get_solution2` (nvars.py 73-78). -/
def getSolution2 (n : ℕ) (q1 q2 q3 : K) : Option ((ℕ → K) → K) :=
  (quadraticWeighting q1 (q2 * 2) q3).map fun l z =>
    (l.map fun w => w.1 * (symSum n (fun z => z 0 ^ 2 / (mfac K n * (n - 1)) * w.2.1 + z 0 * z 1 / (mfac K n * 2) * w.2.2) z) ^ 2).sum

/-- The candidates for `u` (nvars.py 80). -/
def uCand (n : ℕ) (c : Coeffs K) (q1 q3 : K) : List K :=
  [2 * crOf n c q1 q3, (2 * xOf n c q1 - cyOf n c q1 q3) / (n - 2), vOf n c q3]

/-- One round of the loop with the point found in the region (nvars.py 88-97). -/
def attempt (n : ℕ) (c : Coeffs K) (q1 q3 u : K) : Except PyErr (Option ((ℕ → K) → K)) :=
  match getSolution n (xOf n c q1) (yOf n c q1 q3 u) u (vOf n c q3) (rOf n c q1 q3 u) with
  | .error e => .error e
  | .ok none => .ok none
  | .ok (some s) =>
    match getSolution2 n q1 (q2Of n c q1 q3) q3 with
    | none => .ok none
    | some s2 => .ok (some fun z => s z + s2 z)

/-- The loop (nvars.py 85-99); `region i` is the point found for the `i`-th candidate. -/
def search (n : ℕ) (c : Coeffs K) (region : ℕ → Option (K × K)) : List ℕ → Except PyErr (Option ((ℕ → K) → K))
  | [] => .ok none
  | i :: l =>
    match region i with
    | none => search n c region l
    | some (q1, q3) =>
      match attempt n c q1 q3 ((uCand n c q1 q3).getD i 0) with
      | .error e => .error e
      | .ok (some s) => .ok (some s)
      | .ok none => search n c region l

/-- `sos_struct_nvars_quartic_symmetric` (nvars.py 8-99). -/
def solve (region : ℕ → Option (K × K)) (co : Coeff K) : Except PyErr (Option ((ℕ → K) → K)) :=
  if co.degree ≠ 4 then .ok none
  else
    match co.isSymmetricDefault with
    | .error e => .error e
    | .ok false => .ok none
    | .ok true => if co.nvars ≤ 3 then .ok none else search co.nvars (readCoeffs co.nvars co) region [0, 1, 2]

end Verif.Nvars
