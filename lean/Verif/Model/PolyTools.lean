import Verif.Model.Congruence
import Verif.Basic.PyDict

/-!
# Tests on three-variable polynomials

Model of `verify_hom_cyclic` and `verify_is_symmetric` (triples/utils/polytools.py 68-159).  The fast algorithm works on SymPy's dense representation
of a polynomial in three variables: the coefficients from the highest power down, nested three times, without leading zeros; zero is `[[[]]]`.
-/

namespace Verif.PolyTools

open Verif

variable {K : Type*} [Zero K] [DecidableEq K]

/-- The dense representation `poly.rep.to_list()`. -/
abbrev Dense (K : Type*) := List (List (List K))

/-- The loop over `j` (polytools.py 100-109).  `v` and `rem` are the running values of the code; a write outside the array raises `IndexError`;
`.ok none` is `return False, False`. -/
def innerLoop : List (List K) → ℤ → ℤ → List K → Except PyErr (Option (List K))
  | [], _, _, cs => .ok (some cs)
  | xj :: l, v, rem, cs =>
    match xj with
    | [] => innerLoop l (v - 1) (rem + 1) cs
    | c :: tail =>
      if (tail.length : ℤ) ≠ rem + 1 ∨ tail.any (fun z => decide (z ≠ 0)) then .ok none
      else if v - 1 < 0 ∨ (cs.length : ℤ) ≤ v - 1 then .error .indexError
      else innerLoop l (v - 1) (rem + 1) (cs.set (v - 1).toNat c)

/-- The loop over `i` (polytools.py 94-109); `len0 - i - 1` is the number of the entries after the current one. -/
def outerLoop (n : ℤ) : List (List (List K)) → List K → Except PyErr (Option (List K))
  | [], cs => .ok (some cs)
  | xi :: l, cs =>
    if xi.length = 0 then outerLoop n l cs
    else match innerLoop xi (l.length * (n + 1) + xi.length) (n - l.length - xi.length) cs with
      | .error e => .error e
      | .ok none => .ok none
      | .ok (some cs') => outerLoop n l cs'

/-- The comparison of the coefficients of `a^i b^j c^k`, `a^j b^k c^i`, `a^k b^i c^j` (polytools.py 132-143). -/
def cyclicCheck (n : ℕ) (cs : List K) : Bool :=
  ((List.range (n + 1)).filter fun i => decide ((n + 2) / 3 ≤ i)).all fun i =>
    ((List.range (min (i + 1) (n - i + 1))).filter fun j => decide (n - 2 * i ≤ j)).all fun j =>
      decide (cs.getD (i * (n + 1) + j) 0 = cs.getD (j * (n + 1) + (n - i - j)) 0) &&
        decide (cs.getD (i * (n + 1) + j) 0 = cs.getD ((n - i - j) * (n + 1) + i) 0)

/-- `verify_hom_cyclic(poly, fast=True)` (polytools.py 86-109, 132-144) for three variables. -/
def verifyFast (rep : Dense K) : Except PyErr (Bool × Bool) :=
  match rep with
  | (x :: r0) :: rest =>
    let n : ℤ := (rest.length + 1 : ℕ) + (r0.length + 1 : ℕ) + x.length - 3
    if n < 1 then .ok (true, true)
    else match outerLoop n rep (List.replicate ((n.toNat + 1) ^ 2) 0) with
      | .error e => .error e
      | .ok none => .ok (false, false)
      | .ok (some cs) => .ok (true, cyclicCheck n.toNat cs)
  | _ => .error .indexError

/-- One round of the slow algorithm (polytools.py 124-130): `none` is `return False, False`. -/
def slowStep (n : ℕ) (acc : Option (List K)) (t : List ℕ × K) : Option (List K) :=
  acc.bind fun cs => if t.1.sum ≠ n then none else some (cs.set (t.1.getD 0 0 * (n + 1) + t.1.getD 1 0) t.2)

/-- `verify_hom_cyclic(poly, fast=False)` (polytools.py 111-144).  The list of terms is not empty: SymPy gives zero the term `((0, ..., 0), 0)`. -/
def verifySlow (nvars : ℕ) (terms : List (List ℕ × K)) : Except PyErr (Bool × Bool) :=
  match terms with
  | [] => .error .indexError
  | t :: _ =>
    let n := t.1.sum
    if nvars ≠ 3 then .ok (if terms.all fun t => decide (t.1.sum = n) then (true, false) else (false, false))
    else match terms.foldl (slowStep n) (some (List.replicate ((n + 1) ^ 2) 0)) with
      | none => .ok (false, false)
      | some cs => .ok (true, cyclicCheck n cs)

/-- `verify_is_symmetric(poly)` (polytools.py 147-159); unpacking a monomial that has not three entries raises `ValueError`. -/
def verifySymmetric (terms : List (List ℕ × K)) : Except PyErr Bool :=
  let coeffs := dictOf terms
  if coeffs.any fun t => decide (t.1.length ≠ 3) then .error .valueError
  else .ok (coeffs.all fun t => decide ((dget coeffs [t.1.getD 1 0, t.1.getD 0 0, t.1.getD 2 0]).getD 0 = t.2))

end Verif.PolyTools
