import Mathlib.Algebra.Order.Field.Basic
import Mathlib.Algebra.BigOperators.Group.List.Basic

/-!
# Model of the entry of `_structural_sos` (triples/core/structsos/structsos.py 51-85)
-/

namespace Verif.StructDispatch

/-- The value of a term `c x^m`. -/
def termVal {K : Type*} [CommSemiring K] (m : List ℕ) (c : K) (x : List K) : K :=
  c * (List.zipWith (fun e y => y ^ e) m x).prod

/-- The monomial shortcut (structsos.py 58-62): for a polynomial with at most one term (`poly.is_monomial`),
return the polynomial itself if the leading coefficient is nonnegative, else `None`.  The constraints are not
looked at.  The outer `none` means that the shortcut does not apply.  The zero polynomial has the single term
`((0,...,0), 0)`. -/
def monomialShortcut {K : Type*} [CommSemiring K] [LinearOrder K] (terms : List (List ℕ × K)) :
    Option (Option (List ℕ × K)) :=
  match terms with
  | [(m, c)] => if 0 ≤ c then some (some (m, c)) else some none
  | _ => none

/-- The selection of solvers by number of variables after the shortcut (structsos.py 64-85).  `r i` are the
results of the called solvers, in the order 2-var, 3-var, 4-var, n-var quartic, quadratic, constrained. -/
def pickSolver {σ : Type*} (nvars d : ℕ) (two three four nquartic quad constrained : Unit → Option σ) : Option σ :=
  let s0 := if nvars = 2 then two () else if nvars = 3 then three () else if nvars = 4 then four () else none
  let s1 := if s0.isNone ∧ nvars > 3 then nquartic () else s0
  let s2 := if s1.isNone ∧ nvars > 3 ∧ d = 2 then quad () else s1
  if s2.isNone then constrained () else s2

end Verif.StructDispatch
