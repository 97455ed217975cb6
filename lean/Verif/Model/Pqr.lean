import Verif.Basic.Terms
import Verif.Model.Congruence

/-!
# Symmetric and cyclic polynomials in p, q, r

Model of triples/utils/expression/pqr.py.  SymPy's `symmetrize` and `Poly.div` are parameters.  Symbols are represented by their number: the result is
a polynomial in the given symbols.
-/

namespace Verif.Pqr

open Verif Verif.TermsPoly

variable {K : Type*} [Field K] [DecidableEq K]

abbrev TP (K : Type*) := List (List ℕ × K)

/-- The SymPy calls. -/
structure PqrExt (K : Type*) where
  /-- `sp.symmetrize(expr, gens, formal=True)` (pqr.py 46): the symmetric part, as a polynomial in the formal symbols, and the rest. -/
  symmetrize : ℕ → TP K → TP K × TP K
  /-- `Poly.div` (pqr.py 86). -/
  div : TP K → TP K → TP K × TP K

/-- `pqr_sym(poly, symbols)` (pqr.py 12-52) for a polynomial in `n` variables; `sy` is `len(symbols)`, `none` if no symbols are given. -/
def pqrSym (X : PqrExt K) (n : ℕ) (p : TP K) (sy : Option ℕ) : Except PyErr (TP K) :=
  if n ≠ 3 ∧ sy = none then .error .valueError
  else if n ≠ sy.getD 3 then .error .valueError
  else if (X.symmetrize n p).2 ≠ [] then .error .valueError
  else .ok (X.symmetrize n p).1

/-- `sp.Poly.new(poly.reorder(b,a,c).rep, a, b, c)` (pqr.py 84): the first two exponents change places. -/
def swapAB (p : TP K) : TP K := p.map fun t => (t.1.getD 1 0 :: t.1.getD 0 0 :: t.1.drop 2, t.2)

/-- `poly / 2` (pqr.py 84-85). -/
def half (p : TP K) : TP K := collect (p.map fun t => (t.1, t.2 / 2))

/-- `(a-b)*(b-c)*(c-a)` (pqr.py 87), expanded. -/
def vand : TP K := [([2, 1, 0], -1), ([2, 0, 1], 1), ([1, 2, 0], 1), ([1, 0, 2], -1), ([0, 2, 1], -1), ([0, 1, 2], 1)]

/-- `pqr_cyc(poly, symbols)` (pqr.py 55-98).  Unpacking a list of symbols that has not three entries raises `ValueError`. -/
def pqrCyc (X : PqrExt K) (n : ℕ) (p : TP K) (sy : Option ℕ) : Except PyErr (TP K × TP K) :=
  if n ≠ 3 then .error .valueError
  else if sy.getD 3 ≠ 3 then .error .valueError
  else
    let f0 := half (collect (p ++ swapAB p))
    let f1 := X.div (half (collect (p ++ pneg (swapAB p)))) vand
    if f1.2 ≠ [] then .error .valueError
    else match pqrSym X 3 f0 (some 3) with
      | .error _ => .error .valueError
      | .ok f => match pqrSym X 3 f1.1 (some 3) with
        | .error _ => .error .valueError
        | .ok g => .ok (f, g)

/-- `pqr_ker(symbols)` (pqr.py 101-108). -/
def pqrKer : TP K := [([3, 0, 1], -4), ([2, 2, 0], 1), ([1, 1, 1], 18), ([0, 3, 0], -4), ([0, 0, 2], -27)]

end Verif.Pqr
