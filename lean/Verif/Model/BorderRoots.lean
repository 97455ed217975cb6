import Verif.Model.Coeff
import Mathlib.Algebra.Polynomial.Derivative
import Mathlib.Algebra.Order.Field.Basic

/-!
# Model of the search for roots on the border and on the axis (triples/utils/roots/findroot.py 450-509)

A polynomial in `a, b, c` is the list of its terms.  `nr` stands for `nroots(..., method = 'factor', real = True, nonnegative = True)`.
-/

namespace Verif.BorderRoots

open Polynomial

variable {K : Type*} [Field K] [LinearOrder K]

/-- `poly.subs(dict(zip(gens2, subs))).as_poly(a)` (findroot.py 473-478): variable `i` is kept, the next one is 1, the last one 0.
`Poly.from_list(rep, a)` of the cyclic case (findroot.py 458-460) is the one for `i = 1`: the terms without `a` as a polynomial in `b`; the
dense list takes the leading coefficient in `c`, which for a homogeneous polynomial is the only one. -/
noncomputable def edge (p : List (List ℕ × K)) (i : ℕ) : K[X] :=
  ((p.filter fun t => t.1.getD ((i + 2) % 3) 0 == 0).map fun t => C t.2 * X ^ t.1.getD i 0).sum

/-- `Poly.from_list([sum(sum(__) for __ in _) for _ in poly.rep.to_list()], a)` (findroot.py 497-498): `b = c = 1`. -/
noncomputable def axis (p : List (List ℕ × K)) : K[X] := (p.map fun t => C t.2 * X ^ t.1.getD 0 0).sum

/-- The loop over the roots of the derivative (findroot.py 463-466, 479-486, 501-506). -/
noncomputable def crit (nr : K[X] → List K) (P : K[X]) : List K :=
  (nr (derivative P)).filter fun r => decide (0 ≤ (derivative (derivative P)).eval r)

/-- The point of edge `i` (findroot.py 482-484): `root[i] = r`, `root[(i+1)%nvars] = 1`. -/
def edgePoint (i : ℕ) (r : K) : List K := ((List.replicate 3 0).set i r).set ((i + 1) % 3) 1

/-- `_findroot_border` (findroot.py 450-488) for three variables.  An exception of the numerical solver ends the loop silently; it is not
modelled. -/
noncomputable def border (nr : K[X] → List K) (p : List (List ℕ × K)) (cyc : Bool) : List (List K) :=
  if cyc then (crit nr (edge p 1)).map fun r => [r, 1, 0]
  else (List.range 3).flatMap fun i => (crit nr (edge p i)).map fun r => edgePoint i r

/-- `_findroot_symmetric` (findroot.py 490-509). -/
noncomputable def onAxis (nr : K[X] → List K) (p : List (List ℕ × K)) (skipBorder : Bool) : List (List K) :=
  ((crit nr (axis p)).filter fun r => !(decide (r = 0) && skipBorder)).map fun r => [r, 1, 1]

end Verif.BorderRoots
