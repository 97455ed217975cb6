import Mathlib.Algebra.Order.Field.Basic

/-!
# Model of helper functions in `triples/core/structsos/utils.py`
-/

namespace Verif

/-- `quadratic_weighting(c1, c2, c3, formal=True)` (structsos/utils.py 163-217).  `radsimp` (17-33) only
rewrites a number without changing its value and is the identity here; coefficients range over any ordered
field instead of SymPy real numbers. -/
def quadraticWeighting {K : Type*} [Field K] [LinearOrder K] (c1 c2 c3 : K) :
    Option (List (K × (K × K))) :=
  if 4 * c1 * c3 < c2 ^ 2 ∨ c1 < 0 ∨ c3 < 0 then none
  else if c1 = 0 then some [(c3, (0, 1))]
  else if c3 = 0 then some [(c1, (1, 0))]
  else
    let ratio := c2 / c1 / 2
    some [(c1, (1, ratio)), (c3 - ratio ^ 2 * c1, (0, 1))]

/-- `quadratic_weighting(..., mapping=f)` (structsos/utils.py 219): the weighted sum with a custom square. -/
def quadraticWeightingSum {K : Type*} [Field K] [LinearOrder K] (c1 c2 c3 : K) (f : K → K → K) : Option K :=
  (quadraticWeighting c1 c2 c3).map fun l => (l.map fun w => w.1 * f w.2.1 w.2.2).sum

end Verif
