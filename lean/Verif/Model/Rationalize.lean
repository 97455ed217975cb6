import Mathlib.Data.Rat.Floor
import Mathlib.Algebra.Order.Ring.Rat

/-!
# Model of triples/utils/roots/rationalize.py: continued fractions

A Python `float` is the rational number it denotes (`sp.Rational(v)` is exact).  Only `reliable=True` is modelled; the other branch is
a call of `sympy.nsimplify`.  The comparison `abs(v - x) < 1e-6`, done in SymPy with a float, is exact here.
-/

namespace Verif.Rationalize

/-- The loop (rationalize.py 104-118): the terms after the first, and whether the loop broke because `x` became `0` (`1/0 = zoo`). -/
def cfTail : ℕ → ℚ → List ℤ × Bool
  | 0, _ => ([], false)
  | k + 1, x =>
    if x = 0 then ([], true)
    else (⌊1 / x⌋ :: (cfTail k (1 / x - ⌊1 / x⌋)).1, (cfTail k (1 / x - ⌊1 / x⌋)).2)

/-- `for t in fracs[::-1]: x += t; x = 1/x`, then `x = 1/x` (rationalize.py 125-130, 136-141).  `1/zoo = 0` in SymPy and `(0⁻¹)⁻¹ = 0`
here. -/
def evalCF (l : List ℤ) : ℚ := 1 / (l.foldr (fun (t : ℤ) (x : ℚ) => 1 / (x + (t : ℚ))) 0)

/-- `max(range(1, len(fracs)), key=lambda u: fracs[u])`: the first position of the largest term (rationalize.py 112); `best` is the
position found so far and `i` the next one. -/
def argMaxFrom : (best : ℕ) → (bv : ℤ) → (i : ℕ) → List ℤ → ℕ
  | best, _, _, [] => best
  | best, bv, i, t :: l => if bv < t then argMaxFrom i t (i + 1) l else argMaxFrom best bv (i + 1) l

/-- The number of terms kept (rationalize.py 109-121). -/
def cutoff (tail : List ℤ) (broke : Bool) : ℕ :=
  if broke then
    match tail with
    | [] => 1
    | t :: l => argMaxFrom 1 t 2 l
  else tail.length + 1

/-- `rationalize(v, reliable=True, truncate=k)` (rationalize.py 67-143). -/
def rationalize (truncate : ℕ) (v : ℚ) : ℚ :=
  let t := ⌊v⌋
  let r := cfTail truncate (v - t)
  let fracs := t :: r.1
  let x := evalCF (fracs.take (cutoff r.1 r.2))
  if |v - x| < 1 / 1000000 then x else evalCF fracs

/-- `rationalize_array(x, tol, reliable=True)` on floats (rationalize.py 176-200), with the default `truncate = 32`. -/
def rationalizeArray (x : List ℚ) (tol : ℚ) : List ℚ := x.map fun v => if |v| < tol then 0 else rationalize 32 v

end Verif.Rationalize
