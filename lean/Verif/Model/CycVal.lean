import Mathlib.Algebra.Ring.Defs

/-!
# Values of cyclic and symmetric sums over the symbols `a, b, c (, d)`

`CyclicSum(expr, symbols)` adds the images of `expr` under all elements of the group
(triples/utils/expression/cyclic.py 411-529: `doit`), so its value at a point is the sum below; the simplification
done by the constructor is treated separately (property C39).
-/

namespace Verif

variable {K : Type*} [CommRing K]

/-- `CyclicSum(f, (a,b,c))` at a point (cyclic.py 411-529). -/
def cyc3 (f : K → K → K → K) (a b c : K) : K := f a b c + f b c a + f c a b

/-- `CyclicProduct(f, (a,b,c))` at a point (cyclic.py 533-632). -/
def cycp3 (f : K → K → K → K) (a b c : K) : K := f a b c * f b c a * f c a b

/-- `SymmetricSum(f, (a,b,c))` at a point: all six permutations (cyclic.py, `SymmetricSum`). -/
def sym3 (f : K → K → K → K) (a b c : K) : K := cyc3 f a b c + cyc3 (fun x y z => f y x z) a b c

/-- `CyclicSum(f, (a,b,c,d))` at a point (quarternary/utils.py `CycSum`). -/
def cyc4 (f : K → K → K → K → K) (a b c d : K) : K := f a b c d + f b c d a + f c d a b + f d a b c

/-- `SymmetricSum(f, (a,b,c,d))` at a point: all 24 permutations (quarternary/utils.py `SymSum`). -/
def sym4 (f : K → K → K → K → K) (a b c d : K) : K :=
  sym3 (fun x y z => f x y z d) a b c + sym3 (fun x y z => f x y d z) a b c +
  sym3 (fun x y z => f x d y z) a b c + sym3 (fun x y z => f d x y z) a b c

end Verif
