import Verif.Basic.Terms
import Verif.Model.TernaryAcyclic

/-!
# The solvers for acute triangles

Model of `triples/core/structsos/constrained/acute.py`: homogeneous cyclic inequalities in three variables under the constraints
`b^2+c^2-a^2 >= 0`, `c^2+a^2-b^2 >= 0`, `a^2+b^2-c^2 >= 0`.

Simplifications.  The undefined function `F`, which the driver finally replaces by the expressions given for the constraints (acute.py 65-69), is
read as the constraint polynomial itself.  `radsimp` only rewrites numbers.  The calls of solvers of other files are the fields of `AcuteExt`:
the cubic and quartic solvers (modelled in `TernaryCubic` and `TernaryQuartic`), the sextic solver, the general cyclic solver, polynomial
division, and the univariate prover together with the homogenisation of its proof.  The replacement of the remaining symbols by the expressions of
the user's constraints (acute.py 55-71) is not modelled.
-/

namespace Verif.Acute

open Verif.Ternary Verif.TermsPoly

variable {K : Type*} [Field K] [LinearOrder K]

/-- `F(a)` after the replacement of acute.py 24, 65: `b^2 + c^2 - a^2`. -/
def fA : Val3 K := fun a b c => b ^ 2 + c ^ 2 - a ^ 2

/-- `F(b) * F(c)` (acute.py 147, 153). -/
def fBC : Val3 K := fun a b c => (c ^ 2 + a ^ 2 - b ^ 2) * (a ^ 2 + b ^ 2 - c ^ 2)

/-- `e * solution`. -/
def times (e : Val3 K) (C : Cert K) : Cert K := ⟨C.terms.map fun t => (t.1, fun a b c => e a b c * t.2 a b c), C.den⟩

/-- `solution / e`. -/
def over (C : Cert K) (e : Val3 K) : Cert K := ⟨C.terms, fun a b c => C.den a b c * e a b c⟩

/-- `CyclicSum(e * solution)`. -/
def cycTimes (e : Val3 K) (C : Cert K) : Cert K := ((times e C).plus ((times e C).rot 1)).plus ((times e C).rot 2)

/-- What the solvers call in other files. -/
structure AcuteExt (K : Type*) where
  /-- `sos_struct_cubic` (acute.py 118). -/
  cub : Cubic K → Except PyErr (Option (Cert K))
  /-- `sos_struct_quartic` (acute.py 306). -/
  quart : Quartic K → Except PyErr (Option (Cert K))
  /-- `sos_struct_sextic` on the polynomial with the given values (acute.py 157). -/
  sextic : Val3 K → Option (Cert K)
  /-- `sp.sqrt(2)` (acute.py 220, 229). -/
  sqrt2 : K
  /-- The values that `rationalize_func` tries, in order (acute.py 224-225). -/
  cands : K → K → List K
  /-- `isinstance(_, sp.Rational)` for both numbers (acute.py 227). -/
  rational : K → K → Bool
  /-- `_structural_sos_3vars_cyclic` (acute.py 323). -/
  ternary : List (List ℕ × K) → Option (Cert K)
  /-- `Poly.div` (acute.py 350, 356, 360, 375). -/
  div : List (List ℕ × K) → List (List ℕ × K) → List (List ℕ × K) × List (List ℕ × K)
  /-- `prove_univariate` and `_homogenize_sym_proof` for the given degree (acute.py 366-370). -/
  axis : List (List ℕ × K) → ℕ → Option (List (List ℕ × K))

/-- `_constrained_acute_quadratic` (acute.py 76-86). -/
def acuteQuadratic (c2 c1 : K) : Option (Cert K) :=
  if 0 ≤ c2 ∧ 0 ≤ c2 + c1 then quadratic c2 c1
  else if c2 < 0 ∧ 0 ≤ c1 + 2 * c2 then
    some (Cert.add ⟨[(c1 / 2, fun a b c => cyc3 (fun a b c => fA a b c * a) a b c + 6 * prodA a b c)], sumA⟩ (c2 + c1 / 2) (cyc3 fun a _ _ => a ^ 2))
  else none

/-- `_solve_trivial` (acute.py 121-126). -/
def solveTrivial (t : K) : Cert K :=
  .plain [(1, cyc3 fun a b c => fA a b c * a), (t - 1, cyc3 fun a b c => a * (b - c) ^ 2)]

/-- The denominator `CyclicSum(a)*CyclicSum(a**2)` (acute.py 135, 139). -/
def denPar : Val3 K := fun a b c => sumA a b c * cyc3 (fun a _ _ => a ^ 2) a b c

/-- `_solve_parabola` (acute.py 127-139). -/
def solveParabola (t : K) : Cert K :=
  if t = 1 then ⟨[(8, cycp3 fun a _ _ => a ^ 2), (1, cycp3 fA)], denPar⟩
  else
    let w := 1 / (-t ^ 2 + 2 * t + 7)
    ⟨[(w, fun a b c => cyc3 (fun a b c => (t - 1) * a ^ 3 + (t - 1) * a ^ 2 * b + (t - 1) * a ^ 2 * c - 8 / 3 * (a * b * c)) a b c ^ 2),
      (w * 8, cycp3 fA)], denPar⟩

/-- The polynomial `original` (acute.py 151). -/
def bottomPoly (t : K) : Val3 K := cyc3 fun a b c => -a ^ 3 + t * a ^ 2 * (b + c) + (1 - 2 * t) * (a * b * c)

/-- `multiplier` (acute.py 152). -/
def bottomMult (t : K) : Val3 K := cyc3 fun a b c => a ^ 3 + (8 - 2 * t) / 3 * (a * b * c)

/-- The two terms of `ker` (acute.py 153). -/
def bottomKer (t : K) : List (K × Val3 K) :=
  [(1, cyc3 fun a b c => fBC a b c * (b - c) ^ 2), (1 / (t - 1) ^ 2 / 4, fun a b c => cyc3 (fun a b c => (b + c - (2 * t - 2) * a) * (a - b) * (a - c)) a b c ^ 2)]

/-- `ker2` (acute.py 154): the same with the constraint polynomials written out. -/
def bottomKer2 (t : K) : Val3 K := fun a b c =>
  cyc3 (fun a b c => (a ^ 2 + b ^ 2 - c ^ 2) * (c ^ 2 + a ^ 2 - b ^ 2) * (b - c) ^ 2) a b c +
    1 / (t - 1) ^ 2 / 4 * cyc3 (fun a b c => (b + c - (2 * t - 2) * a) * (a - b) * (a - c)) a b c ^ 2

/-- `_solve_bottom` (acute.py 140-159).  At `t = 1` the quotient `1/(t - 1)**2` is not a number. -/
def solveBottom (X : AcuteExt K) (t : K) : Except PyErr (Option (Cert K)) :=
  if 2 ≤ t then
    .ok (some (Cert.add ⟨[(9, cyc3 fun a b c => fBC a b c * (b - c) ^ 2), (4, fun a b c => cyc3 (fun a b c => a * (2 * a ^ 2 - b ^ 2 - c ^ 2)) a b c ^ 2)],
      fun a b c => 2 * denPar a b c⟩ (t - 2) (cyc3 fun a b c => a * (b - c) ^ 2)))
  else if t = 1 then .error .zeroDivision
  else
    .ok ((X.sextic fun a b c => bottomPoly t a b c * bottomMult t a b c - bottomKer2 t a b c).map fun s =>
      over (s.plus (.plain (bottomKer t))) (bottomMult t))

/-- The discriminant of the parabola (acute.py 178, 219). -/
def eqP (x y : K) : K := 14 * x ^ 2 - 4 * x * y - 4 * x - y ^ 2 + 4 * y - 2

/-- `ux1` (acute.py 195). -/
def ux1 (x y t : K) : K := (-3 * x + y - 3) * t ^ 2 + (22 * x - 2 * y + 6) * t + (21 * x + 9 * y - 27)

/-- `ux2` (acute.py 196). -/
def ux2 (x y t : K) : K := (-6 * x - y - 6) * t ^ 2 + (12 * x + 2 * y + 28) * t + (42 * x + 7 * y - 54)

/-- The abscissa of a point of the parabola (acute.py 185, 208). -/
def parX (t : K) : K := -(t ^ 2 - 2 * t + 9) / (t ^ 2 - 2 * t - 7)

/-- The ordinate of a point of the parabola (acute.py 213). -/
def parY (t : K) : K := 16 * t / (t ^ 2 - 2 * t - 7)

/-- `_get_ux_w` (acute.py 204-215); `none` is the pair `(oo, 0)`. -/
def getUxW (x y t : K) : Option (K × K) :=
  if ux2 x y t = 0 then none
  else
    let ux := ux1 x y t / ux2 x y t
    if ux ≠ parX t then some (ux, (ux - x) / (ux - parX t))
    else some (ux, (3 - 6 * ux - y) / (3 - 6 * ux - parY t))

/-- `_validation` (acute.py 216-218). -/
def validT (x y t : K) : Bool :=
  match getUxW x y t with
  | none => false
  | some (ux, w) => decide (1 ≤ (ux - 1) ^ 2 * 2 ∧ 0 ≤ w ∧ w ≤ 1)

/-- The choice of `t` (acute.py 219-231); `none` is the return of `None`. -/
def chooseT (X : AcuteExt K) (x y : K) : Option K :=
  if eqP x y = 0 then some (2 * X.sqrt2 - 1)
  else if validT x y 1 then some 1
  else
    match (X.cands x y).find? (validT x y) with
    | some t => some t
    | none =>
      if X.rational x y then none
      else if validT x y (2 * X.sqrt2 - 1) then some (2 * X.sqrt2 - 1)
      else none

/-- The end of `get_sol` (acute.py 219-238).  The solution at infinity, `(oo, 0)`, gives `_solve_bottom(oo)`, which is not a number. -/
def getSolEnd (X : AcuteExt K) (x y : K) : Except PyErr (Option (Cert K)) :=
  match chooseT X x y with
  | none => .ok none
  | some t =>
    match getUxW x y t with
    | none => .error .valueError
    | some (ux, w) =>
      if 0 ≤ w ∧ w ≤ 1 then
        (solveBottom X ux).map fun r => r.map fun s => ((solveParabola t).smul w).plus (s.smul (1 - w))
      else .ok none

/-- The attempt with two points of the parabola (acute.py 182-189); `none` goes on. -/
def getSolPar (x y : K) : Option (Cert K) :=
  if x + y + 1 ≠ 0 then
    let t := (9 - 7 * x + y) / (x + y + 1)
    if t ^ 2 - 2 * t - 7 < 0 then
      let w1 := (parX t - x) / (parX t - 1)
      if 0 ≤ w1 ∧ w1 ≤ 1 then some (((solveParabola 1).smul w1).plus ((solveParabola t).smul (1 - w1))) else none
    else none
  else none

/-- The attempt with the tangent (acute.py 171-175); `none` goes on. -/
def getSolTan (x y : K) : Option (Cert K) :=
  if 0 < 6 * x + y - 4 then
    let t := (8 * x + y - 6) / (6 * x + y - 4)
    let w1 := (t - x) / (t - 1)
    if 0 ≤ w1 ∧ w1 ≤ 1 then
      some (((⟨[(1, cyc3 fun a b c => fA a b c * a ^ 2)], sumA⟩ : Cert K).smul w1).plus ((solveTrivial t).smul (1 - w1)))
    else none
  else none

/-- `get_sol` (acute.py 162-238). -/
def getSol (X : AcuteExt K) (x y : K) : Except PyErr (Option (Cert K)) :=
  if x < 1 then .ok none
  else if 0 ≤ 6 * x + y - 6 then .ok (some ((solveTrivial x).add (6 * x + y - 6) prodA))
  else if x = 1 then
    if -2 ≤ y then .ok (some ((solveParabola 1).add (y + 2) prodA)) else .ok none
  else
    match getSolTan x y with
    | some C => .ok (some C)
    | none =>
      if 6 * x + y < 3 then .ok none
      else if eqP x y < 0 then .ok none
      else
        match getSolPar x y with
        | some C => .ok (some C)
        | none => getSolEnd X x y

/-! ### Quartics -/

/-- `_solve_quad` (acute.py 262-268). -/
def solveQuad (f : Quartic K) (vb2 vc2 : K) : Except PyErr (Option (Cert K)) :=
  (acyclicQuadratic ⟨f.n / 2, (f.q + f.r) / 2, (f.p + f.r) / 2, vb2, (f.p + f.q) / 2, vc2⟩).map fun r => r.map (cycTimes fA)

/-- The weights of the second attempt (acute.py 278-295); `none` makes no attempt. -/
def secondWeights (f : Quartic K) (s1 s2 : K) : Option (K × K) :=
  let va2 := f.n / 2
  let vac := (f.p + f.r) / 2
  let vab := (f.q + f.r) / 2
  let vbc := (f.p + f.q) / 2
  if 0 ≤ vab ∧ 0 ≤ vac then some ((va2 + f.m) / 2, (va2 + f.m) / 2)
  else if 0 ≤ vbc then
    if 0 ≤ vac then some (va2 + f.m, 0) else some (0, va2 + f.m)
  else if va2 ≠ 0 then
    if 0 ≤ vac then some ((va2 + f.m - s2) / 2, (va2 + f.m + s2) / 2)
    else some ((va2 + f.m + s1) / 2, (va2 + f.m - s1) / 2)
  else none

/-- The first attempt (acute.py 255-297). -/
def acuteQuarticFirst (f : Quartic K) : Except PyErr (Option (Cert K)) :=
  let va2 := f.n / 2
  let vac := (f.p + f.r) / 2
  let vab := (f.q + f.r) / 2
  let s1 := if 0 < va2 then vab ^ 2 / (4 * va2) else 0
  let s2 := if 0 < va2 then vac ^ 2 / (4 * va2) else 0
  let first : Except PyErr (Option (Cert K)) :=
    if 0 < va2 then solveQuad f ((va2 + f.m + s1 - s2) / 2) ((va2 + f.m - s1 + s2) / 2) else .ok none
  match first with
  | .error e => .error e
  | .ok (some C) => .ok (some C)
  | .ok none =>
    match secondWeights f s1 s2 with
    | none => .ok none
    | some w => solveQuad f w.1 w.2

/-- The denominator `CyclicSum(a*(b+c-2*a)**2)+CyclicSum(a*(b-c)**2)` (acute.py 308). -/
def denQuart : Val3 K := fun a b c => cyc3 (fun a b c => a * (b + c - 2 * a) ^ 2) a b c + cyc3 (fun a b c => a * (b - c) ^ 2) a b c

/-- The second attempt (acute.py 299-308). -/
def acuteQuarticSecond (X : AcuteExt K) (f : Quartic K) : Except PyErr (Option (Cert K)) :=
  let x := (f.n + f.p + f.q) / 4
  if 0 ≤ x then
    (X.quart ⟨f.m + x, f.p - x, f.n - 2 * x, f.q - x, f.r + 3 * x⟩).map fun r => r.map fun s =>
      s.plus ⟨[(2 * x, cyc3 fun a b c => fA a b c * (2 * a + b + c) * (a - b) ^ 2 * (a - c) ^ 2)], denQuart⟩
  else .ok none

/-- `_constrained_acute_quartic` (acute.py 244-308). -/
def acuteQuartic (X : AcuteExt K) (f : Quartic K) : Except PyErr (Option (Cert K)) :=
  if f.m + f.p + f.n + f.q + f.r < 0 then .ok none
  else
    match (if 0 ≤ f.n then acuteQuarticFirst f else .ok none) with
    | .error e => .error e
    | .ok (some C) => .ok (some C)
    | .ok none => acuteQuarticSecond X f

/-! ### Cubics -/

/-- The product of a cyclic cubic with `a + b + c` (acute.py 113). -/
def liftCubic (f : Cubic K) : Quartic K := ⟨f.m, f.m + f.p, f.p + f.q, f.m + f.q, f.p + f.q + f.r⟩

/-- `_constrained_acute_cubic` (acute.py 89-242). -/
def acuteCubic (X : AcuteExt K) (f : Cubic K) : Except PyErr (Option (Cert K)) :=
  if f.p ≠ f.q then (acuteQuartic X (liftCubic f)).map fun r => r.map fun s => over s sumA
  else if 0 ≤ f.m then X.cub f
  else (getSol X (f.p / -f.m) (f.r / -f.m)).map fun r => r.map fun s => s.smul (-f.m)

/-! ### Symmetric polynomials of higher degree -/

/-- The values of a polynomial in three variables. -/
def polyVal (p : List (List ℕ × K)) : Val3 K := fun a b c => Coeff.evalDict p [a, b, c]

/-- The polynomial `p(b, c, a)`. -/
def rotT (p : List (List ℕ × K)) : List (List ℕ × K) :=
  p.map fun t => (match t.1 with | [i, j, k] => [k, i, j] | m => m, t.2)

/-- `CyclicSum(p)` as a polynomial. -/
def cycT (p : List (List ℕ × K)) : List (List ℕ × K) := collect (p ++ rotT p ++ rotT (rotT p))

/-- `CyclicProduct(p)` as a polynomial. -/
def cycpT (p : List (List ℕ × K)) : List (List ℕ × K) := pmul (pmul p (rotT p)) (rotT (rotT p))

/-- `b**2 + c**2 - a**2` as a polynomial. -/
def fT : List (List ℕ × K) := [([0, 2, 0], 1), ([0, 0, 2], 1), ([2, 0, 0], -1)]

/-- `a - b` as a polynomial. -/
def abT : List (List ℕ × K) := [([1, 0, 0], 1), ([0, 1, 0], -1)]

/-- `a - c` as a polynomial. -/
def acT : List (List ℕ × K) := [([1, 0, 0], 1), ([0, 0, 1], -1)]

/-- `CyclicProduct((a-b)**2)` as a polynomial (acute.py 350, 375). -/
def discT : List (List ℕ × K) := cycpT (pmul abT abT)

/-- `_constrained_acute_trivial_uncentered` (acute.py 311-327); the sum of the coefficients is `poly111`. -/
def acuteUncentered (X : AcuteExt K) (co : Coeff K) : Option (Cert K) :=
  let d := co.degree
  let p := (co.coeffs.map Prod.snd).sum
  if d < 6 then none
  else if p ≤ 0 then none
  else
    let e : List (List ℕ × K) := pmul (pmul (cycpT fT) (cycT [([d - 6, 0, 0], 1)])) (pconst 3 (p / 3))
    (X.ternary (collect (co.coeffs ++ pneg e))).map fun s =>
      s.add (p / 3) fun a b c => cycp3 fA a b c * cyc3 (fun a _ _ => a ^ (d - 6)) a b c

/-- `sym_axis` (dense_symmetric.py 69-75): the terms of `f(a,1,1)`. -/
def symAxis (co : Coeff K) : List (List ℕ × K) := collect (co.coeffs.map fun t => ([t.1.getD 0 0], t.2))

/-- The inner expression of `multiplier` (acute.py 372). -/
def multQ : List (List ℕ × K) :=
  [([3, 0, 0], 1), ([2, 0, 1], -1), ([1, 2, 0], 1), ([1, 0, 2], -1), ([0, 3, 0], -2), ([0, 2, 1], 1), ([0, 0, 3], 1)]

/-- `multiplier` as a polynomial (acute.py 372). -/
def multT : List (List ℕ × K) := pmul (cycT (pmul multQ multQ)) (pconst 3 (1 / 6))

/-- `(a-b)**2*(a-c)**2 * lifted_sym` as a polynomial (acute.py 374, 380). -/
def liftT (l : List (List ℕ × K)) : List (List ℕ × K) := pmul (pmul (pmul abT abT) (pmul acT acT)) l

/-- `solution * CyclicProduct((a-b)**2)` (acute.py 353, 380). -/
def discV : Val3 K := cycp3 fun a b _ => (a - b) ^ 2

/-- The part of `_constrained_acute_lift_for_six` before the recursive call when `f(a,1,1)` is not zero (acute.py 356-377): the proof of the
axis and the remaining polynomial.  `pure_div` is the quotient by the constant 1. -/
def liftParts (X : AcuteExt K) (co : Coeff K) : Option (List (List ℕ × K) × List (List ℕ × K)) :=
  let s1 := X.div (symAxis co) [([2], 1), ([1], -2), ([0], 1)]
  if s1.2 ≠ [] then none
  else
    let s2 := X.div s1.1 [([2], -1), ([0], 2)]
    if s2.2 ≠ [] then none
    else
      match X.axis s2.1 (co.degree - 4) with
      | none => none
      | some l =>
        let np := X.div (collect (pmul co.coeffs multT ++ pneg (pmul (cycT (liftT l)) (cycpT fT)))) discT
        if np.2 ≠ [] then none else some (l, np.1)

/-- The answer built from the answer of the recursive call (acute.py 380). -/
def liftAnswer (l : List (List ℕ × K)) (s : Cert K) : Cert K :=
  over (Cert.add (times discV s) 1 fun a b c => cyc3 (fun a b c => (a - b) ^ 2 * (a - c) ^ 2 * polyVal l a b c) a b c * cycp3 fA a b c) (polyVal multT)

/-- `_constrained_acute_dense_symmetric` and `_constrained_acute_lift_for_six` (acute.py 329-380).  The recursion goes to a polynomial of the same
degree and need not end; `fuel` bounds its depth and running out of it is reported as an error.  When `f(a,1,1)` is zero, the code divides the
polynomial `sym` (which is zero) instead of the given one (acute.py 349-354). -/
def acuteDense (X : AcuteExt K) : ℕ → Coeff K → Except PyErr (Option (Cert K))
  | 0, _ => .error (.custom "RecursionError")
  | fuel + 1, co =>
    if co.degree = 0 then .ok (some (.plain []))
    else if co.degree = 2 then .ok (acuteQuadratic (co.call [2, 0, 0]) (co.call [1, 1, 0]))
    else if co.degree = 3 then acuteCubic X (Cubic.ofCoeff co)
    else if co.degree = 4 then acuteQuartic X (Quartic.ofCoeff co)
    else
      match acuteUncentered X co with
      | some C => .ok (some C)
      | none =>
        if symAxis co = [] then
          (acuteDense X fuel ⟨(X.div [] discT).1, 3⟩).map fun r => r.map (times discV)
        else
          match liftParts X co with
          | none => .ok none
          | some lp => (acuteDense X fuel ⟨lp.2, 3⟩).map fun r => r.map (liftAnswer lp.1)

/-- The choice of the solver by `constrained_acute` (acute.py 31-52) for a homogeneous polynomial in three variables. -/
def acuteSolve (X : AcuteExt K) (fuel : ℕ) (co : Coeff K) : Except PyErr (Option (Cert K)) :=
  if co.isCyclicDefault then
    match co.isSymmetricDefault with
    | .error e => .error e
    | .ok true => acuteDense X fuel co
    | .ok false =>
      if co.degree = 2 then .ok (acuteQuadratic (co.call [2, 0, 0]) (co.call [1, 1, 0]))
      else if co.degree = 3 then acuteCubic X (Cubic.ofCoeff co)
      else if co.degree = 4 then acuteQuartic X (Quartic.ofCoeff co)
      else .ok none
  else .ok none

end Verif.Acute
