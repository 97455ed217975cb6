import Verif.Model.UnivariateInterval

/-!
# Model of triples/core/structsos/pivoting/bivariate.py

`HalfspaceIntersection2D` and the solver for homogeneous polynomials in two variables.  A homogeneous polynomial of
degree `d` in `a, b` is an ascending coefficient list `p` in `a`: the coefficient of `a^i b^(d-i)` is `p[i]`.
Expressions are modelled by their values: an answer is a function of the point `(a, b)` and of the values of the
expressions attached to the constraints.
-/

namespace Verif.Bivariate
open Verif Verif.Univariate

section hs
variable {K : Type*} [CommRing K] [LinearOrder K] {E : Type*}

/-- bivariate.py 54-58 -/
def cross (n1 n2 : K × K) : K := n1.1 * n2.2 - n2.1 * n1.2
/-- bivariate.py 59-63 -/
def dot (n1 n2 : K × K) : K := n1.1 * n2.1 + n1.2 * n2.2

/-- bivariate.py 45-52.  The lists `normals` and `exprs`, always changed together, are one list of pairs. -/
structure HS (K E : Type*) where
  bounds : List ((K × K) × E)
  degenerated : Bool

/-- `HalfspaceIntersection2D()` (bivariate.py 46-49) -/
def HS.empty : HS K E := ⟨[], false⟩

/-- `HalfspaceIntersection2D.add` (bivariate.py 68-111).  With three or more stored normals the unpacking in line 95
raises; such a state is never reached (`add_length`), and the model leaves it unchanged. -/
def HS.add (h : HS K E) (n : K × K) (e : E) : HS K E :=
  if h.degenerated then h
  else match h.bounds with
  | [] => { h with bounds := [(n, e)] }
  | [b0] =>
    let c1 := cross b0.1 n
    if c1 < 0 then { h with bounds := [(n, e), b0] }
    else if c1 > 0 ∨ (c1 = 0 ∧ dot b0.1 n < 0) then { h with bounds := [b0, (n, e)] }
    else h
  | [b1, b2] =>
    let c1 := cross b1.1 n
    let c2 := cross b2.1 n
    if c1 = 0 then
      if dot b1.1 n < 0 then { h with bounds := [b1, (n, e)] } else h
    else if c2 = 0 then
      if dot b2.1 n < 0 then { h with bounds := [(n, e), b2] } else h
    else if c1 > 0 ∧ c2 < 0 then h
    else if c1 > 0 ∧ c2 > 0 then { h with bounds := [b1, (n, e)] }
    else if c1 < 0 ∧ c2 > 0 then { h with degenerated := true }
    else { h with bounds := [(n, e), b2] }
  | _ => h

/-- A history of calls of `add` on a fresh object. -/
def HS.build (l : List ((K × K) × E)) : HS K E := l.foldl (fun h x => h.add x.1 x.2) HS.empty

end hs

section solver
variable {K : Type*} [Field K] [LinearOrder K] {E : Type*}

/-- Value of a homogeneous polynomial of degree `d` at `(a, b)`. -/
def hev (d : ℕ) (p : UPoly K) (a b : K) : K :=
  ((List.range (d + 1)).map fun i => p.getD i 0 * a ^ i * b ^ (d - i)).sum

/-- `poly.subs({a: A(y), b: B(y)}).as_poly(y)` for `A`, `B` polynomials in `y` (bivariate.py 163, 182). -/
def substPoly (d : ℕ) (p A B : UPoly K) : UPoly K :=
  (List.range (d + 1)).foldr (fun i acc => padd (psmul (p.getD i 0) (pmul (ppow A i) (ppow B (d - i)))) acc) []

/-- `map_poly` inside `_hom_sos` (bivariate.py 134-140), as a value: homogenise, square and multiply by a power of the
denominator.  The exponent is an integer.  `range(d2+1)` raises for the zero polynomial, whose degree is `-oo`. -/
def mapPoly (d : ℕ) (p : UPoly K) (num den : K) : Except PyErr K :=
  match pdeg p with
  | none => .error .typeError
  | some d2 => .ok (hev d2 p num den ^ 2 * den ^ ((((d / 2 : ℕ) : ℤ) - d2) * 2))

/-- `_hom_sos` (bivariate.py 131-142) as a value. -/
def homSos (d : ℕ) (L : Sos K) (num den : K) : Except PyErr K :=
  match L with
  | [] => .ok 0
  | cp :: L => match mapPoly d cp.2 num den with
    | .error e => .error e
    | .ok v => match homSos d L num den with
      | .error e => .error e
      | .ok w => .ok (cp.1 * v + w)

/-- The value of an answer at a point, given the values of the constraint expressions. -/
abbrev Sol (K E : Type*) := K → K → (E → K) → Except PyErr K

/-- bivariate.py 119-125: the linear constraints, in order; `none` is a constraint which is not linear. -/
def linearBounds (cons : List (Option (K × K) × E)) : List ((K × K) × E) :=
  cons.filterMap fun c => c.1.map fun n => (n, c.2)

/-- `_sos_struct_bivariate_linear_ineq` (bivariate.py 117-205).  `prover` is `prove_univariate`.  The expression built in
lines 147-154 has `b` in its denominator, so its value is meant for `b ≠ 0`. Division by zero in the substitution
(SymPy puts `zoo` there and the conversion to a polynomial fails) is an error. -/
def linearIneq (prover : UPoly K → Except PyErr (Option (Sos K × Sos K))) (d : ℕ) (p : UPoly K)
    (cons : List (Option (K × K) × E)) : Except PyErr (Option (Sol K E)) :=
  let hs := HS.build (linearBounds cons)
  if hs.degenerated then .ok none
  else match hs.bounds with
  | [] =>
    if d % 2 ≠ 0 then .ok none
    else match proveInterval prover p none none with
      | .error e => .error e
      | .ok none => .ok none
      | .ok (some R) => .ok (some fun a b _ => .ok (iVal R (a / b) * b ^ d))
  | [((u, v), e)] =>
    if u ^ 2 + v ^ 2 = 0 then .error (.custom "zoo")
    else
      let s := u ^ 2 + v ^ 2
      match proveInterval prover (substPoly d p [u / s, -v / s] [v / s, u / s]) none none with
      | .error e => .error e
      | .ok none => .ok none
      | .ok (some R) =>
        let L := (R.getD 0 ([], [])).2
        if d % 2 = 0 then .ok (some fun a b _ => homSos d L (u * b - v * a) (u * a + v * b))
        else .ok (some fun a b ev =>
          match homSos (d - 1) L (u * b - v * a) (u * a + v * b) with
          | .error er => .error er
          | .ok w => .ok (w * ev e))
  | [((u, v), e1), ((w, z), e2)] =>
    if v * w - u * z = 0 then .error (.custom "zoo")
    else
      let t := v * w - u * z
      match proveInterval prover (substPoly d p [-z / t, v / t] [-w / (-t), u / (-t)]) (some 0) none with
      | .error e => .error e
      | .ok none => .ok none
      | .ok (some R) =>
        let L1 := (R.getD 0 ([], [])).2
        let L2 := (R.getD 1 ([], [])).2
        let d1 := if d % 2 = 1 then d - 1 else d
        let d2 := if d % 2 = 1 then d - 1 else if d ≥ 2 then d - 2 else d
        .ok (some fun a b ev =>
          match homSos d1 L1 (w * a + z * b) (u * a + v * b) with
          | .error er => .error er
          | .ok p1 => match homSos d2 L2 (w * a + z * b) (u * a + v * b) with
            | .error er => .error er
            | .ok p2 =>
              if d % 2 = 1 then .ok (ev e1 * p1 + ev e2 * p2)
              else if d ≥ 2 then .ok (p1 + ev e2 * ev e1 * p2)
              else .ok (p1 + ev e2 / ev e1 * p2))
  | _ => .error .valueError

/-- A factor of `poly.factor_list()`: degree, coefficients and multiplicity. -/
abbrev Factor (K : Type*) := ℕ × UPoly K × ℕ

/-- `factor.as_expr() ** multiplicity` (bivariate.py 20) -/
def evenSol (d : ℕ) (p : UPoly K) (m : ℕ) : Sol K E := fun a b _ => .ok (hev d p a b ^ m)

/-- `sol ** multiplicity` (bivariate.py 28) -/
def powSol (s : Sol K E) (m : ℕ) : Sol K E := fun a b ev => match s a b ev with
  | .error e => .error e
  | .ok v => .ok (v ^ m)

/-- The loop of `structural_sos_2vars` (bivariate.py 18-28); the state is the sign and the value of the product so far. -/
def facLoop (prover : UPoly K → Except PyErr (Option (Sos K × Sos K))) (cons : List (Option (K × K) × E)) :
    List (Factor K) → K → List (Sol K E) → Except PyErr (Option (K × List (Sol K E)))
  | [], sgn, sols => .ok (some (sgn, sols))
  | (d, p, m) :: fs, sgn, sols =>
    if m % 2 = 0 then facLoop prover cons fs sgn (sols ++ [evenSol d p m])
    else match linearIneq prover d p cons with
      | .error e => .error e
      | .ok (some s) => facLoop prover cons fs sgn (sols ++ [powSol s m])
      | .ok none => match linearIneq prover d (psmul (-1) p) cons with
        | .error e => .error e
        | .ok none => .ok none
        | .ok (some s) => facLoop prover cons fs (-sgn) (sols ++ [powSol s m])

/-- product of values -/
def prodSols (a b : K) (ev : E → K) : List (Sol K E) → Except PyErr K
  | [] => .ok 1
  | s :: l => match s a b ev with
    | .error e => .error e
    | .ok v => match prodSols a b ev l with
      | .error e => .error e
      | .ok w => .ok (v * w)

/-- `structural_sos_2vars` (bivariate.py 6-33) after `poly.factor_list() = (sgn, factors)`. -/
def struct2 (prover : UPoly K → Except PyErr (Option (Sos K × Sos K))) (sgn : K) (factors : List (Factor K))
    (cons : List (Option (K × K) × E)) : Except PyErr (Option (Sol K E)) :=
  match facLoop prover cons factors sgn [] with
  | .error e => .error e
  | .ok none => .ok none
  | .ok (some (sgn', sols)) =>
    if sgn' < 0 then .ok none
    else .ok (some fun a b ev => match prodSols a b ev sols with
      | .error e => .error e
      | .ok v => .ok (sgn' * v))

end solver
end Verif.Bivariate
