import Verif.Model.Univariate

/-!
# Model of `prove_univariate_interval` (triples/core/structsos/pivoting/univariate.py 701-826)

`prover` is `prove_univariate(·, return_raw=True)` (modelled as `Univariate.proveUnivariate` once the factorisation is
given); `none` as an endpoint is an infinite endpoint.
-/

namespace Verif.Univariate
open Verif

variable {K : Type*} [Field K] [LinearOrder K]

/-- Loop body of SymPy's `dup_transform`, which `Poly.transform` calls. -/
def transStep (p q : UPoly K) (hQ : UPoly K × UPoly K) (c : K) : UPoly K × UPoly K :=
  (padd (pmul hQ.1 p) (psmul c (pmul hQ.2 q)), pmul hQ.2 q)

/-- `f.transform(p, q) = q^n f(p/q)` with `n = deg f`; `f.shift(a)` is the case `p = x + a`, `q = 1` (SymPy uses a Taylor
shift with the same value). -/
def ptransform (f p q : UPoly K) : UPoly K :=
  match (pstrip f).reverse with
  | [] => []
  | c :: cs => (cs.foldl (transStep p q) ([c], [1])).1

/-- An entry `(multiplier, coeffs, polys)` of the transferred proof. -/
abbrev IEntry (K : Type*) := UPoly K × Sos K

/-- univariate.py 797-801: transform one square back; raises if the exponent of `b - x` is negative or the polynomial is
zero. -/
def backPoly (a b : K) (e : ℤ) (p : UPoly K) : Except PyErr (UPoly K) :=
  match pdeg p with
  | none => .error (.custom "infinite exponent")
  | some dp =>
    if e < (dp : ℤ) then .error .typeError
    else .ok (pmul (ptransform p [-a, 1] [b, -1]) (ppow [b, -1] (e - dp).toNat))

/-- univariate.py 797-803: all squares of one entry, with the weights divided by `(b-a)^n`. -/
def backSos (a b : K) (n : ℕ) (e : ℤ) : Sos K → Except PyErr (Sos K)
  | [] => .ok []
  | cp :: L => match backPoly a b e cp.2 with
    | .error er => .error er
    | .ok q => match backSos a b n e L with
      | .error er => .error er
      | .ok L' => .ok ((cp.1 / (b - a) ^ n, q) :: L')

/-- univariate.py 806-809: flip the sign of polynomials with negative leading coefficient. -/
def flipSos (L : Sos K) : Sos K := L.map fun cp => if plc cp.2 < 0 then (cp.1, psmul (-1) cp.2) else cp

/-- `prove_univariate_interval(poly, (a, b), return_raw=True)` (univariate.py 701-826). -/
def proveInterval (prover : UPoly K → Except PyErr (Option (Sos K × Sos K))) (f : UPoly K) (a b : Option K) :
    Except PyErr (Option (List (IEntry K))) :=
  match a, b with
  | none, none =>
    match prover f with
    | .error e => .error e
    | .ok none => .ok none
    | .ok (some p) => if p.2 ≠ [] then .ok none else .ok (some [([1], flipSos p.1), ([0, 1], flipSos p.2)])
  | some a, none =>
    match prover (ptransform f [a, 1] [1]) with
    | .error e => .error e
    | .ok none => .ok none
    | .ok (some p) =>
      let tr := fun L : Sos K => L.map fun cp => (cp.1, ptransform cp.2 [-a, 1] [1])
      .ok (some [([1], flipSos (tr p.1)), ([-a, 1], flipSos (tr p.2))])
  | none, some b =>
    match prover (ptransform f [b, -1] [1]) with
    | .error e => .error e
    | .ok none => .ok none
    | .ok (some p) =>
      let tr := fun L : Sos K => L.map fun cp => (cp.1, ptransform cp.2 [b, -1] [1])
      .ok (some [([1], flipSos (tr p.1)), ([b, -1], flipSos (tr p.2))])
  | some a, some b =>
    if b - a ≤ 0 then .error .valueError
    else match prover (ptransform f [a, b] [1, 1]) with
      | .error e => .error e
      | .ok none => .ok none
      | .ok (some p) =>
        match pdeg f with
        | none => .error (.custom "nan")          -- degree -oo: `d**n` and `n % 2` are not numbers
        | some n =>
          let m1 : UPoly K := if n % 2 = 0 then [1] else [b, -1]
          let e1 : ℤ := ((n : ℤ) - (if n % 2 = 0 then 0 else 1)) / 2
          let m2 : UPoly K := if n % 2 = 1 then [-a, 1] else pmul [-a, 1] [b, -1]
          let e2 : ℤ := ((n : ℤ) - (if n % 2 = 1 then 1 else 2)) / 2
          match backSos a b n e1 p.1 with
          | .error e => .error e
          | .ok L1 => match backSos a b n e2 p.2 with
            | .error e => .error e
            | .ok L2 => .ok (some [(m1, flipSos L1), (m2, flipSos L2)])

/-- value of a transferred proof -/
def iVal (R : List (IEntry K)) (x : K) : K := (R.map fun e => uev e.1 x * sosVal e.2 x).sum

end Verif.Univariate
