import Verif.Model.TernaryQuartic
import Mathlib.Algebra.Order.Field.Basic

/-!
# Ternary quadratic and cubic solvers and the table of common expressions

Model of `CommonExpr` (triples/core/structsos/ternary/utils.py 146-224), of `triples/core/structsos/ternary/quadratic.py` and of
`triples/core/structsos/ternary/cubic.py`.  Conventions as in `Verif.Model.TernaryQuartic`: a solution is a list of weighted values over a denominator,
`radsimp` is the identity, and numbers found by root searches are parameters that the code validates itself.
-/

namespace Verif.Ternary

open Verif

variable {K : Type*} [Field K] [LinearOrder K]

/-- `w * solution`. -/
def Cert.smul (w : K) (C : Cert K) : Cert K := ⟨C.terms.map fun t => (w * t.1, t.2), C.den⟩

/-- `solution1 + solution2` over the product of the denominators. -/
def Cert.plus (C D : Cert K) : Cert K :=
  ⟨(C.terms.map fun t => (t.1, fun a b c => t.2 a b c * D.den a b c)) ++ D.terms.map fun t => (t.1, fun a b c => t.2 a b c * C.den a b c),
    fun a b c => C.den a b c * D.den a b c⟩

/-- `CyclicSum(a)`. -/
def sumA : Val3 K := cyc3 fun a _ _ => a

/-- `CyclicProduct(a)`. -/
def prodA : Val3 K := cycp3 fun a _ _ => a

/-! ### `CommonExpr` -/

/-- `CommonExpr.schur(n)` (ternary/utils.py 152-164).  The integer `n` may be negative in Python; those calls return `None` like `0` and `1`. -/
def schur : ℕ → Option (Cert K)
  | 2 => some (.plain [(1 / 2, cyc3 fun a b _ => (a - b) ^ 2)])
  | 3 => some ⟨[(1, cyc3 fun a b c => (a - b) ^ 2 * (a + b - c) ^ 2), (2, cyc3 fun a b _ => a * b * (a - b) ^ 2)], fun a b c => 2 * sumA a b c⟩
  | 5 => some ⟨[(2, cyc3 fun a b c => a ^ 3 * (a - b) ^ 2 * (a - c) ^ 2), (2, fun a b c => sumA a b c * cycp3 (fun a b _ => (a - b) ^ 2) a b c)],
      cyc3 fun a b _ => (a - b) ^ 2⟩
  | _ => none

/-- `CommonExpr.schurinv(n)` (ternary/utils.py 167-178). -/
def schurinv : ℕ → Option (Cert K)
  | 2 => some (.plain [(1, cyc3 fun a b _ => (a - b) ^ 2)])
  | 4 => some (.plain [(1, cyc3 fun a b c => a ^ 2 * (b - c) ^ 2 / 2)])
  | 6 => some ⟨[(2, cyc3 fun a b c => c * (a - b) ^ 2 * (a * c + b * c - a * b) ^ 2), (1, fun a b c => prodA a b c * cyc3 (fun a b c => a ^ 2 * (b - c) ^ 2) a b c)],
      fun a b c => 2 * sumA a b c⟩
  | _ => none

/-- `CommonExpr.quadratic(x, y)` (ternary/utils.py 181-195). -/
def quadratic (x y : K) : Option (Cert K) :=
  if x < 0 ∨ x + y < 0 then none
  else if x = 0 then some (.plain [(y, cyc3 fun a b _ => a * b)])
  else if 2 * x < y then some (.plain [(1, cyc3 fun a b c => x * a ^ 2 + y * (b * c))])
  else
    let w1 := (2 * x - y) / 3
    let w2 := x - w1
    some (.plain [(w1 / 2, cyc3 fun a b _ => (a - b) ^ 2), (w2, fun a b c => sumA a b c ^ 2)])

/-- `CommonExpr._SPECIAL_AMGMS` (ternary/utils.py 199-219). -/
def specialAmgms : List (((ℕ × ℕ × ℕ) × (ℕ × ℕ × ℕ)) × Cert K) := [
  (((2,0,1),(1,1,1)), ⟨[(1, cyc3 fun a b c => c * (2 * a + c) * (a - b) ^ 2)], fun a b c => 2 * sumA a b c⟩),
  (((2,1,0),(1,1,1)), ⟨[(1, cyc3 fun a b c => b * (2 * a + b) * (a - c) ^ 2)], fun a b c => 2 * sumA a b c⟩),
  (((6,0,0),(4,1,1)), .plain [(1 / 4, fun a b c => cyc3 (fun a _ _ => a ^ 2) a b c * cyc3 (fun a b _ => (a ^ 2 - b ^ 2) ^ 2) a b c),
    (1 / 2, cyc3 fun a b c => a ^ 2 * (a ^ 2 - b * c) ^ 2)]),
  (((6,0,0),(4,2,0)), .plain [(1 / 3, cyc3 fun a b _ => (a ^ 2 - b ^ 2) ^ 2 * (2 * a ^ 2 + b ^ 2))]),
  (((6,0,0),(4,0,2)), .plain [(1 / 3, cyc3 fun a _ c => (a ^ 2 - c ^ 2) ^ 2 * (2 * a ^ 2 + c ^ 2))]),
  (((6,0,0),(5,1,0)), .plain [(1 / 6, cyc3 fun a b _ => (a ^ 2 - b ^ 2) ^ 2 * (2 * a ^ 2 + b ^ 2)), (1 / 2, cyc3 fun a b _ => a ^ 4 * (a - b) ^ 2)]),
  (((6,0,0),(5,0,1)), .plain [(1 / 6, cyc3 fun a _ c => (a ^ 2 - c ^ 2) ^ 2 * (2 * a ^ 2 + c ^ 2)), (1 / 2, cyc3 fun a _ c => a ^ 4 * (a - c) ^ 2)]),
  (((6,0,0),(3,2,1)), .plain [(1 / 6, cyc3 fun a b _ => (a ^ 2 - b ^ 2) ^ 2 * (2 * a ^ 2 + b ^ 2)), (1 / 2, cyc3 fun a b c => (a ^ 3 - b ^ 2 * c) ^ 2)]),
  (((6,0,0),(3,1,2)), .plain [(1 / 6, cyc3 fun a _ c => (a ^ 2 - c ^ 2) ^ 2 * (2 * a ^ 2 + c ^ 2)), (1 / 2, cyc3 fun a b c => (a ^ 3 - b * c ^ 2) ^ 2)]),
  (((8,0,0),(7,1,0)), .plain [(1 / 8, cyc3 fun a b _ => (a ^ 4 - b ^ 4) ^ 2), (1 / 4, cyc3 fun a b _ => a ^ 4 * (a ^ 2 - b ^ 2) ^ 2),
    (1 / 2, cyc3 fun a b _ => a ^ 6 * (a - b) ^ 2)]),
  (((8,0,0),(7,0,1)), .plain [(1 / 8, cyc3 fun a b _ => (a ^ 4 - b ^ 4) ^ 2), (1 / 4, cyc3 fun a _ c => a ^ 4 * (a ^ 2 - c ^ 2) ^ 2),
    (1 / 2, cyc3 fun a _ c => a ^ 6 * (a - c) ^ 2)]),
  (((8,0,0),(5,0,3)), .plain [(1 / 8, cyc3 fun a b _ => (a ^ 4 - b ^ 4) ^ 2), (1 / 4, cyc3 fun a b _ => a ^ 4 * (a ^ 2 - b ^ 2) ^ 2),
    (1 / 2, cyc3 fun a b _ => b ^ 2 * (a ^ 3 - b ^ 3) ^ 2)]),
  (((8,0,0),(5,3,0)), .plain [(1 / 8, cyc3 fun a b _ => (a ^ 4 - b ^ 4) ^ 2), (1 / 4, cyc3 fun a _ c => a ^ 4 * (a ^ 2 - c ^ 2) ^ 2),
    (1 / 2, cyc3 fun a _ c => c ^ 2 * (a ^ 3 - c ^ 3) ^ 2)]),
  (((8,0,0),(6,1,1)), .plain [(1 / 2, cyc3 fun a b c => (a ^ 4 - a ^ 2 * b * c) ^ 2), (1 / 4, cyc3 fun a b _ => (a ^ 4 - b ^ 4) ^ 2),
    (1 / 4, cyc3 fun a b c => a ^ 4 * (b ^ 2 - c ^ 2) ^ 2)]),
  (((8,0,0),(5,2,1)), .plain [(1 / 4, cyc3 fun a b _ => (a ^ 4 - b ^ 4) ^ 2), (1 / 4, cyc3 fun a b c => a ^ 4 * (b ^ 2 - c ^ 2) ^ 2),
    (1 / 2, cyc3 fun a b c => a ^ 2 * (a ^ 3 - b ^ 2 * c) ^ 2)]),
  (((8,0,0),(5,1,2)), .plain [(1 / 4, cyc3 fun a b _ => (a ^ 4 - b ^ 4) ^ 2), (1 / 4, cyc3 fun a b c => a ^ 4 * (b ^ 2 - c ^ 2) ^ 2),
    (1 / 2, cyc3 fun a b c => a ^ 2 * (a ^ 3 - b * c ^ 2) ^ 2)]),
  (((8,0,0),(4,3,1)), .plain [(1 / 8, cyc3 fun a b _ => (a ^ 4 - b ^ 4) ^ 2), (1 / 4, cyc3 fun a b _ => a ^ 4 * (a ^ 2 - b ^ 2) ^ 2),
    (1 / 2, cyc3 fun a b c => (a ^ 4 - b ^ 3 * c) ^ 2)]),
  (((8,0,0),(4,1,3)), .plain [(1 / 8, cyc3 fun a b _ => (a ^ 4 - b ^ 4) ^ 2), (1 / 4, cyc3 fun a _ c => a ^ 4 * (a ^ 2 - c ^ 2) ^ 2),
    (1 / 2, cyc3 fun a b c => (a ^ 4 - b * c ^ 3) ^ 2)]),
  (((8,0,0),(3,3,2)), .plain [(1 / 2, cyc3 fun a b _ => (a ^ 4 - b ^ 4) ^ 2), (1 / 2, cyc3 fun a b c => a ^ 4 * (b ^ 2 - c ^ 2) ^ 2),
    (1 / 2, fun a b c => cycp3 (fun a _ _ => a ^ 2) a b c * cyc3 (fun a b _ => (a - b) ^ 2) a b c)])]

/-- `x >= y` for triples, compared from the left. -/
def tripleGe (x y : ℕ × ℕ × ℕ) : Bool :=
  decide (y.1 < x.1) || (decide (y.1 = x.1) && (decide (y.2.1 < x.2.1) || (decide (y.2.1 = x.2.1) && decide (y.2.2 ≤ x.2.2))))

/-- `max((d, (d[1],d[2],d[0]), (d[2],d[0],d[1])))` (ternary/utils.py 223; also `CoeffMonom.std`, sparse.py 101-103). -/
def std3 (d : ℕ × ℕ × ℕ) : ℕ × ℕ × ℕ :=
  let d1 := (d.2.1, d.2.2, d.1)
  let d2 := (d.2.2, d.1, d.2.1)
  let m := if tripleGe d d1 then d else d1
  if tripleGe m d2 then m else d2

/-- `CommonExpr.amgm(d1, d2)` (ternary/utils.py 221-224). -/
def amgm (d1 d2 : ℕ × ℕ × ℕ) : Option (Cert K) := ((specialAmgms (K := K)).find? fun kv => decide (kv.1 = (std3 d1, std3 d2))).map fun kv => kv.2

/-! ### Cyclic cubics -/

/-- The coefficients of `a^3, a^2 b, a b^2, abc` of a cyclic cubic. -/
structure Cubic (K : Type*) where
  m : K
  p : K
  q : K
  r : K

/-- The numbers read by the cubic solvers (cubic.py 16-17, 71). -/
def Cubic.ofCoeff (c : Coeff K) : Cubic K := ⟨c.call [3, 0, 0], c.call [2, 1, 0], c.call [1, 2, 0], c.call [1, 1, 1]⟩

/-- `_sos_struct_cubic_symmetric` (cubic.py 31-64).  `sum_y_exprs` with a missing table entry would raise `TypeError`. -/
def cubicSymmetric (f : Cubic K) : Except PyErr (Option (Cert K)) :=
  let rem := 3 * (f.m + f.p * 2) + f.r
  if 0 ≤ f.m / 4 ∧ 0 ≤ f.p + 3 * f.m / 4 ∧ 0 ≤ rem then
    .ok (some (.plain [(f.m / 4, cyc3 fun a b c => a * (b + c - 2 * a) ^ 2), (f.p + 3 * f.m / 4, cyc3 fun a b c => a * (b - c) ^ 2), (rem, prodA)]))
  else if 0 ≤ f.m ∧ 0 ≤ f.m + f.p ∧ 0 ≤ rem then
    match schur 3 with
    | some C => .ok (some (((C.smul f.m).add (f.m + f.p) (cyc3 fun a b c => a * (b - c) ^ 2)).add rem prodA))
    | none => .error .typeError
  else .ok none

/-- `_sos_struct_cubic_degenerate` (cubic.py 67-80). -/
def cubicDegenerate (f : Cubic K) : Except PyErr (Option (Cert K)) :=
  let rem := 3 * (f.p + f.q) + f.r
  if f.p < 0 ∨ f.q < 0 ∨ rem < 0 then .ok none
  else if f.p = f.q then .ok (some (.plain [(f.p, cyc3 fun a b c => a * (b - c) ^ 2), (rem, prodA)]))
  else
    match amgm (2, 1, 0) (1, 1, 1), amgm (2, 0, 1) (1, 1, 1) with
    | some C, some D => .ok (some (((C.smul f.p).plus (D.smul f.q)).add rem prodA))
    | _, _ => .error .typeError

/-- `_sos_struct_cubic_parabola` (cubic.py 83-128). -/
def cubicParabola (f : Cubic K) : Option (Cert K) :=
  let rem := 3 * (f.p + f.q + f.m) + f.r
  if f.m < 0 ∨ rem < 0 then none
  else
    let p := f.p / f.m
    let q := f.q / f.m
    if p = q + 3 then
      if 1 ≤ p then
        some (.plain [(f.m, cyc3 fun a _ c => a * (a - c) ^ 2), (f.m * (p - 1), cyc3 fun a b c => a * (b - c) ^ 2), (rem, prodA)])
      else none
    else if p + 2 * q = -3 then
      if p = 1 then some (.plain [(f.m, cyc3 fun a _ c => a * (a - c) ^ 2), (rem, prodA)]) else none
    else if p = 1 then
      if -2 ≤ q ∧ q ≤ 22 then
        let w1 := (q - 22) / (-24) * f.m
        let w2 := f.m - w1
        some (.plain [(w1, cyc3 fun a _ c => a * (a - c) ^ 2), (w2, cyc3 fun a b c => a * (a - 4 * b + 3 * c) ^ 2), (rem, prodA)])
      else none
    else
      let x2 := (13 * p ^ 2 + 22 * p * q + 18 * p + q ^ 2 - 18 * q - 27) / (p - q - 3) ^ 2
      let w1 := (p - x2) / (1 - x2) * f.m
      let w2 := f.m - w1
      if 0 ≤ w1 ∧ w1 ≤ f.m then
        let t := 2 * (p + 2 * q + 3) / (p - q - 3)
        some (.plain [(w1, cyc3 fun a _ c => a * (a - c) ^ 2), (w2, cyc3 fun a b c => a * (a + t * b - (t + 1) * c) ^ 2), (rem, prodA)])
      else none

/-- `_compute_params(u)` (cubic.py 165-168) for the monic cubic: `t, p_, n_, q_`. -/
def cubicParams (p q u : K) : K × K × K × K :=
  let p2 := p + 1
  let n2 := p + q
  let q2 := q + 1
  let t := ((2 * q2 + p2) * u ^ 2 + 6 * u + 2 * p2 + q2) / 2 / (u ^ 4 + u ^ 2 + 1)
  (t, p2 - t, n2 + 2 * t * u, q2 - t * u ^ 2)

/-- `_check_valid(u)` (cubic.py 169-175). -/
def cubicValid (p q u : K) : Bool :=
  if u < 0 then false
  else
    let (_, p', n', q') := cubicParams p q u
    decide (p' ^ 2 + p' * q' + q' ^ 2 ≤ 3 * (1 + n'))

/-- `_sos_struct_cubic_nontrivial` (cubic.py 131-196).  `us` are the numbers tried by `rationalize_func` (177), which returns the first that passes
`_check_valid`, or `None`; `None ** 2` raises `TypeError`. -/
def cubicNontrivial (us : List K) (f : Cubic K) : Except PyErr (Option (Cert K)) :=
  if f.m ≤ 0 then .ok none
  else
    let p := f.p / f.m
    let q := f.q / f.m
    let z := f.r / f.m
    if (0 ≤ p ∧ 0 ≤ q) ∨ p ^ 2 * q ^ 2 + 18 * p * q - 4 * p ^ 3 - 4 * q ^ 3 - 27 ≤ 0 then
      match us.find? (cubicValid p q) with
      | none => .error .typeError
      | some u =>
        let (t, p', n', q') := cubicParams p q u
        let y3 := (3 * (1 + p + q) + z) * f.m
        if y3 < 0 then .ok none
        else .ok (some ⟨[(f.m / 2, cyc3 fun a b c => (a ^ 2 - b ^ 2 + (p' + 2 * q') / 3 * a * c - (2 * p' + q') / 3 * b * c + (p' - q') / 3 * a * b) ^ 2),
          (-(p' ^ 2 + p' * q' + q' ^ 2 - 3 * (1 + n')) / 6 * f.m, cyc3 fun a b c => a ^ 2 * (b - c) ^ 2),
          (t * f.m, cyc3 fun a b c => a * b * (a - c - u * (b - c)) ^ 2),
          (y3, cyc3 fun a b c => a ^ 2 * b * c)], sumA⟩)
    else .ok none

/-- `_sos_struct_cubic_nontrivial_irrational` (cubic.py 203-264).  Division by zero yields `zoo` in SymPy and `0` here; the theorems show that the
divisors are not zero. -/
def cubicIrrational (f : Cubic K) : Option (Cert K) :=
  let rem := 3 * (f.m + f.p + f.q) + f.r
  if f.m < 0 ∨ rem < 0 then none
  else if 0 ≤ f.p ∧ 0 ≤ f.q then
    some (.plain [(f.m / 2, fun a b c => sumA a b c * cyc3 (fun _ b c => (b - c) ^ 2) a b c), (f.p, cyc3 fun a b c => a ^ 2 * b - prodA a b c),
      (f.q, cyc3 fun a b c => a ^ 2 * c - prodA a b c), (rem, prodA)])
  else
    let p := f.p / f.m
    let q := f.q / f.m
    let det := -16 * (p ^ 2 * q ^ 2 + 18 * p * q - 4 * p ^ 3 - 4 * q ^ 3 - 27)
    if det < 0 then none
    else
      let u := (2 * p ^ 2 - 6 * q) / (9 - p * q)
      let v := (2 * q ^ 2 - 6 * p) / (9 - p * q)
      let t := (9 - p * q) ^ 2 / (p + q + 3) / (3 * (p - q) ^ 2 + (6 - p - q) ^ 2)
      some ⟨[((p + q + 3) * f.m / 2, fun a b c => prodA a b c * cyc3 (fun a b _ => (a - b) ^ 2) a b c),
        (t * f.m, cyc3 fun a b c => c * (a ^ 2 - b ^ 2 + u * (a * b - a * c) + v * (b * c - a * b)) ^ 2),
        ((1 - t) * f.m, cyc3 fun a b c => c * (a - b) ^ 4),
        (rem, cyc3 fun a b c => a ^ 2 * b ^ 2 * c)], cyc3 fun a b _ => a * b⟩

/-- `sos_struct_cubic` (cubic.py 10-28); `rational` is `coeff.is_rational`. -/
def cubicSolve (rational : Bool) (us : List K) (f : Cubic K) : Except PyErr (Option (Cert K)) :=
  if f.p = f.q then cubicSymmetric f
  else if f.m = 0 then cubicDegenerate f
  else if rational = false then .ok (cubicIrrational f)
  else
    match cubicParabola f with
    | some C => .ok (some C)
    | none => cubicNontrivial us f

end Verif.Ternary
