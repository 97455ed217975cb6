import Verif.Model.Sparse
import Verif.Model.CycVal
import Verif.Model.StructUtils

/-!
# Model of `triples/core/structsos/quarternary/cubic.py` and `quartic.py`

A solver returns the value of its expression as a function of the point.  `radsimp` does not change values.
-/

namespace Verif.Quaternary
open Verif

variable {K : Type*} [Field K] [LinearOrder K]

/-- The value of an expression in `a, b, c, d`. -/
abbrev Val4 (K : Type*) := K → K → K → K → K

/-! ## cubic.py -/

/-- The common numerator part `x * SymSum(a*(b-c)**2*(b+c-a)**2) + 4*x * a*b*c*d * SymSum(a)`
(cubic.py 19, 26). -/
def cubicF1 (x : K) : Val4 K := fun a b c d =>
  x * sym4 (fun a b c _ => a * (b - c) ^ 2 * (b + c - a) ^ 2) a b c d +
    4 * x * (a * b * c * d) * sym4 (fun a _ _ _ => a) a b c d

/-- `quarternary_cubic_symmetric` (cubic.py 8-29). -/
def cubicSymmetric (co : Coeff K) : Option (Val4 K) :=
  let c3000 := co.call [3,0,0,0]
  let c2100 := co.call [2,1,0,0]
  let c1110 := co.call [1,1,1,0]
  let x := c3000
  let y := c2100 / 2 + c1110 / 6
  let z := c3000 + c2100
  if 0 ≤ x ∧ 0 ≤ y ∧ 0 ≤ z then
    some fun a b c d =>
      cubicF1 x a b c d / sym4 (fun a b _ _ => a * b) a b c d +
      y * sym4 (fun a b c _ => a * b * c) a b c d +
      z / 4 * sym4 (fun a b c _ => a * (b - c) ^ 2) a b c d
  else
    let x := c1110 + 3 * c2100 + c3000
    let y := -c1110 - 3 * c2100
    let z := c1110 / 3 + 2 * c2100 + c3000
    if 0 ≤ x ∧ 0 ≤ y ∧ 0 ≤ z then
      some fun a b c d =>
        (cubicF1 x a b c d +
          (2 * y / 3 * sym4 (fun a b c _ => a * (b - c) ^ 2 * (b + c - a) ^ 2) a b c d +
           y / 3 * sym4 (fun a b c d => a * (b - c) ^ 2 * (b + c - d) ^ 2) a b c d +
           y * sym4 (fun a b c _ => a * b * c * (a - b) ^ 2) a b c d)) / sym4 (fun a b _ _ => a * b) a b c d +
        z / 4 * sym4 (fun a b c _ => a * (b - c) ^ 2) a b c d
    else none

/-- `get_sol1(v)` (cubic.py 87-95). -/
def getSol1 (v : K) : Val4 K := fun a b c d =>
  (4 * v * cyc3 (fun a b c => (b - c) ^ 2 * (b + c - a) ^ 2) a b c * d +
   3 * v ^ 2 * cyc3 (fun a _ _ => a) a b c * cyc3 (fun a b _ => (a - b) ^ 2) a b c * d ^ 2 +
   2 * cyc3 (fun a _ _ => a) a b c * cyc3 (fun a b c => a * b * (2 * c - 3 * v * d) ^ 2) a b c +
   8 * v * cyc3 (fun a b _ => a * b * (a - b) ^ 2) a b c * d) / (8 * cyc3 (fun a _ _ => a) a b c ^ 2)

/-- `get_sol2(v)` (cubic.py 98-106). -/
def getSol2 (v : K) : Val4 K := fun a b c d =>
  (v * cyc3 (fun a b c => (b - c) ^ 2 * (b + c - a) ^ 2) a b c * d +
   4 * v ^ 3 * cyc3 (fun a b _ => (a - b) ^ 2) a b c * d ^ 3 +
   6 * v * cyc3 (fun a b c => a * b * (c - 2 * v * d) ^ 2) a b c * d +
   2 * v * cyc3 (fun a b _ => a * b * (a - b) ^ 2) a b c * d +
   2 * cycp3 (fun a _ _ => a) a b c * cyc3 (fun a _ _ => a - 2 * v * d) a b c ^ 2) /
    (2 * cyc3 (fun a _ _ => a) a b c ^ 2)

/-- `get_const(x)` (cubic.py 115-118); `none` is a non-finite value (division by zero). -/
def getConst (c100 c000 c2 x : K) : Option K :=
  if x = 0 then some (c000 - 4 * c2 ^ 3)
  else if x = c2 then some c000
  else if 3 * x ^ 2 - 4 * c100 = 0 then none
  else some (c000 - 4 * x * (3 * c2 * x - 4 * c100) ^ 3 / 3 / (3 * x ^ 2 - 4 * c100) ^ 2)

/-- `check_x(x)` for a finite number (cubic.py 120-125). -/
def checkX (c100 c000 c2 x : K) : Bool :=
  if x = 0 then decide (c100 = 0) && decide (0 ≤ (getConst c100 c000 c2 x).getD (-1))
  else if ¬ c100 ≤ 3 * x ^ 2 / 4 then false
  else
    match getConst c100 c000 c2 x with
    | none => false
    | some r => decide (0 ≤ r)

/-- The candidates produced inside `rationalize_func` (structsos/utils.py 133-160) for this call: exact rational
roots `(t, true)`, tested by `validation`, and perturbed values `(t, false)`, tested by
`poly(t) >= 0 and validation(t)`.  Perturbed values come from `rationalize_bound(root, direction=1)`
(utils/roots/rationalize.py 224-236), which yields only values above a root satisfying
`validation_initial`, i.e. `root >= 2*c2/3`. -/
def pickX (c100 c000 c2 : K) (cands : List (K × Bool)) : Option K :=
  (cands.find? fun t =>
    (t.2 || (decide (2 * c2 / 3 ≤ t.1) && decide (0 ≤ 9 * t.1 ^ 2 - 12 * c2 * t.1 + 4 * c100))) &&
    checkX c100 c000 c2 t.1).map (·.1)

/-- The choice of `x` (cubic.py 127-142).  The first loop tries `0` and `4*c100/3/c2` (not finite if
`c2 == 0`). -/
def chooseX (c100 c000 c2 : K) (cands : List (K × Bool)) : Option K :=
  if checkX c100 c000 c2 0 then some 0
  else if c2 ≠ 0 ∧ checkX c100 c000 c2 (4 * c100 / 3 / c2) then some (4 * c100 / 3 / c2)
  else
    let det := c000 ^ 2 + 6 * c000 * c100 * c2 - 4 * c000 * c2 ^ 3 + 4 * c100 ^ 3 - 3 * c100 ^ 2 * c2 ^ 2
    if det < 0 then none
    else if c2 ^ 2 - c100 < 0 then none
    else pickX c100 c000 c2 cands

/-- The result of `_quarternary_cubic_partial_symmetric`: the quadratic solver's result for `c111 == 0`, or an
expression. -/
inductive PartialSol (K : Type*) where
  | quad (n : ℕ) (U : ℕ → ℕ → K) (S : ℕ → K)
  | expr (f : Val4 K)

/-- `_quarternary_cubic_partial_symmetric` (cubic.py 39-157). -/
def cubicPartial (cands : List (K × Bool)) (co : Coeff K) : Except PyErr (Option (PartialSol K)) :=
  if co.call [3,0,0,0] ≠ 0 ∨ co.call [2,1,0,0] ≠ 0 then .ok none
  else
    let c111 := co.call [1,1,1,0]
    if c111 = 0 then
      match Sparse.sosQuadratic co with
      | .error e => .error e
      | .ok none => .ok none
      | .ok (some (U, S)) => .ok (some (.quad (co.nvars + 1) U S))
    else if c111 < 0 ∨ co.call [0,0,0,3] < 0 then .ok none
    else
      let c100 := co.call [1,0,0,2] / c111
      let c000 := co.call [0,0,0,3] / c111
      let c200 := co.call [2,0,0,1] / c111
      let c110 := co.call [1,1,0,1] / c111
      let c1 := 2 * c200 + c110
      let c2 := -c200 - c110
      if c1 < 0 ∨ c2 < 0 then .ok none
      else
        match chooseX c100 c000 c2 cands with
        | none => .ok none
        | some x =>
          match getConst c100 c000 c2 x with
          | none => .ok none
          | some res =>
            if res < 0 then .ok none
            else
              let t1 := if x ≠ 0 then c100 / (3 * x ^ 2 / 4) else 0
              let t2 := 1 - t1
              if t1 < 0 ∨ t2 < 0 then .ok none
              else
                let y := if t2 ≠ 0 then (c2 - x * t1) / t2 else 0
                .ok (some (.expr fun a b c d =>
                  c111 * t1 * getSol1 x a b c d + c111 * t2 * getSol2 y a b c d + c111 * res * d ^ 3 +
                    c111 * c1 / 2 * cyc3 (fun a b _ => (a - b) ^ 2) a b c * d))

/-! ## quartic.py -/

/-- The mapped square of both quartic solvers (quartic.py 42-43, 134-135). -/
def fluoriteSq (a b c d x y : K) : K :=
  cyc4 (fun a b c d => (x*a*b - x*b*c - x*a*d + x*c*d - y*a*c + y*b*d) ^ 2) a b c d / 4

/-- The value of the square at a point, through `quadratic_weighting(w1, w2, w3, mapping=...)`. -/
def fluoriteExpr (w1 w2 w3 : K) : Option (Val4 K) :=
  if (quadraticWeighting w1 w2 w3).isNone then none
  else some fun a b c d => (quadraticWeightingSum w1 w2 w3 (fluoriteSq a b c d)).getD 0

/-- `coeff.poly111()` (coeff.py 135-138): the value at `(1,...,1)`. -/
def poly111 (co : Coeff K) : K := (co.coeffs.map (·.2)).sum

/-- `_quarternary_quartic_fluroite` (quartic.py 12-58). -/
def quarticFluorite (co : Coeff K) : Option (Val4 K) :=
  if co.call [4,0,0,0] ≠ 0 ∨ co.call [3,1,0,0] ≠ 0 ∨ co.call [3,0,1,0] ≠ 0 ∨ co.call [3,0,0,1] ≠ 0 then none
  else
    let c2200 := co.call [2,2,0,0]
    let c2110 := co.call [2,1,1,0]
    let c2101 := co.call [2,1,0,1]
    let c2020 := co.call [2,0,2,0]
    let c2011 := co.call [2,0,1,1]
    let cSum := (c2011 + c2110) / -8
    let cAbcd := poly111 co / 4
    let w1 := c2200 - cSum
    let w2 := c2011 + 4 * cSum
    let w3 := c2020 - 4 * cSum
    let w4 := c2101 - 2 * cSum
    let cSquare := w1 + w4 / 2
    let w1 := w1 - cSquare
    match fluoriteExpr w1 w2 w3 with
    | none => none
    | some expr =>
      if 0 ≤ cSum ∧ 0 ≤ cSquare ∧ 0 ≤ cAbcd then
        some fun a b c d => expr a b c d + cSum * cyc4 (fun a b c _ => a * b - a * c) a b c d ^ 2 +
          cSquare / 2 * cyc4 (fun a b c d => (a * b - c * d) ^ 2) a b c d +
          cAbcd * cyc4 (fun a b c d => a * b * c * d) a b c d
      else none

/-- The polynomials in `t` of `_quarternary_quartic_real` (quartic.py 85-106), evaluated at `t`. -/
structure QuarticParams (K : Type*) where
  cSq : K
  w1 : K
  w2 : K
  w3 : K
  z : K

/-- quartic.py 85-106. -/
def quarticParams (c3100 c3010 c3001 c2200 c2110 c2101 c2020 c2011 constZ t : K) : QuarticParams K :=
  let cSq0 := (c2011 + 2*c2101 + c2110 + 4*c2200 - c3001^2 + c3001 + 2*c3010 - c3100^2 + c3100) * t^4 +
    (4*c2011 + 8*c2101 + 4*c2110 + 16*c2200 - 6*c3001^2 + 4*c3001 + 8*c3010 - 6*c3100^2 + 4*c3100 + 16) * t^2 +
    (3*c2011 + 6*c2101 + 3*c2110 + 12*c2200 - 9*c3001^2 + 3*c3001 + 6*c3010 - 9*c3100^2 + 3*c3100 + 16)
  let cSq1 := (-4*c3001 + 4*c3100) * t^2 + (-12*c3001 + 12*c3100)
  let z := c3010 * constZ * t^2 + (3*c3010 - 8) * constZ
  let w20 := (c2011 - c2110 - c3001 + c3100) * t^2 + (3*c2011 - 3*c2110 - 3*c3001 + 3*c3100)
  let w21 := c3010 * t^2 + (3*c3010 - 8)
  { cSq := -8 * z^2 + cSq1 * z + cSq0
    w1 := (-c2011/4 - c2101 - c2110/4 - c3001/4 - c3010 - c3100/4) * t^2 +
      (-3*c2011/4 - 3*c2101 - 3*c2110/4 - 3*c3001/4 - 3*c3010 - 3*c3100/4) - z^2
    w2 := w21 * z + w20
    w3 := (-c3010^2/4) * t^4 + (c2011 + 2*c2020 + c2110 + c3001 - 3*c3010^2/2 + c3100 + 4) * t^2 +
      (3*c2011 + 6*c2020 + 3*c2110 + 3*c3001 - 9*c3010^2/4 + 3*c3100 - 4)
    z := z }

/-- `_get_sol(t)` (quartic.py 120-129). -/
def quarticSol (c3100 c3010 c3001 z t : K) : Val4 K := fun a b c d =>
  let w := c3010*t^2/4 + 3*c3010/4
  let x := (c3001*t^3 + 3*c3001*t + c3100*t^2 + 3*c3100 + t^2*z + 2*t*z - z)/(2*t^2 + 2)
  let y := (-c3001*t^2 - 3*c3001 + c3100*t^3 + 3*c3100*t + t^2*z - 2*t*z - z)/(2*t^2 + 2)
  cyc4 (fun a b c d => (2*a^2 + x*a*b + w*a*c + (-y)*a*d + (t-1)*b^2 + (y-z)*b*c + (-w)*b*d + (-x+z)*c*d +
    (-t-1)*d^2) ^ 2) a b c d

/-- `_quarternary_quartic_real` (quartic.py 60-147).  `ts` are the candidates of `intervals([w3_p, c_sq_p])`. -/
def quarticReal (ts : List K) (co : Coeff K) : Option (Val4 K) :=
  if co.call [4,0,0,0] = 0 ∧ co.call [3,1,0,0] = 0 ∧ co.call [3,0,1,0] = 0 ∧ co.call [3,0,0,1] = 0 then
    quarticFluorite co
  else
    let c4000 := co.call [4,0,0,0]
    let p1111 := poly111 co
    if c4000 ≤ 0 ∨ p1111 < 0 then none
    else
      let c3100 := co.call [3,1,0,0] / c4000
      let c3010 := co.call [3,0,1,0] / c4000
      let c3001 := co.call [3,0,0,1] / c4000
      let c2200 := co.call [2,2,0,0] / c4000
      let c2110 := co.call [2,1,1,0] / c4000
      let c2101 := co.call [2,1,0,1] / c4000
      let c2020 := co.call [2,0,2,0] / c4000
      let c2011 := co.call [2,0,1,1] / c4000
      let constDenom := c2011 + 2*c2020 + c2110 + c3001 - 4*c3010 + c3100 + 4
      let constSum := -(c2011 + c2110 + c3001 + c3100)/4
      if constDenom = 0 ∨ constSum < 0 then none
      else
        let constZ := -(c2011 - c2110 - c3001 + c3100)/(4*constDenom)
        let constDet := -2*(c2011^2 + c2011*c2020 + 2*c2011*c2101 + 2*c2011*c3100 + 2*c2011 + 4*c2020*c2101
          + c2020*c2110 + c2020*c3001 + 4*c2020*c3010 + c2020*c3100 + 2*c2101*c2110 + 2*c2101*c3001
          - 8*c2101*c3010 + 2*c2101*c3100 + 8*c2101 + c2110^2 + 2*c2110*c3001 + 2*c2110 + c3001^2 + 2*c3001
          - 8*c3010^2 + 8*c3010 + c3100^2 + 2*c3100)/constDenom
        if constDet < 0 then none
        else
          let pr := quarticParams c3100 c3010 c3001 c2200 c2110 c2101 c2020 c2011 constZ
          match ts.find? fun t => decide (0 ≤ (pr t).w3) && decide (0 ≤ (pr t).cSq) with
          | none => none
          | some t =>
            let cSum := (t^2 + 3) * constSum
            let cSquare := (pr t).cSq / (2*(t^2 + 1))
            match fluoriteExpr (pr t).w1 (pr t).w2 (pr t).w3 with
            | none => none
            | some expr =>
              if cSum < 0 ∨ cSquare < 0 then none
              else
                let mul := c4000 / (2*t^2 + 6)
                some fun a b c d =>
                  mul * quarticSol c3100 c3010 c3001 (pr t).z t a b c d + mul * expr a b c d +
                  mul * cSum * cyc4 (fun a b c _ => a * b - a * c) a b c d ^ 2 +
                  mul * cSquare/2 * cyc4 (fun a b c d => (a * b - c * d) ^ 2) a b c d +
                  p1111/4 * cyc4 (fun a b c d => a * b * c * d) a b c d

end Verif.Quaternary
