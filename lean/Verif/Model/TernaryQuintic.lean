import Verif.Model.QuinticSymmetric
import Verif.Model.OcticSymmetric
import Verif.Model.SexticSmall
import Verif.Model.TernarySeptic

/-!
# The solver for cyclic ternary quintics

Model of `triples/core/structsos/ternary/quintic.py`, except for the third method of `_sos_struct_quintic_full` (348-597), which is a parameter.  Conventions as in
`TernarySeptic`: `radsimp`, `expand`, `together` and `as_coeff_Mul` do not change a value, floats are numbers of the field, and what root searches and roundings return
is a parameter.  A division by zero gives `zoo` in SymPy; comparing it raises `TypeError`, and where it would only end up in the answer the model says `custom "zoo"`.
-/

namespace Verif.Ternary

open Verif Verif.Acute

variable {K : Type*} [Field K] [LinearOrder K]

/-- `coeff.poly111()/3` (coeff.py 182-186) of a cyclic polynomial. -/
def Quintic.sum7 (f : Quintic K) : K := f.c500 + f.c410 + f.c320 + f.c230 + f.c140 + f.c311 + f.c221

/-- `coeff.reflect()` (coeff.py 117-129). -/
def Quintic.reflect (f : Quintic K) : Quintic K := ⟨f.c500, f.c140, f.c230, f.c320, f.c410, f.c311, f.c221⟩

/-- `CyclicProduct(a) * CyclicSum((a-b)**2)`. -/
def abcSd : Val3 K := fun a b c => prodA a b c * sd3 a b c

/-- `a**2 - b**2 + u*(a*b-a*c) + v*(b*c-a*b)`, the form used all over the file. -/
def uvForm (u v : K) : Val3 K := fun a b c => a ^ 2 - b ^ 2 + u * (a * b - a * c) + v * (b * c - a * b)

/-- `CyclicSum(a**2 + w*b*c)`. -/
def mulW (w : K) : Val3 K := cyc3 fun a b c => a ^ 2 + w * b * c

/-! ### Hexagons with equal border coefficients -/

/-- `_solve_quintic_hexagon_pqz` (quintic.py 1556-1596).  For `p*q = 9` the numbers `u, v` are `zoo`, but then the weight `t` of their term is zero and
`sum_y_exprs` drops it. -/
def hexPqz (p q z mul : K) : Option (Cert K) :=
  if 0 ≤ hexDet p q z ∧ (p ≠ q ∨ z + 8 ≠ p + q) then
    let w := z + 8
    let denom := 1 / hexD p q z
    some (.plain (sumY [
      (denom * mul, cyc3 fun a b c => c * ((w ^ 2 - 4 * p * q) * (a ^ 2 - b ^ 2) + 4 * (2 * p ^ 2 - q * w) * (a * b - a * c) + 4 * (2 * q ^ 2 - p * w) * (b * c - a * b)) ^ 2),
      (hexDet p q z * denom * mul, cyc3 fun a b c => c * (a - b) ^ 4)]))
  else if -2 ≤ z then
    if 0 ≤ -16 * (p ^ 2 * q ^ 2 + 18 * p * q - 4 * p ^ 3 - 4 * q ^ 3 - 27) ∧ (p ≠ 3 ∨ q ≠ 3) then
      let u := (2 * p ^ 2 - 6 * q) / (9 - p * q)
      let v := (2 * q ^ 2 - 6 * p) / (9 - p * q)
      let t := (9 - p * q) ^ 2 / (p + q + 3) / (3 * (p - q) ^ 2 + (6 - p - q) ^ 2)
      some (.plain (sumY [
        ((z + 2) * mul / 2, abcSd),
        (t * mul, cyc3 fun a b c => c * uvForm u v a b c ^ 2),
        ((1 - t) * mul, cyc3 fun a b c => c * (a - b) ^ 4)]))
    else none
  else none

/-- The weights of the backup plan (quintic.py 1684-1689), before they are multiplied with `coeff410`. -/
def backupY (m p q z rem u : K) : List (K × Val3 K) :=
  let v := (u ^ 2 - p) / 2
  [(1, cyc3 fun a b c => c * uvForm u v a b c ^ 2),
   (q - (v ^ 2 - 2 * u), cyc3 fun a b c => a ^ 2 * b * (b - c) ^ 2),
   ((z + 2 * u * v) / 2, abcSd),
   (rem / m, tail5)]

/-- The case of equal coefficients of `a^4 b` and `a b^4` (quintic.py 1648-1703).  `us` is the `u_` found in 1661-1682; an exception swallowed in 1682 is not modelled. -/
def hexEq5 (rational : Bool) (us : K → K → K → Option K) (f : Quintic K) (rem : K) : Option (Cert K) :=
  let m := f.c410
  let p := f.c320 / m
  let q := f.c230 / m
  let z := f.c311 / m
  match hexPqz p q z m with
  | some C => some (C.add rem (cyc3 fun a b c => a ^ 2 * b ^ 2 * c))
  | none =>
    if rational then
      match us p q z with
      | some u =>
        if ∀ t ∈ backupY m p q z rem u, 0 ≤ t.1 then some (.plain (sumY ((backupY m p q z rem u).map fun t => (t.1 * m, t.2)))) else none
      | none => none
    else none

/-- The terms of the last case (quintic.py 1774-1791) for `x_, u_`. -/
def hexNe5Y (f : Quintic K) (rem x u : K) : List (K × Val3 K) :=
  let y := (f.c410 - f.c140) / 2
  let s := (f.c410 + f.c140) / 2
  let g := f.c320
  let h := f.c230
  let v := (u ^ 2 * x - g) / (2 * x + y)
  [(x, cyc3 fun a b c => c * ((1 - y / (2 * x)) * a ^ 2 - (1 + y / (2 * x)) * b ^ 2 + (y / x + u - v) * a * b + v * b * c - u * a * c) ^ 2),
   (s - x - y ^ 2 / 4 / x, cyc3 fun a b c => c * (a - b) ^ 4),
   (g - (u ^ 2 * x - 2 * v * x - v * y), cyc3 fun a b c => b * c ^ 2 * (a - b) ^ 2),
   (h - (v ^ 2 * x - 2 * u * x + u * y), cyc3 fun a b c => a * c ^ 2 * (a - b) ^ 2),
   ((f.c311 - (-2 * u * v * x - 2 * u * y + 2 * v * y - 8 * (s - x))) / 2, abcSd),
   (rem, tail5)]

/-- The last case (quintic.py 1706-1795); `xu` are the `x_, u_` found in 1711-1769. -/
def hexNe5 (xu : Quintic K → Option (K × K)) (f : Quintic K) (rem : K) : Except PyErr (Option (Cert K)) :=
  match xu f with
  | none => .ok none
  | some (x, u) =>
    if x = 0 ∨ 2 * x + (f.c410 - f.c140) / 2 = 0 then .error .typeError
    else if ∀ t ∈ hexNe5Y f rem x u, 0 ≤ t.1 then .ok (some (.plain (sumY (hexNe5Y f rem x u))))
    else .ok none

/-! ### What the solver gets from elsewhere -/

/-- Calls and numerical searches. -/
structure Q5Ext (K : Type*) where
  /-- `coeff.is_rational`. -/
  rational : Bool
  /-- The `u_` of the backup plan (1661-1682) for `p, q, z`. -/
  hexU : K → K → K → Option K
  /-- The `x_, u_` of the last case of hexagons (1711-1769). -/
  hexXU : Quintic K → Option (K × K)
  /-- The roots of `eq` and their approximations (1337-1353) for `r1`. -/
  uncU : K → List (Cand K)
  /-- The rational roots `u_, v_` (1397-1416) for `r1, r2`. -/
  uncUV : K → K → Option (K × K)
  /-- `z.as_numer_denom()[1]` (1447). -/
  m1 : K → K
  /-- `m2` (1448-1449). -/
  m2 : K → K → K
  /-- The square root of `x_`, or the first number of `rationalize_bound` that passes 860. -/
  sqrtU : K → K → K → Option K
  /-- The left ends of the intervals (932) for the polynomial. -/
  quadW : Quintic K → List K
  /-- The rational roots of `eq` (1008). -/
  mainU : Quintic K → List K
  /-- The roots of `eq` and their approximations (1017). -/
  mainC : Quintic K → List (Cand K)
  /-- The numbers `v__` tried (1025-1027) for `u_`. -/
  mainV : Quintic K → K → List K
  /-- The roundings of `z0, z1, z2` (1066-1067). -/
  specZ : Quintic K → List (K × K × K)
  /-- `sos_struct_cubic` (68). -/
  cubic : Cubic K → Except PyErr (Option (Cert K))
  /-- The root of the common factor of `eq1t, eq2t` when it is linear (79-82) for `x, y`. -/
  gcdT : K → K → Option K
  /-- The roots of `eq1t` and their approximations (87) for `x, y`. -/
  cubT : K → K → List (Cand K)
  /-- What the second method finds (232-321): nothing, the pairs `u, v` tried, or nothing with `y_ < x_**2`. -/
  uvxy : Quintic K → Option (Option (List (K × K)))
  /-- The third method (348-597). -/
  third : Quintic K → Except PyErr (Option (Cert K))
  /-- `sos_struct_quintic_symmetric` (41). -/
  symm : Quintic K → Except PyErr (Option (Cert K))

/-! ### Polynomials without `a^4 b`, `a^3 b^2` -/

/-- `_sos_struct_quintic_windmill_special` (quintic.py 1481-1553). -/
def specCands : List (K × K × K) :=
  [(3, 2, 1), (26 / 7, 2, 12 / 7), (26 / 7, 79 / 38, 5 / 3), (2163 / 580, 1736 / 835, 1647 / 979), (2520773882 / 675935511, 1053041451 / 506503334, 947713664 / 563334721)]

/-- `p_` (quintic.py 1518). -/
def specP (w x y z : K) : K := -w * z ^ 2 - w - x ^ 2 - 2 * y + 2 * z

/-- `q_` (quintic.py 1519). -/
def specQ (w x y z : K) : K := -w * z ^ 2 - w + 2 * x * z - y ^ 2 - 2 * y * z + 2 * y + 3 * z ^ 2 - 6 * z + 5

/-- `det_` (quintic.py 1520). -/
def specDet (w x y z : K) : K :=
  (-3 * w + 6 * x + 3 * z ^ 2 + 6) * (w * z ^ 2 - w + 2 * x * y + 2 * y * z + 2 * y + 4) - (specP w x y z ^ 2 + specP w x y z * specQ w x y z + specQ w x y z ^ 2)

/-- The answer for one candidate (quintic.py 1538-1550). -/
def specAnswer (t w x y z : K) : Cert K :=
  let m := -w + 2 * x + z ^ 2 + 2
  over (.plain (sumY [
    (1 * t, cyc3 fun a b c => c * (a ^ 3 - x * a ^ 2 * b + y * a * b ^ 2 - z * b * c ^ 2 + a ^ 2 * c + (x - y + z - 2) * a * b * c) ^ 2),
    (m / 2 * t, fun a b c => prodA a b c * cyc3 (fun a b c => uvForm (-(specP w x y z + specQ w x y z * 2) / 3 / m) (-(2 * specP w x y z + specQ w x y z) / 3 / m) a b c ^ 2) a b c),
    (specDet w x y z / 6 / m * t, fun a b c => prodA a b c * cyc3 (fun a b c => a ^ 2 * (b - c) ^ 2) a b c)])) (mulW (z ^ 2 + 2))

/-- `_sos_struct_quintic_windmill_special` (quintic.py 1506-1553); only called with `t > 0`. -/
def windSpecial (f : Quintic K) : Option (Cert K) :=
  let t := f.c140
  let w := -f.c311 / t
  if 3 < w ∧ 0 < w ^ 3 - 8 * w * w + 39 * w - 83 then none
  else if w ≤ 2 then
    some (.plain [(t, cyc3 fun a b c => a ^ 2 * c * (a - b) ^ 2), ((2 - w) * t / 2, abcSd)])
  else ((specCands (K := K)).find? fun p => decide (0 ≤ specDet w p.1 p.2.1 p.2.2)).map fun p => specAnswer t w p.1 p.2.1 p.2.2

/-- The first list of `_sos_struct_quintic_uncentered` (quintic.py 1292-1299). -/
def uncTrivial (f : Quintic K) (rem : K) : List (K × Val3 K) :=
  [(f.c230, cyc3 fun a b c => a ^ 2 * b * (b - c) ^ 2),
   (f.c140, cyc3 fun a b c => a * b ^ 2 * (b - c) ^ 2),
   (f.c311 / 2 + f.c140, abcSd),
   (rem, tail5)]

/-- The list of Theorem 1 (quintic.py 1313-1329), before the weights are multiplied with `t`. -/
def uncFirst (r1 r2 remt : K) : List (K × Val3 K) :=
  let x := max 0 ((r2 + 3) / (-2))
  [(2, cyc3 fun a b c => a * (a * c + b ^ 2 - 2 * b * c) ^ 2 * ((1 - x) * a - b + x * c) ^ 2),
   (r1 - x ^ 2, fun a b c => cyc3 (fun a b c => a * c ^ 2 * (a - b) ^ 2) a b c * sd3 a b c),
   ((r2 - (-3 - 2 * x)) / 2, fun a b c => prodA a b c * sd3 a b c ^ 2),
   (remt, fun a b c => tail5 a b c * sd3 a b c)]

/-- `v, r1_, r2_` (quintic.py 1339-1343). -/
def uncV (u : K) : K × K × K :=
  ((u ^ 3 - u ^ 2 + u + 1) / u, u * (u ^ 3 - u ^ 2 - 1) / (u + 1), -(3 * u ^ 4 - 2 * u ^ 3 + 3 * u + 1) / (u * (u + 1)))

/-- `_is_valid` (quintic.py 1345-1349). -/
def uncValid (r1 r2 u : K) : Bool :=
  if 0 < u then decide (0 ≤ (uncV u).2.1 ∧ (uncV u).2.1 ≤ r1 ∧ (uncV u).2.2 ≤ r2) else false

/-- `factor1` (quintic.py 1435). -/
def uncF1 (u v : K) : K :=
  u ^ 4 + 3 * u ^ 3 * v - 2 * u ^ 3 - u ^ 2 * v ^ 2 - 5 * u ^ 2 * v - u ^ 2 - 2 * u * v ^ 2 + 5 * u * v + 5 * u - v ^ 2 + 4 * v - 6

/-- `factor2` (quintic.py 1436). -/
def uncF2 (u v : K) : K := u ^ 3 + u ^ 2 * v - u ^ 2 - 3 * u * v - u - v + 4

/-- `w` (quintic.py 1437). -/
def uncW (u v : K) : K := (u + 1) * (2 * u ^ 2 - u * v - 3 * u - v + 4) / ((u ^ 2 - u + 1) * uncF2 u v)

/-- `a_` (quintic.py 1439). -/
def uncA (u v : K) : K := -(u + 1) * (u * v - 1) * (2 * u ^ 2 - u * v - 3 * u - v + 4) / uncF1 u v

/-- `phi` (quintic.py 1438, 1440). -/
def uncPhi (u v r1 : K) : K :=
  let w := uncW u v
  r1 * (1 / (u + uncA u v) ^ 2 - 1) + (u ^ 2 * v ^ 2 * w ^ 2 + 2 * u ^ 2 * v * w - 2 * u * v * w ^ 2 - 2 * u * w - 2 * u + w ^ 2)

/-- The third weight (quintic.py 1456). -/
def uncY2 (u v phi : K) : K := (u + v - 1) * (u ^ 3 - u * u - u * v + u + 1) * (phi + 1) / (u * v - 1) / (u * u - 2 * u - v + 2)

/-- The terms of the answer (quintic.py 1453-1473); the coefficient of `a^2 b^2 c` does not occur. -/
def uncTerms (X : Q5Ext K) (t r1 r2 u v r1' r2' : K) : List (K × Val3 K) :=
  let w := uncW u v
  let phi := uncPhi u v r1'
  let z := uncA u v / (u * v - 1)
  let rho := (u ^ 2 - u * v - u + v ^ 2 - v + 3) / (u + v - 1)
  let m1 := X.m1 z
  let m2 := X.m2 u v
  [(1 / m2 ^ 2 * t, cyc3 fun a b c => a * (m2 * (-u * v * w + w) * a ^ 2 * c + m2 * (u ^ 2 * v * w - u * w - u) * a * b ^ 2 +
      m2 * (u ^ 3 * w - u ^ 2 * v * w - u ^ 2 * w + u * v * w + u * w - v * w + v) * a * b * c + m2 * b ^ 3 + m2 * (-u ^ 3 * w + u - v - w) * b ^ 2 * c +
      m2 * (u ^ 2 * w + v * w - 1) * b * c ^ 2) ^ 2),
   (r1' * uncF1 u v ^ 2 / ((u ^ 2 - u + 1) * uncF2 u v * m1) ^ 2 * t, cyc3 fun a b c => a * (m1 * a ^ 2 * c + m1 * (u * v * z - z) * a * b ^ 2 +
      m1 * (u ^ 2 * z - u * z + u - v ^ 2 * z + v * z - v) * a * b * c + m1 * (-u * v * z - u + z) * a * c ^ 2 + m1 * (-u ^ 2 * z - v * z - 1) * b ^ 2 * c +
      m1 * (u * z + v ^ 2 * z + v) * b * c ^ 2) ^ 2),
   (uncY2 u v phi * t, fun a b c => prodA a b c * cyc3 (fun a b _ => a ^ 2 - rho * a * b) a b c ^ 2),
   ((r2' + phi + 2 * (u ^ 3 * w - u + v + w) - uncY2 u v phi) / 2 * t, fun a b c => prodA a b c * cyc3 (fun a b c => (a ^ 2 - b ^ 2 - u * a * c + v * b * c + (u - v) * a * b) ^ 2) a b c),
   ((if r1 ≠ r1' ∨ r2 ≠ r2' then 1 else 0) * t, fun a b c => cyc3 (fun a b c => a * c * (a - b) ^ 2 * ((r1 - r1') * c + (r2 - r2') / 2 * b)) a b c * mulW phi a b c)]

/-- The divisors of the answer (quintic.py 1437-1456). -/
def uncZero (u v : K) : Prop :=
  uncF1 u v = 0 ∨ (u ^ 2 - u + 1) * uncF2 u v = 0 ∨ u + uncA u v = 0 ∨ u + v - 1 = 0 ∨ u * v - 1 = 0 ∨ u * u - 2 * u - v + 2 = 0

instance (u v : K) : Decidable (uncZero u v) := by unfold uncZero; infer_instance

/-- The answer (quintic.py 1433-1476). -/
def uncAnswer (X : Q5Ext K) (t r1 r2 u v r1' r2' : K) : Except PyErr (Option (Cert K)) :=
  if uncZero u v then .error (.custom "zoo")
  else .ok (some (over (.plain (sumY (uncTerms X t r1 r2 u v r1' r2'))) (mulW (uncPhi u v r1'))))

/-- The exceptional case (quintic.py 1357-1381). -/
def uncExcept (t r3 : K) : Option (Cert K) :=
  if 39 ≤ r3 then
    let mult : Val3 K := cyc3 fun a b c => a * b * (a - b + 3 * c) ^ 2
    some (over (.plain (sumY [
      (t, cyc3 fun a b c => a * c ^ 2 * (a ^ 3 - 8 * a ^ 2 * b - a ^ 2 * c + 10 * a * b ^ 2 - 4 * a * b * c - b ^ 2 * c + 3 * b * c ^ 2) ^ 2),
      (t / 2, fun a b c => prodA a b c * cyc3 (fun a b c => (9 * a ^ 2 * c - 2 * a * b ^ 2 - 26 * a * b * c - 8 * a * c ^ 2 + b ^ 3 - 7 * b ^ 2 * c + 5 * b * c ^ 2 + c ^ 3) ^ 2) a b c),
      (t * 3 / 2, fun a b c => prodA a b c * cyc3 (fun a b c => a ^ 2 * b - 4 * a ^ 2 * c - 6 * a * b * c) a b c ^ 2),
      ((r3 - 39) * t, fun a b c => tail5 a b c * mult a b c)])) mult)
  else none

/-- `_sos_struct_quintic_uncentered` (quintic.py 1251-1478). -/
def unc5 (X : Q5Ext K) (f : Quintic K) : Except PyErr (Option (Cert K)) :=
  if X.rational = false then .ok none
  else
    let t := f.c140
    let r1 := f.c230 / t
    let r2 := f.c311 / t
    let r3 := f.c221 / t
    let rem := f.c230 + f.c140 + f.c311 + f.c221
    if rem < 0 then .ok none
    else if ∀ s ∈ uncTrivial f rem, 0 ≤ s.1 then .ok (some (.plain (sumY (uncTrivial f rem))))
    else if t ≤ 0 then .ok none
    else if ∀ s ∈ uncFirst r1 r2 (rem / t), 0 ≤ s.1 then .ok (some (over (.plain (sumY ((uncFirst r1 r2 (rem / t)).map fun s => (s.1 * t, s.2)))) sd3))
    else if rem = 0 then
      if f.c230 = 0 then .ok (windSpecial f)
      else
        match rationalizeFunc (fun u => u ^ 4 - u ^ 3 - (1 + r1) * u - r1) (-1) (fun u => .ok (uncValid r1 r2 u)) (X.uncU r1) with
        | .error e => .error e
        | .ok none => .ok none
        | .ok (some u) => uncAnswer X t r1 r2 u (uncV u).1 (uncV u).2.1 (uncV u).2.2
    else if r1 = 0 ∧ r2 = -13 then .ok (uncExcept t r3)
    else
      match X.uncUV r1 r2 with
      | none => .ok none
      | some (u, v) => uncAnswer X t r1 r2 u v r1 r2

/-! ### Windmills -/

/-- The case without `a^4 b, a b^4` (quintic.py 671-697). -/
def windBase (f : Quintic K) : Option (Cert K) :=
  let const := f.c320 + f.c230 + f.c311 + f.c221
  if f.c320 < 0 ∨ f.c230 < 0 ∨ const < 0 then none
  else if 0 ≤ f.c311 then
    some (.plain (sumY [
      (0, cyc3 fun a b c => a ^ 3 * b * c),
      (f.c320, cyc3 fun a b c => a ^ 2 * c * (b - c) ^ 2),
      (f.c230, cyc3 fun a b c => a ^ 2 * b * (b - c) ^ 2),
      (f.c311 / 2, abcSd),
      (const, tail5)]))
  else if 4 * f.c320 * f.c230 < f.c311 ^ 2 then none
  else
    let u := f.c311 / (-2 * f.c320)
    if 0 ≤ f.c230 - f.c320 * u ^ 2 then
      some (.plain (sumY [
        (f.c320, cyc3 fun a b c => b * (u * a * b - (u - 1) * a * c - b * c) ^ 2),
        (0, cyc3 fun a b c => a ^ 2 * c * (b - c) ^ 2),
        (f.c230 - f.c320 * u ^ 2, cyc3 fun a b c => a ^ 2 * b * (b - c) ^ 2),
        (0, abcSd),
        (const, tail5)]))
    else none

/-- `_sos_struct_quintic_windmill` (quintic.py 650-706) where it is called by itself (873, 950, 1104): there `c410 = 0`, and `c140` or `c320` is zero, so that the
part from 709 on is not reached.  The flag `is_rational` of the new polynomial is the default `True`. -/
def windRec (X : Q5Ext K) (f : Quintic K) : Except PyErr (Option (Cert K)) :=
  if f.sum7 < 0 then .ok none
  else if f.c140 < 0 then .ok none
  else if f.c140 = 0 then .ok (windBase f)
  else if f.c320 = 0 then
    if 0 ≤ f.c230 then unc5 { X with rational := true } f else .ok none
  else .ok none

/-- Easy case 2 A (quintic.py 719-730). -/
def windEasyA (f : Quintic K) : Option (Cert K) :=
  if 0 ≤ f.c230 then
    let t := min f.c320 f.c230
    let y2 := f.c311 / 2 + f.c140 + t
    let y3 := |f.c320 - f.c230|
    if 0 ≤ f.c140 ∧ 0 ≤ t ∧ 0 ≤ y2 ∧ 0 ≤ y3 then
      some (.plain [
        (1, cyc3 fun a b c => c * (a - b) ^ 2 * (f.c140 * a ^ 2 + t * c ^ 2 + y2 * a * b + y3 * (if f.c230 ≤ f.c320 then b else a) * c)),
        (f.sum7, tail5)])
    else none
  else none

/-- The number `bound` of easy case 2 B (quintic.py 742-755). -/
def windBound (f : Quintic K) : Option K :=
  let l := f.c230 - f.c320
  let r := f.c230 + f.c140 + f.c311 / 2
  if l ≤ r then
    some (if l ≤ -2 * f.c140 ∧ -2 * f.c140 ≤ r then -2 * f.c140 else if -2 * f.c140 ≤ l then l else r)
  else none

/-- Easy case 2 B (quintic.py 732-767). -/
def windEasyB (f : Quintic K) : Option (Cert K) :=
  match windBound f with
  | none => none
  | some d =>
    let y2 := f.c230 - d
    if 0 ≤ f.c140 ∧ 0 ≤ y2 ∧ d ^ 2 ≤ 4 * f.c140 * y2 then
      match quadraticWeighting f.c140 d y2 with
      | none => none
      | some l =>
        some (.plain ((l.map fun w => (w.1, cyc3 fun a b c => c * (a - b) ^ 2 * (w.2.1 * a + w.2.2 * c) ^ 2)) ++ [
          (1, cyc3 fun a b c => c * (a - b) ^ 2 * ((f.c311 / 2 + f.c140 + y2) * a * b + (f.c320 - y2) * b * c)),
          (f.sum7, tail5)]))
    else none

/-- Easy case 3 (quintic.py 770-787). -/
def windEasy3 (f : Quintic K) : Option (Cert K) :=
  let x := f.c140 / f.c320
  let y := f.c230 / f.c320
  let z := f.c311 / f.c320
  let u := y / (-2)
  if 0 ≤ x - u ^ 2 ∧ 0 ≤ (z - (-2 * u ^ 2 + 2 * u)) / 2 + (x - u ^ 2) then
    some ((Cert.plain (sumY [
      (1 * f.c320, cyc3 fun a b c => a * b ^ 2 * (a - u * b + (u - 1) * c) ^ 2),
      ((x - u ^ 2) * f.c320, cyc3 fun a b c => a * b ^ 2 * (b - c) ^ 2),
      (((z - (-2 * u ^ 2 + 2 * u)) / 2 + (x - u ^ 2)) * f.c320, abcSd)])).add f.sum7 tail5)
  else none

/-- The number `t` of easy case 4 (quintic.py 812-820). -/
def windT (x z : K) : Option K :=
  let l := (x - z / 2 - 1) / (2 * x)
  let r := -z / (4 * x)
  if l ≤ r then some (if l ≤ 1 ∧ 1 ≤ r then 1 else if |l - 1| < |r - 1| then l else r) else none

/-- Easy case 4 (quintic.py 789-829). -/
def windEasy4 (f : Quintic K) : Option (Cert K) :=
  let x := f.c140 / f.c320
  let y := f.c230 / f.c320
  let z := f.c311 / f.c320
  if 1 ≤ x then
    let t := (z + 2 * (x - 1)) / (-4)
    let y1 := f.c230 - (t ^ 2 - 2) * f.c320
    if 0 ≤ y1 then
      some (.plain [
        (f.c320, cyc3 fun a b c => c * (a - c) ^ 2 * (a - t * b) ^ 2),
        (1, cyc3 fun a b c => a * c * (a - b) ^ 2 * (y1 * c + (f.c140 - f.c320) * a)),
        (f.sum7, tail5)])
    else none
  else
    match windT x z with
    | none => none
    | some t =>
      if 0 ≤ x ∧ 0 ≤ -z / 2 - 2 * t * x ∧ 0 ≤ 1 + 2 * t * x - x + z / 2 ∧ 0 ≤ y - (t ^ 2 - 2 * t - 2) * x + z / 2 then
        some ((Cert.plain (sumY [
          (x * f.c320, cyc3 fun a b c => c * (a - c) ^ 2 * (a - t * b) ^ 2),
          ((-z / 2 - 2 * t * x) * f.c320, cyc3 fun a b c => a ^ 3 * (b - c) ^ 2),
          ((1 + 2 * t * x - x + z / 2) * f.c320, cyc3 fun a b c => b * c ^ 2 * (a - b) ^ 2),
          ((y - (t ^ 2 - 2 * t - 2) * x + z / 2) * f.c320, cyc3 fun a b c => a * c ^ 2 * (a - b) ^ 2)])).add f.sum7 tail5)
      else none

/-- `_sos_struct_quintic_windmill_trivial` (quintic.py 709-829). -/
def windTrivial (f : Quintic K) : Option (Cert K) :=
  (windEasyA f).or ((windEasyB f).or ((windEasy3 f).or (windEasy4 f)))

/-- The polynomial left by `_sos_struct_quintic_windmill_trivial2` (quintic.py 865-872). -/
def triv2Rest (f : Quintic K) (u v : K) : Quintic K :=
  ⟨0, 0, f.c320 / f.c140 - u ^ 2, f.c230 / f.c140 + 2 * u - v ^ 2, 0, 2 * u * v - 2 * u + 2 * v + f.c311 / f.c140 + 2,
    f.c221 / f.c140 + ((u - v) ^ 2 - 2 * v - 1)⟩

/-- `_sos_struct_quintic_windmill_trivial2` (quintic.py 832-875). -/
def windTrivial2 (X : Q5Ext K) (f : Quintic K) : Except PyErr (Option (Cert K)) :=
  if X.rational = false then .ok none
  else
    let x := f.c320 / f.c140
    let y := f.c230 / f.c140
    let z := f.c311 / f.c140
    let eq1 := 12 * x + 4 * x * y + 4 * y - (z + 2) ^ 2
    let sym1 := 8 * x + 8 * y + 4 * z + 16
    if 0 ≤ eq1 ∨ eq1 ^ 2 ≤ sym1 ^ 2 * x then
      match X.sqrtU x y z with
      | none => .ok none
      | some u =>
        if 2 * u + x + 1 = 0 then .error .typeError
        else
          let v := (2 * u ^ 2 - u * z - z - 2) / (2 * (2 * u + x + 1))
          (windRec X (triv2Rest f u v)).map fun r => r.map fun C =>
            (C.smul f.c140).add f.c140 (cyc3 fun a b c => c * (a ^ 2 + (u - v - 1) * a * b - u * a * c + v * b * c) ^ 2)
    else .ok none

/-- The square of Theorem 1.1 (quintic.py 919, 952): `CyclicSum(a*(a-b)**2*(w*a*b-(2+2*w)*b*c+w*c**2+a*c+b**2)**2)`. -/
def quadSq (w : K) : Val3 K := cyc3 fun a b c => a * (a - b) ^ 2 * (w * a * b - (2 + 2 * w) * b * c + w * c ^ 2 + a * c + b ^ 2) ^ 2

/-- The number `c2` (quintic.py 900-907). -/
def quadC2 (f : Quintic K) : Option K :=
  let lb := -3 * f.c140 - f.c311
  let ub := f.c230
  if lb ≤ ub then some (if ub < 0 then ub else if 0 < lb then lb else 0) else none

/-- Case A (quintic.py 889-923).  The linear form `pp` is split into its content and primitive part, which is not done here. -/
def quadA (f : Quintic K) : Option (Cert K) :=
  match quadC2 f with
  | none => none
  | some c2 =>
    if c2 ^ 2 ≤ 4 * f.c140 * f.c320 ∧ 0 ≤ 2 * f.c140 ∧ 0 ≤ (f.c311 + 3 * f.c140 + c2) / 2 then
      some ((over (.plain (sumY [
        (2 * f.c140, quadSq (c2 / (2 * f.c140))),
        (1, fun a b c => cyc3 (fun a b c => c ^ 2 * (a - b) ^ 2 * ((f.c320 - c2 ^ 2 / (4 * f.c140)) * b + (f.c230 - c2) * a)) a b c * sd3 a b c),
        ((f.c311 + 3 * f.c140 + c2) / 2, fun a b c => prodA a b c * sd3 a b c ^ 2)])) sd3).add f.sum7 tail5)
    else none

/-- The polynomial left by case B (quintic.py 943-948). -/
def quadRest (f : Quintic K) (w : K) : Quintic K :=
  ⟨0, 0, f.c320 - f.c140 * w ^ 2, f.c230 - 2 * f.c140 * w, 0, f.c311 + f.c140 * (3 + 2 * w), f.c221 - f.c140 * (2 - w ^ 2)⟩

/-- The test of case B (quintic.py 930-936). -/
def quadOk (f : Quintic K) (w : K) : Prop :=
  0 ≤ f.c230 - 2 * f.c140 * w ∧ -(f.c320 - f.c140 * w ^ 2) * (f.c230 - 2 * f.c140 * w) * 4 + (f.c311 + f.c140 * (3 + 2 * w)) ^ 2 ≤ 0

instance (f : Quintic K) (w : K) : Decidable (quadOk f w) := by unfold quadOk; infer_instance

/-- `_sos_struct_quintic_windmill_quadratic` (quintic.py 879-953). -/
def windQuadratic (X : Q5Ext K) (f : Quintic K) : Except PyErr (Option (Cert K)) :=
  match quadA f with
  | some C => .ok (some C)
  | none =>
    if X.rational = false then .ok none
    else
      match (X.quadW f).find? fun w => decide (quadOk f w) with
      | none => .ok none
      | some w =>
        (windRec X (quadRest f w)).map fun r => r.map fun C =>
          over ((times sd3 C).add (2 * f.c140) (quadSq w)) sd3

/-- `denom` (quintic.py 973, 1089). -/
def windD (u v : K) : K := u ^ 3 - u ^ 2 - u * v + u + 1

/-- `_is_valid_uv` (quintic.py 990-1001); the condition of the first `if` is never false, because `(v-1)**2/4+1` is not zero. -/
def validUV (x y z u v : K) : Except PyErr Bool :=
  if windD u v = 0 then .error .typeError
  else
    let x' := (u + v - 1) / windD u v
    let y' := (-2 * u ^ 2 + u * v ^ 2 - u * v + 2 * u - v - 1) / windD u v
    let z' := (-2 * u ^ 2 * v + u ^ 2 + u * v - v ^ 2) / windD u v
    .ok (decide (x' ≤ x ∧ y' ≤ y ∧ 0 ≤ (z - z') / 2 + x - x'))

/-- `_compute_v` (quintic.py 987). -/
def windV (x u : K) : K := (u ^ 3 * x - u ^ 2 * x + u * x - u + x + 1) / (u * x + 1)

/-- `_is_valid_u` (quintic.py 1003-1005). -/
def validU (x y z u : K) : Except PyErr Bool := if u < 1 then .ok false else validUV x y z u (windV x u)

/-- The first element that passes a test which may raise. -/
def findE (t : K → Except PyErr Bool) : List K → Except PyErr (Option K)
  | [] => .ok none
  | u :: l =>
    match t u with
    | .error e => .error e
    | .ok true => .ok (some u)
    | .ok false => findE t l

/-- `eq` (quintic.py 988). -/
def windEq (x y u : K) : K :=
  u ^ 5 * x ^ 2 - u ^ 4 * x ^ 2 - 2 * u ^ 3 * x + u ^ 2 * (-x ^ 2 - x * y + x) + u * (-x * y - 4 * x - y + 1) - x - y - 2

/-- `compute_discriminant` (quintic.py 1056-1062): `m_, n_, p_, q_`. -/
def specMNPQ (r w z0 z1 z2 : K) : K × K × K × K :=
  (r ^ 2 * z0 ^ 2 + 2 * r ^ 2 - 2 * r * z0 + 2 * r * z1 + w,
   -r ^ 2 * z0 ^ 2 + 2 * r ^ 2 - 2 * r * z0 ^ 2 - 2 * r * z0 * z2 + 8 * r * z0 - 2 * r * z1 - 2 * r * z2 - 8 * r - w * z0 ^ 2 + 2 * z0 ^ 2 - 2 * z0 * z1 - 2 * z0 * z2 - 6 * z0
     - 2 * z1 * z2 + 2 * z2 + 4,
   2 * r ^ 2 * z0 + 2 * r * z2 - 2 * r + w * z0 ^ 2 + w + z0 ^ 2 + 2 * z0 * z2 - 2 * z0 - z1 ^ 2 + 2 * z1 + 2 * z2 + 5,
   3 * r ^ 2 * z0 ^ 2 - 6 * r ^ 2 * z0 + 5 * r ^ 2 - 4 * r * z0 ^ 2 + 2 * r * z0 * z1 + 2 * r * z0 * z2 + 6 * r * z0 - 2 * r * z2 - 6 * r + w * z0 ^ 2 + w + 2 * z0 - 2 * z1
     - z2 ^ 2 - 1)

/-- `det_` (quintic.py 1061). -/
def specDisc (r w z0 z1 z2 : K) : K :=
  let (m, n, p, q) := specMNPQ r w z0 z1 z2
  3 * m * (m + n) - (p ^ 2 + q ^ 2 + p * q)

/-- The answer of the special case (quintic.py 1072-1084) for the rounded numbers. -/
def specialCert (f : Quintic K) (z0 z1 z2 : K) : Cert K :=
  let k := f.c320
  let r := -(f.c230 / k) / 2
  let w := f.c311 / k
  let (m, _, p, q) := specMNPQ r w z0 z1 z2
  over (.plain (sumY [
    (1 * k, cyc3 fun a b c => a * (a ^ 2 * b + (1 - r) * a * b ^ 2 - r * b ^ 3 + (r * z0) * a ^ 2 * c - z0 * a * c ^ 2 + z1 * b ^ 2 * c + z2 * b * c ^ 2
      - ((2 - z0) * (1 - r) + z1 + z2) * a * b * c) ^ 2),
    (m / 2 * k, fun a b c => prodA a b c * cyc3 (fun a b c => (a ^ 2 - b ^ 2 - (p + 2 * q) / 3 / m * (a * b - a * c) - (q + 2 * p) / 3 / m * (b * c - a * b)) ^ 2) a b c),
    (specDisc r w z0 z1 z2 / 6 / m * k, fun a b c => prodA a b c * cyc3 (fun a b c => a ^ 2 * (b - c) ^ 2) a b c),
    ((f.c221 / k + (f.c140 / k + f.c230 / k + f.c311 / k + 1)) * k, fun a b c => tail5 a b c * cyc3 (fun a b _ => a ^ 2 + (z0 ^ 2 + 2) * a * b) a b c)])) (mulW (z0 ^ 2 + 2))

/-- The special case (quintic.py 1033-1086). -/
def windLimit (X : Q5Ext K) (f : Quintic K) : Option (Cert K) :=
  let r := -(f.c230 / f.c320) / 2
  let w := f.c311 / f.c320
  ((X.specZ f).find? fun p => decide (0 ≤ specDisc r w p.1 p.2.1 p.2.2 ∧ 0 < (specMNPQ r w p.1 p.2.1 p.2.2).1)).map fun p => specialCert f p.1 p.2.1 p.2.2

/-! ### The main theorem -/

/-- Theorem 2.0 (quintic.py 1125-1163); `c1 = 0` makes the quotient `zoo`.  Here and in Theorem 2.1 the model stops with an error at once, where the code goes on
and returns an expression with `zoo`, or nothing if the rest of the polynomial is not solved. -/
def uv20 (u v : K) : Except PyErr (Val3 K × List (K × Val3 K)) :=
  let c1 := (u - 1) * (u + v - 1)
  let c2 := 2 * u ^ 2 - u * v - 2 * u + 3
  let c3 := -u ^ 2 + u * v + 3 * u - v ^ 2 + 3 * v - 5
  let d2 := (2 * u - v + 1) / 4
  let p1 : Val3 K := fun a b c => (b - c) * uvForm u v a b c
  let p2 : Val3 K := fun a b c => (a - b) * uvForm u v b c a
  if c1 = 0 ∨ d2 = 0 then .error (.custom "zoo")
  else .ok (sd3, [
    (c1 / d2, cyc3 fun a b c => a * (p1 a b c + c3 / (2 * c1) * p2 a b c) ^ 2),
    ((c2 - c3 ^ 2 / (4 * c1)) / d2, cyc3 fun a b c => a * p2 a b c ^ 2)])

/-- The second polynomial of Theorem 1 (quintic.py 1175), also used in Theorem 2.2 (1233). -/
def uvP2 (u v : K) : Val3 K := fun a b c =>
  u * a ^ 2 * b + (-v - 1) * a ^ 2 * c + (u - 1) * a * b ^ 2 + (-2 * u + v) * a * b * c + (u + 1) * a * c ^ 2 - b ^ 3 + (-u + v + 1) * b ^ 2 * c + (1 - v) * b * c ^ 2

/-- Theorem 1 (quintic.py 1166-1190). -/
def uv1 (u v : K) : Val3 K × List (K × Val3 K) :=
  (mulW (u + v + 1), [
    (1 / 2, cyc3 fun a b c => a * ((-u * v + u + 2) * a ^ 2 * b + (-2 * u + v ^ 2 + 3) * a ^ 2 * c + (-u * v + u - v + 1) * a * b ^ 2 +
      (-4 * u ^ 2 + 4 * u * v + 2 * u - v ^ 2 - 3 * v) * a * b * c + (2 * u ^ 2 + u * v - 3 * u - v - 1) * a * c ^ 2 + (-v - 1) * b ^ 3 +
      (2 * u ^ 2 - u * v + 3 * u + v ^ 2 + 2 * v - 3) * b ^ 2 * c + (-2 * u * v - 2 * u - v ^ 2 + 4 * v - 1) * b * c ^ 2) ^ 2),
    ((4 * u - v * v + 2 * v - 5) / 2, cyc3 fun a b c => a * uvP2 u v a b c ^ 2),
    ((u + v + 2) * (4 * u + v - 4), fun a b c => prodA a b c * cyc3 (fun a b c => uvForm u v a b c ^ 2) a b c)])

/-- The polynomial of Theorems 2.1 and 2.2 (quintic.py 1203, 1230). -/
def uvP4 (u v : K) : Val3 K := fun a b c =>
  a ^ 2 * c * (-u * v + 1) + a * b ^ 2 * (u ^ 2 * v - u) + a * b * c * (u ^ 3 - u ^ 2 * v - u ^ 2 + u * v + u - v) + b ^ 2 * c * (-u ^ 3 - 1) + b * c ^ 2 * (u ^ 2 + v)

/-- The divisor of `g` (quintic.py 1201). -/
def uvG (u v : K) : K := 2 * u ^ 3 + u ^ 2 * v - u * v ^ 2 - u + v + 2

/-- Theorem 2.1 (quintic.py 1193-1218). -/
def uv21 (u v : K) : Except PyErr (Val3 K × List (K × Val3 K)) :=
  let d2 := 2 * (u + 1) ^ 2 * windD u v
  let g := -(u ^ 2 - u * v + 2 * u + 2) / uvG u v
  if d2 = 0 ∨ uvG u v = 0 then .error (.custom "zoo")
  else .ok (sab3, [
    ((3 * u ^ 2 + 2 * u * v - 4 * u - v ^ 2 - 8) / d2, cyc3 fun a b c => a * uvP4 u v a b c ^ 2),
    (uvG u v ^ 2 / d2, cyc3 fun a b c => a * (a ^ 2 * c + a * b ^ 2 * (g * u * v - g) + a * b * c * (g * u ^ 2 - g * u - g * v ^ 2 + g * v + u - v) +
      a * c ^ 2 * (-g * u * v + g - u) + b ^ 2 * c * (-g * u ^ 2 - g * v - 1) + b * c ^ 2 * (g * u + g * v ^ 2 + v)) ^ 2),
    (u + v - 1, fun a b c => prodA a b c * cyc3 (fun a b c => uvForm u v a b c ^ 2) a b c)])

/-- `w` of Theorem 2.2 (quintic.py 1227). -/
def uvW (u v : K) : K :=
  (3 * u ^ 5 - u ^ 4 * v + 4 * u ^ 4 - u ^ 3 * v ^ 2 + u ^ 3 - 2 * u * v + 2 * u + 2) / (u ^ 2 * (u ^ 2 - u * v + 2 * u + 2))

/-- The terms of Theorem 2.2 (quintic.py 1229-1246). -/
def uv22Terms (u v : K) : List (K × Val3 K) :=
  let w := uvW u v
  let e := u ^ 2 - u * v + 2 * u + 2
  [(2 * windD u v / u ^ 2, cyc3 fun a b c => a * uvP2 u v a b c ^ 2),
   (2 * (u ^ 5 * w - 3 * u ^ 5 - u ^ 4 * w + u ^ 4 + u ^ 3 * v ^ 2 - u ^ 3 * v * w + 2 * u ^ 3 * v + u ^ 3 * w - 2 * u ^ 3 - u ^ 2 * v + u ^ 2 * w - 3 * u ^ 2 + u * v - u - 1) / u ^ 4,
     cyc3 fun a b c => a * c ^ 2 * uvForm u v a b c ^ 2),
   (2 * (u + 1) / (u ^ 2 * (u * v - 1)), cyc3 fun a b c => a * (a ^ 2 * c * (-u * v + 1) + a * b * c * (u ^ 3 - u ^ 2 * v - u ^ 2 + u * v ^ 2 + u * v + u - 2 * v) +
     b ^ 3 * (u * v - 1) + b ^ 2 * c * (-u ^ 3 + u ^ 2 * v - u * v ^ 2 - u + v - 1) + b * c ^ 2 * (u ^ 2 - u * v + v + 1)) ^ 2),
   (2 * (3 * u ^ 4 * v - u ^ 4 - u ^ 3 * v ^ 2 + 3 * u ^ 3 * v - 6 * u ^ 3 - u ^ 2 * v ^ 3 + u ^ 2 * v ^ 2 + 3 * u ^ 2 * v - 6 * u ^ 2 + 2 * u * v ^ 2 - u * v - 3 * u - v) /
     (u ^ 3 * (u * v - 1) * e), cyc3 fun a b c => a * uvP4 u v a b c ^ 2),
   ((6 * u ^ 6 - 2 * u ^ 5 * v + 11 * u ^ 5 - 2 * u ^ 4 * v ^ 2 - 3 * u ^ 4 * v + 11 * u ^ 4 + u ^ 3 * v ^ 2 - 5 * u ^ 3 * v + 13 * u ^ 3 - 2 * u ^ 2 * v ^ 2 - 12 * u ^ 2 * v +
     18 * u ^ 2 - 2 * u * v ^ 2 + 20 * u + 2 * v + 6) / (u ^ 2 * e), fun a b c => prodA a b c * cyc3 (fun a b c => uvForm u v a b c ^ 2) a b c)]

/-- Theorem 2.2 (quintic.py 1220-1248). -/
def uv22 (u v : K) : Except PyErr (Option (Val3 K × List (K × Val3 K))) :=
  if u = 0 ∨ u ^ 2 - u * v + 2 * u + 2 = 0 then .error .typeError
  else if -1 ≤ uvW u v then
    if u * v - 1 = 0 then .error .typeError
    else if ∀ t ∈ uv22Terms u v, 0 ≤ t.1 then .ok (some (mulW (uvW u v), uv22Terms u v))
    else .ok none
  else .ok none

/-- `_sos_struct_quintic_windmill_uv` (quintic.py 1112-1248) for a rational `u`. -/
def windUV (u v : K) : Except PyErr (Option (Val3 K × List (K × Val3 K))) :=
  if u + v < 1 then .ok none
  else if 1 < u ∧ 0 ≤ 2 * u ^ 2 - u * v - 2 * u + 3 ∧ 0 ≤ u ^ 2 + u * v - u - v ^ 2 + v - 1 then (uv20 u v).map some
  else if (v - 1) ^ 2 / 4 + 1 ≤ u then .ok (some (uv1 u v))
  else if 0 ≤ 3 * u ^ 2 + 2 * u * v - 4 * u - v ^ 2 - 8 then (uv21 u v).map some
  else if u * u - u * v + 2 * u + 2 < 0 then uv22 u v
  else .ok none

/-- The polynomial left by the main theorem (quintic.py 1091-1096). -/
def mainRest (f : Quintic K) (u v : K) : Quintic K :=
  let k := f.c320
  let d := windD u v
  ⟨0, 0, 0, f.c230 / k + (2 * u ^ 2 - u * v ^ 2 + u * v - 2 * u + v + 1) / d, f.c140 / k - (u + v - 1) / d,
    f.c311 / k + (2 * u ^ 2 * v - u ^ 2 - u * v + v ^ 2) / d,
    f.c221 / k - (-u ^ 3 + 2 * u ^ 2 * v + 2 * u ^ 2 - u * v ^ 2 + u * v - 4 * u + v ^ 2 + 1) / d⟩

/-- The end of `_sos_struct_quintic_windmill` (quintic.py 1091-1110). -/
def windMain (X : Q5Ext K) (f : Quintic K) (u v : K) : Except PyErr (Option (Cert K)) :=
  match windUV u v with
  | .error e => .error e
  | .ok none => .ok none
  | .ok (some (mult, l)) =>
    if windD u v = 0 then .error .typeError
    else
      (windRec X (mainRest f u v)).map fun r => r.map fun C =>
        over (((times mult C).smul f.c320).more ((sumY l).map fun t => (f.c320 / 2 / windD u v * t.1, t.2))) mult

/-- The choice of `u_, v_` and the special case (quintic.py 961-1086). -/
def windLift (X : Q5Ext K) (f : Quintic K) : Except PyErr (Option (Cert K)) :=
  let x := f.c140 / f.c320
  let y := f.c230 / f.c320
  let z := f.c311 / f.c320
  match findE (validU x y z) (X.mainU f) with
  | .error e => .error e
  | .ok (some u) => windMain X f u (windV x u)
  | .ok none =>
    if ¬ (y < 0 ∧ y ^ 2 = 4 * x) then
      match rationalizeFunc (windEq x y) (-1) (validU x y z) (X.mainC f) with
      | .error e => .error e
      | .ok none => .ok none
      | .ok (some u) =>
        match findE (validUV x y z u) (X.mainV f u) with
        | .error e => .error e
        | .ok (some v) => windMain X f u v
        | .ok none => windMain X f u (windV x u)
    else .ok (windLimit X f)

/-- The part of `_sos_struct_quintic_windmill` after the reflection (quintic.py 668-1110). -/
def windCore (X : Q5Ext K) (f : Quintic K) : Except PyErr (Option (Cert K)) :=
  if f.c140 < 0 then .ok none
  else if f.c140 = 0 then .ok (windBase f)
  else if f.c320 = 0 then
    if 0 ≤ f.c230 then unc5 X f else .ok none
  else if f.c320 < 0 then .ok none
  else
    match windTrivial f with
    | some C => .ok (some C)
    | none =>
      match windTrivial2 X f with
      | .error e => .error e
      | .ok (some C) => .ok (some C)
      | .ok none =>
        match windQuadratic X f with
        | .error e => .error e
        | .ok (some C) => .ok (some C)
        | .ok none => if X.rational then windLift X f else .ok none

/-- `_sos_struct_quintic_windmill` (quintic.py 600-1110). -/
def windmill (X : Q5Ext K) (f : Quintic K) : Except PyErr (Option (Cert K)) :=
  if f.c500 ≠ 0 ∨ (f.c410 ≠ 0 ∧ f.c140 ≠ 0) then .ok none
  else if f.sum7 < 0 then .ok none
  else if f.c410 ≠ 0 then (windCore X f.reflect).map fun r => r.map Cert.reflect
  else windCore X f

/-- `_sos_struct_quintic_hexagon` (quintic.py 1599-1797). -/
def quinHex (X : Q5Ext K) (f : Quintic K) : Except PyErr (Option (Cert K)) :=
  if f.c500 ≠ 0 ∨ f.c410 < 0 ∨ f.c140 < 0 then .ok none
  else if f.c410 = 0 ∨ f.c140 = 0 then windmill X f
  else
    let rem := f.c410 + f.c320 + f.c230 + f.c140 + f.c311 + f.c221
    if rem < 0 then .ok none
    else if f.c410 = f.c140 then .ok (hexEq5 X.rational X.hexU f rem)
    else hexNe5 X.hexXU f rem

/-! ### Quintics with `a^5` -/

/-- `_solve_t` (quintic.py 70-71), with the factor `mul`. -/
def cubSq (mul t : K) : K × Val3 K := (mul * (1 / t ^ 2), cyc3 fun a b c => a * (t * a - (t - 1) * b - c) ^ 2 * (t * b - (t - 1) * c - a) ^ 2)

/-- `_solve_sa2minusab_mul_cubic` (quintic.py 50-94); if the cubic solver returns `None`, the product raises `TypeError`. -/
def mulCubic (X : Q5Ext K) (x y mul : K) : Except PyErr (Option (Cert K)) :=
  if 0 ≤ x ∧ 0 ≤ y then
    match X.cubic ⟨1, x, y, -3 * (x + y + 1)⟩ with
    | .error e => .error e
    | .ok none => .error .typeError
    | .ok (some C) => .ok (some ((times sd3 C).smul (1 / 2 * mul)))
  else
    match X.gcdT x y with
    | some t => .ok (some (.plain [cubSq mul t]))
    | none =>
      match rationalizeFunc (fun t => 2 * t ^ 3 + x * t ^ 2 - 1) 1 (fun t => .ok (decide (0 < t ∧ 0 ≤ -t ^ 3 + y * t + 2))) (X.cubT x y) with
      | .error e => .error e
      | .ok none => .ok none
      | .ok (some t) =>
        .ok (some (.plain [cubSq mul t,
          (1, cyc3 fun a b c => a * (mul * (x + (2 * t ^ 3 - 1) / t ^ 2) * (a - c) ^ 2 + mul * (y - (t ^ 3 - 2) / t) * (a - b) ^ 2) * (b - c) ^ 2)]))

/-- `t0` of the first method (quintic.py 190-199). -/
def firstT (p q z0 : K) : Option K :=
  if 0 ≤ p ∧ 0 ≤ q ∧ (z0 ^ 2 ≤ 4 * p * q ∨ 0 ≤ z0) then some 0
  else
    let denom := (2 * p + 2 * q + z0) * (4 * p ^ 2 - 4 * p * q - 2 * p * z0 + 4 * q ^ 2 - 2 * q * z0 + z0 ^ 2)
    if denom ≤ 0 ∨ 4 * p * q - z0 ^ 2 = 0 then none else some ((-4 * p * q + z0 ^ 2) ^ 2 / (8 * denom))

/-- `_solve_trivial` (quintic.py 159-217). -/
def firstMethod (X : Q5Ext K) (f : Quintic K) : Except PyErr (Option (Cert K)) :=
  let m := f.c500
  let x0 := f.c410 / m + 1
  let y0 := f.c140 / m + 1
  let p := f.c320 / m - (1 - x0 + y0)
  let q := f.c230 / m - (1 - y0 + x0)
  let z0 := f.c311 / m + (4 + 4 * (x0 + y0))
  match firstT p q z0 with
  | none => .ok none
  | some t0 =>
    let x := x0 - t0
    let y := y0 - t0
    if (0 ≤ x ∧ 0 ≤ y) ∨ -4 * x ^ 3 + x ^ 2 * y ^ 2 + 18 * x * y - 4 * y ^ 3 - 27 ≤ 0 then
      match mulCubic X x y m with
      | .error e => .error e
      | .ok none => .ok none
      | .ok (some P) =>
        (quinHex X ⟨0, t0, p, q, t0, z0 - 8 * t0, -(-6 * t0 + p + q + z0) + f.sum7 / m⟩).map fun r => r.map fun C => P.plus (C.smul m)
    else .ok none

/-- The polynomial left by the second method (quintic.py 322-329). -/
def uvxyRest (f : Quintic K) (u v x : K) : Quintic K :=
  let m := f.c500
  let y := x ^ 2
  ⟨0, (f.c410 / m - (-2 * u * x + 2 * u - 2 * v + y)) * m,
    (f.c320 / m - (-2 * u ^ 2 * x + u ^ 2 * y + u ^ 2 + 2 * u * v * x - 2 * u * v + 2 * u * x + v ^ 2 - 2 * v * y + 2 * x - 2)) * m,
    (f.c230 / m - (u ^ 2 - 2 * u * v * x + 4 * u * x - 2 * u * y - 2 * u + v ^ 2 * y - 2 * v * x + 2 * v - 2 * x)) * m,
    (f.c410 / m - (-2 * u * x + 2 * u - 2 * v + y)) * m,
    (f.c311 / m - (2 * u ^ 2 * x - 2 * u ^ 2 + 2 * u * v * x - 2 * u * v * y + 2 * u * v - 2 * v ^ 2 * x)) * m,
    (f.c221 / m - (-u ^ 2 * y - 2 * u * v * x + 2 * u * v * y - 4 * u * x + 2 * u * y + 2 * u + 2 * v ^ 2 * x - v ^ 2 * y - v ^ 2 + 2 * v * y + 2 * x - 2 * y)) * m⟩

/-- The loop of the second method (quintic.py 310-337). -/
def uvxyLoop (X : Q5Ext K) (f : Quintic K) : List (K × K) → Except PyErr (Option (Cert K))
  | [] => .ok none
  | (u, v) :: l =>
    if 2 * (u + v - 1) = 0 then uvxyLoop X f l
    else
      let x := (-(f.c410 / f.c500) + f.c140 / f.c500 + 4 * u - 2 * v - 1) / (2 * (u + v - 1))
      if x ^ 2 ≤ f.c410 / f.c500 + 2 * (u * x - u + v) then
        match quinHex { X with rational := true } (uvxyRest f u v x) with
        | .error e => .error e
        | .ok (some C) =>
          .ok (some (C.add f.c500 (cyc3 fun a b c => a * (a ^ 2 - b ^ 2 + (u - v) * a * b - u * a * c + v * b * c + x * b ^ 2 - x * c ^ 2 + (x * u - x * v) * b * c - x * u * b * a + x * v * c * a) ^ 2)))
        | .ok none => uvxyLoop X f l
      else uvxyLoop X f l

/-- `_sos_struct_quintic_full` (quintic.py 96-597). -/
def quinFull (X : Q5Ext K) (f : Quintic K) : Except PyErr (Option (Cert K)) :=
  if f.c500 ≤ 0 then .ok none
  else
    match firstMethod X f with
    | .error e => .error e
    | .ok (some C) => .ok (some C)
    | .ok none =>
      if X.rational = false then .ok none
      else
        match X.uvxy f with
        | none => .ok none
        | some (some l) => uvxyLoop X f l
        | some none => X.third f

/-- `sos_struct_quintic` (quintic.py 34-48). -/
def quintic (X : Q5Ext K) (f : Quintic K) : Except PyErr (Option (Cert K)) :=
  if f.c410 = f.c140 ∧ f.c320 = f.c230 then X.symm f
  else if f.c500 = 0 then quinHex X f
  else quinFull X f

end Verif.Ternary
