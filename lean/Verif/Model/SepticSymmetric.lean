import Verif.Model.TernarySeptic
import Verif.Model.Univariate

/-!
# Symmetric ternary septic solver

Model of `triples/core/structsos/ternary/septic_symmetric.py` and of `_restructure_quartic_polynomial`
(`triples/core/structsos/ternary/sextic_symmetric.py` 40-96).  Conventions as in `TernarySeptic`; `together`, `expand`, `as_coeff_Mul` do not change a value.
-/

namespace Verif.Ternary

open Verif Verif.Acute Verif.Univariate

variable {K : Type*} [Field K] [LinearOrder K]

/-- `solution1 / solution2`. -/
def Cert.quot (C D : Cert K) : Cert K :=
  ⟨C.terms.map fun t => (t.1, fun a b c => t.2 a b c * D.den a b c), fun a b c => C.den a b c * (D.terms.map fun t => t.1 * t.2 a b c).sum⟩

/-- Synthetic division by `a - 1`; coefficients in ascending order. -/
def divOne : UPoly K → UPoly K × K
  | [] => ([], 0)
  | c :: p => ((divOne p).2 :: (divOne p).1, c + (divOne p).2)

/-- `poly.subs({b:1,c:1})` (septic_symmetric.py 67): the coefficients of `f(a,1,1)`. -/
def Septic.axis (f : Septic K) : UPoly K :=
  [2 * f.c700 + f.c610 + f.c601 + f.c520 + f.c502 + f.c430 + f.c403, f.c610 + f.c601 + 2 * f.c511 + f.c421 + f.c412 + f.c331,
    f.c520 + f.c502 + f.c421 + f.c412 + 2 * f.c322, f.c430 + f.c403 + 2 * f.c331 + f.c322, f.c430 + f.c403 + f.c421 + f.c412,
    f.c520 + f.c502 + f.c511, f.c610 + f.c601, f.c700]

/-- The sum `sum(i*j**2 for i, j in zip(...))` (septic_symmetric.py 85-86) as a polynomial. -/
def sosPoly (L : Sos K) : UPoly K := L.foldr (fun t p => padd (psmul t.1 (pmul t.2 t.2)) p) []

/-- What `_restructure_quartic_polynomial` returns: `t, s, x, y, rem, r`, with `r = none` for `oo`; `nan` when it divided zero by `s = 0`. -/
inductive Axis (K : Type*)
  | nan
  | ok (t s x y rem : K) (r : Option K)

/-- The sums `s, x, y, m, p, n` (sextic_symmetric.py 65-74). -/
structure AxisSums (K : Type*) where
  s : K
  x : K
  y : K
  m : K
  p : K
  n : K

/-- The loop of `_restructure_quartic_polynomial` (sextic_symmetric.py 65-74). -/
def axisSums (L : Sos K) : AxisSums K :=
  L.foldr (fun t A =>
    let w := t.2.getD 0 0
    let v := t.2.getD 1 0
    let u := t.2.getD 2 0
    let k1 := (4 * u + v - 2 * w) / 2
    let k2 := (2 * u + v - 2 * w) / 2
    let k3 := 2 * u - w
    ⟨t.1 * k1 ^ 2 + A.s, t.1 * (k1 * k2) + A.x, t.1 * (k1 * k3) + A.y, t.1 * k2 ^ 2 + A.m, t.1 * (2 * k2 * k3) + A.p, t.1 * k3 ^ 2 + A.n⟩) ⟨0, 0, 0, 0, 0, 0⟩

/-- `_restructure_quartic_polynomial` after the sums (sextic_symmetric.py 76-96).  For `s = 0` also `x = y = 0`, since the weights are nonnegative, and the
quotients are `nan`; a division of a nonzero number by zero (79) gives `zoo`, whose comparison (80) raises `TypeError`. -/
def axisFinish (A : AxisSums K) : Except PyErr (Option (Axis K)) :=
  if A.s = 0 then .ok (some .nan)
  else
    let m := A.m - A.x ^ 2 / A.s
    let p := A.p - 2 * A.x * A.y / A.s
    let n := 2 * A.m + A.n - (2 * A.x ^ 2 + A.y ^ 2) / A.s
    if n = 3 * m ∧ p = -2 * m then .ok (some (.ok m A.s (A.x / A.s) (A.y / A.s) 0 (some 0)))
    else if n + p - m = 0 then .error .typeError
    else
      let t := (-2 * m ^ 2 + m * n - p ^ 2 / 4) / (n + p - m)
      if t < 0 then .ok none
      else if m ≠ t then .ok (some (.ok t A.s (A.x / A.s) (A.y / A.s) (m - t) (some ((p + 2 * t) / (m - t) / 2))))
      else if n - 3 * t < 0 then .ok none
      else .ok (some (.ok t A.s (A.x / A.s) (A.y / A.s) (n - 3 * t) none))

/-- `_restructure_quartic_polynomial` (sextic_symmetric.py 40-96). -/
def restructure (prover : UPoly K → Except PyErr (Option (Sos K × Sos K))) (p : UPoly K) : Except PyErr (Option (Axis K)) :=
  if pstrip p = [] then .ok (some (.ok 0 0 0 0 0 (some 0)))
  else
    match prover p with
    | .error e => .error e
    | .ok none => .ok none
    | .ok (some P) => if P.2 ≠ [] then .ok none else axisFinish (axisSums P.1)

/-- `CyclicProduct((a-b)**2)`. -/
def discV3 : Val3 K := cycp3 fun a b _ => (a - b) ^ 2

/-- `_septic_sym_axis._F_square` (septic_symmetric.py 163-172). -/
def fSquare (x y : K) : Except PyErr (Option (Cert K × K)) :=
  if x + y = 5 / 3 then
    .ok (some (.plain [(1 / 9, cyc3 fun a b c => a * (a - b) ^ 2 * (a - c) ^ 2 * (3 * (x - 1) * a - (3 * x - 1) / 2 * b - (3 * x - 1) / 2 * c) ^ 2)],
      -(x - 1) * (9 * x - 13) / 12))
  else .ok none

/-- `ker_coeff` and `rem` of `_F_sos` and `_G_sos` (septic_symmetric.py 192-199, 343-350). -/
def sosRem (c1 c2 : K) : K × (K × Val3 K) :=
  if c2 ≤ 2 * c1 then (-(c1 + c2) / 3, ((2 * c1 - c2) / 6, cyc3 fun a b _ => (a - b) ^ 2)) else (-c1, (c2 - 2 * c1, cyc3 fun a b _ => a * b))

/-- `_septic_sym_axis._F_sos` (septic_symmetric.py 173-206). -/
def fSos (second : Bool) (x y : K) : Except PyErr (Option (Cert K × K)) :=
  if second = true ∧ x = 1 then .ok none
  else
    let z := if second then -x ^ 2 / (6 * (x - 1)) else 2 - y
    let c1 := -x ^ 2 / 3 - 2 * x * z + 2 * z
    let c2 := -2 * x ^ 2 / 3 + 2 * x * z - 2 * y * z - z ^ 2 + 2 * z
    let R := sosRem c1 c2
    .ok (some (⟨[
      (1 / 18, cyc3 fun a b c => (a - b) ^ 2 * ((3 * x - 3) * a ^ 3 + (4 * x + 3 * y - 6) * a ^ 2 * b + (-4 * x + 3 * y) * a ^ 2 * c + (4 * x + 3 * y - 6) * a * b ^ 2 +
        (-4 * x + 3 * y) * a * b * c + (6 * x - 3 * y) * a * c ^ 2 + (3 * x - 3) * b ^ 3 + (-4 * x + 3 * y) * b ^ 2 * c + (6 * x - 3 * y) * b * c ^ 2 + (3 - 5 * x) * c ^ 3) ^ 2),
      (1, cyc3 fun a b c => a * b * (a - b) ^ 2 * (a * b * (-x + y + z - 1) + c ^ 2 * z + (a * c + b * c) * (x + y - z - 1) + (a ^ 2 + b ^ 2) * (x - 1)) ^ 2),
      (R.2.1, fun a b c => R.2.2 a b c * discV3 a b c)], sumA⟩, R.1))

/-- `p1` of the first nondegenerate case of `_F_border` (septic_symmetric.py 233-235). -/
def borderP1 (x y : K) : Val3 K := fun a b c =>
  a ^ 4 * (x - 1) + a ^ 3 * b * (2 * x + 2 * y - 4) + a ^ 3 * c * (3 - 3 * x) + a ^ 2 * b ^ 2 * (-2 * x - 2 * y + 6) + a ^ 2 * b * c * (x + y - 3) +
    a ^ 2 * c ^ 2 * (3 * x - 3) + a * b ^ 3 * (2 * x + 2 * y - 4) + a * b ^ 2 * c * (x + y - 3) + a * b * c ^ 2 * (-4 * x - 4 * y + 8) + a * c ^ 3 * (1 - x) +
    b ^ 4 * (x - 1) + b ^ 3 * c * (3 - 3 * x) + b ^ 2 * c ^ 2 * (3 * x - 3) + b * c ^ 3 * (1 - x)

/-- `p2` of the first nondegenerate case of `_F_border` (septic_symmetric.py 236). -/
def borderP2 (x y : K) : Val3 K := fun a b c =>
  (a - c) * (b - c) * ((x + y - 2) * a ^ 2 + (-4 * x - 3 * y + 6) * a * b + (1 - y) * a * c + (x + y - 2) * b ^ 2 + (1 - y) * b * c + (1 - x) * c ^ 2)

/-- The last case of `_F_border` (septic_symmetric.py 248-263).  For `x = 1` the quotient (249) is not a number and is not used. -/
def fBorderLast (x y : K) : Except PyErr (Option (Cert K × K)) :=
  let det := 6 * x ^ 2 + 9 * x * y - 20 * x + 3 * y ^ 2 - 15 * y + 17
  let det2 := (6 * x + 3 * y - 8) * det / (x - 1)
  if x ≠ 1 ∧ 0 ≤ det2 then
    let u := (2 * x + y - 3) / (2 * (x - 1))
    if 0 ≤ u ∧ u ≤ 1 then
      let p1 : Val3 K := fun a b c =>
        a ^ 2 * (x - 1) + a * b * (y - 1) + a * c * (y - 1) + b ^ 2 * (-x - y + 2) + b * c * (4 * x + 3 * y - 6) + c ^ 2 * (-x - y + 2)
      let sol : Cert K := .plain [
        (u, cyc3 fun a b c => a ^ 2 * (a - b) ^ 2 * (a - c) ^ 2 * p1 a b c ^ 2),
        (u, cyc3 fun a b c => a * (b + c) * (a - b) ^ 2 * (a - c) ^ 2 * p1 a b c ^ 2),
        (1 - u, fun a b c => cyc3 (fun a b c => a * (a - b) * (a - c) * ((x - 1) * a ^ 2 + (y - 1) * (a * b + a * c) + (2 * x + y - 2) * b * c)) a b c ^ 2),
        (det2, fun a b c => discV3 a b c * sumA a b c * prodA a b c)]
      match cubicSymmetric ⟨1, u - 1, u - 1, 3 - 6 * u⟩ with
      | .error e => .error e
      | .ok none => .error .typeError
      | .ok (some M) => .ok (some (sol.quot M, -(2 * x + y - 3) ^ 2))
    else .ok none
  else .ok none

/-- `_septic_sym_axis._F_border` (septic_symmetric.py 208-263). -/
def fBorder (x y : K) : Except PyErr (Option (Cert K × K)) :=
  if y = 1 ∨ 2 * x + y - 3 = 0 then
    .ok (some (⟨[
      (1 / 2, cyc3 fun a b c => (a - b) ^ 2 * ((x - 1) * a ^ 3 + (1 - x) * a ^ 2 * b + (x + 2 * y - 3) * a ^ 2 * c + (1 - x) * a * b ^ 2 + (8 * x + 5 * y - 12) * a * b * c +
        (-5 * x - 4 * y + 9) * a * c ^ 2 + (x - 1) * b ^ 3 + (x + 2 * y - 3) * b ^ 2 * c + (-5 * x - 4 * y + 9) * b * c ^ 2 + (3 * x + 2 * y - 5) * c ^ 3) ^ 2),
      (1, cyc3 fun a b c => a * b * (a - b) ^ 2 * (a * b * (2 - 2 * x) + c ^ 2 * (-x - y + 3) + (a * c + b * c) * (2 * x + 2 * y - 4) + (a ^ 2 + b ^ 2) * (x - 1)) ^ 2)],
      sumA⟩, -(2 * x + y - 3) ^ 2))
  else if x ≠ 1 ∧ 0 ≤ (y - 1) * (16 * x - y - 15) then
    let det := (72 * x ^ 3 + 108 * x ^ 2 * y - 300 * x ^ 2 + 54 * x * y ^ 2 - 318 * x * y + 434 * x + 9 * y ^ 3 - 84 * y ^ 2 + 243 * y - 218) / (2 * (x - 1))
    let u := (y - 1) / (4 * (x - 1))
    match quadraticWeighting u u 1 with
    | some l =>
      if 0 ≤ det then
        let sol : Cert K := .plain ((l.map fun w => (w.1, cyc3 fun a b c => c * (w.2.1 * borderP1 x y a b c + w.2.2 * borderP2 x y a b c) ^ 2)) ++
          [(det, fun a b c => prodA a b c * discV3 a b c)])
        match quadratic 1 (2 * u - 1) with
        | none => .error .typeError
        | some Q => .ok (some (sol.quot Q, -(2 * x + y - 3) ^ 2))
      else fBorderLast x y
    | none => fBorderLast x y
  else fBorderLast x y

/-- `_septic_sym_axis._F_regular` (septic_symmetric.py 155-160). -/
def fRegular (x y : K) : Except PyErr (Option (Cert K × K)) :=
  let f1 : Val3 K := fun a b c => (x - 1) * a ^ 5 + (y - x) * a ^ 4 * (b + c) + (1 - y) * a ^ 3 * (b ^ 2 + c ^ 2) + (3 * x - y - 1) * a ^ 3 * b * c + (y - 2 * x) * a ^ 2 * b ^ 2 * c
  match schur 3 with
  | none => .error .typeError
  | some S => .ok (some ((Cert.plain [(1, fun a b c => cyc3 f1 a b c ^ 2), (1, fun a b c => prodA a b c * sumA a b c * discV3 a b c)]).quot S, 0))

/-- `_septic_sym_axis._G_trivial` (septic_symmetric.py 277-285). -/
def gTrivial (x y : K) : Option (Cert K × K) :=
  some (.plain [(1, cyc3 fun a b c => a * (b - c) ^ 2 * (a ^ 2 * (x - 1) + a * b * y + a * c * y + b ^ 2 * (x - 1) + b * c * (y - 2) + c ^ 2 * (x - 1)) ^ 2)], 0)

/-- `_septic_sym_axis._G_border` (septic_symmetric.py 287-307). -/
def gBorder (x y : K) : Option (Cert K × K) :=
  let ker := -4 * (x - 1) * (2 * x + y - 2)
  if 0 ≤ ker then none
  else if 0 ≤ (y - 1) * (2 * x + y - 2) then
    some (.plain [
      (1, cyc3 fun a b c => c * (a - b) ^ 2 * ((x - 1) * a ^ 2 + (-4 * x - y + 4) * a * c + (x - 1) * b ^ 2 + (-4 * x - y + 4) * b * c + (x - 1) * c ^ 2 + (4 * x + 3 * y - 6) * a * b) ^ 2),
      (4 * (x - 1) * (2 * x + y - 2), fun a b c => cyc3 (fun a b _ => a * b * (a - b) ^ 2) a b c * prodA a b c),
      (8 * (y - 1) * (2 * x + y - 2), fun a b c => cyc3 (fun a b c => a ^ 2 * (b - c) ^ 2) a b c * prodA a b c)], ker)
  else none

/-- `_septic_sym_axis._G_sos` with `zw_type = 1` (septic_symmetric.py 309-357), the only way it is called (379). -/
def gSos (x y : K) : Option (Cert K × K) :=
  let z0 := 2 - y
  let w0 := -x - 1
  let d1 := -2 * w0 ^ 2 - 4 * w0 * x + 4 * w0 * y - 4 * w0 + 2 * x ^ 2 + 4 * x * y - 2 * x * z0 - 8 * x - 2 * y ^ 2 + 4 * y + 2 * z0 - 2
  let d2 := -4 * w0 * y - x ^ 2 + 2 * x * y + 2 * x * z0 - 2 * x + 4 * y ^ 2 - 2 * y * z0 - 6 * y - z0 ^ 2 + 2 * z0 - 1
  let better : Prop := min d1 ((d1 + d2) / 3) ≤ 4 * y * (x - 1)
  let z := if better then x - 2 * y + 1 else z0
  let w := if better then y - 2 * x else w0
  let c1 := if better then 4 * y * (x - 1) else d1
  let c2 := if better then 8 * y * (x - 1) else d2
  let R := sosRem c1 c2
  some (⟨[
    (1, cyc3 fun a b c => a * b * (a - b) ^ 2 * (a * b * (-x + y + z - 1) + c ^ 2 * z + (a * c + b * c) * (x + y - z - 1) + (a ^ 2 + b ^ 2) * (x - 1)) ^ 2),
    (2, cyc3 fun a b c => a ^ 2 * (b - c) ^ 2 *
      (a ^ 2 * (w + x - y + 1) + a * b * (-w + 2 * y - 2) + a * c * (-w + 2 * y - 2) + b ^ 2 * (x - 1) + b * c * w + c ^ 2 * (x - 1)) ^ 2),
    (R.2.1, fun a b c => R.2.2 a b c * discV3 a b c)], sumA⟩, R.1)

/-- The inner loop of `_septic_sym_axis.solve` (septic_symmetric.py 387-399). -/
def axisInner (fc gc ker : K) (pf : Cert K × K) : List (Option (Cert K × K)) → Option (Cert K)
  | [] => none
  | none :: gs => axisInner fc gc ker pf gs
  | some pg :: gs =>
    let rem := ker - fc * pf.2 - gc * pg.2
    if 0 ≤ rem then some (((pf.1.smul fc).plus (pg.1.smul gc)).add rem fun a b c => sumA a b c * discV3 a b c) else axisInner fc gc ker pf gs

/-- The outer loop of `_septic_sym_axis.solve` (septic_symmetric.py 382-399). -/
def axisOuter (fc gc ker gx gy : K) : List (Except PyErr (Option (Cert K × K))) → Except PyErr (Option (Cert K))
  | [] => .ok none
  | .error e :: _ => .error e
  | .ok none :: fs => axisOuter fc gc ker gx gy fs
  | .ok (some pf) :: fs =>
    match axisInner fc gc ker pf [gTrivial gx gy, gBorder gx gy, gSos gx gy] with
    | some C => .ok (some C)
    | none => axisOuter fc gc ker gx gy fs

/-- `_septic_sym_axis.solve` (septic_symmetric.py 363-399). -/
def axisSolve (fc fx fy gc gx gy ker : K) : Except PyErr (Option (Cert K)) :=
  axisOuter fc gc ker gx gy [fSquare fx fy, fSos false fx fy, fSos true fx fy, fBorder fx fy, fRegular fx fy]

/-- `CyclicSum(a**2 + rem_ratio*a*b)**2` or `CyclicSum(a*b)**2` (septic_symmetric.py 361). -/
def remV : Option K → Val3 K
  | some r => fun a b c => cyc3 (fun a b _ => a ^ 2 + r * a * b) a b c ^ 2
  | none => fun a b c => cyc3 (fun a b _ => a * b) a b c ^ 2

/-- What `ker_coeff` loses to the remainder with multiplier `s(a(a-b)(a-c))` (septic_symmetric.py 98-101). -/
def kerF (rem : K) : Option K → K
  | some r => rem * (r - 1) ^ 2
  | none => rem

/-- What `ker_coeff` loses to the remainder with multiplier `s(a(b-c)^2)` (septic_symmetric.py 102-103). -/
def kerG (rem : K) : Option K → K
  | some r => rem * (2 * r + 1)
  | none => 0

/-- `_sos_struct_septic_symmetric_quadratic_form` after the two calls of `_restructure_quartic_polynomial` (septic_symmetric.py 95-124). -/
def quadFinish (f : Septic K) : Axis K → Axis K → Except PyErr (Option (Cert K))
  | .ok ft fc fx fy frem fr, .ok gt gc gx gy grem gr =>
    let ker := f.c520 - fc * (fx - fy) ^ 2 - gc * (gx ^ 2 + 2 * gx * gy - 2 * gx - 2 * gy + 1) - (13 / 4 * ft - 4 * gt) - kerF frem fr - kerG grem gr
    match axisSolve fc fx fy gc gx gy ker with
    | .error e => .error e
    | .ok none => .ok none
    | .ok (some C) =>
      match schur 3 with
      | none => .error .typeError
      | some S =>
        .ok (some ((((C.add 1 (cyc3 fun a b c => a * (2 * a - b - c) ^ 2 * (ft / 4 * (a - b) ^ 2 * (a - c) ^ 2 + gt * (b - c) ^ 4))).plus
          ((times (remV fr) S).smul frem))).add grem fun a b c => remV gr a b c * cyc3 (fun a b c => a * (b - c) ^ 2) a b c))
  | _, _ => .ok none

/-- `_sos_struct_septic_symmetric_quadratic_form` (septic_symmetric.py 26-124).  Unpacking a `None` of `_restructure_quartic_polynomial` (88-89) raises `TypeError`. -/
def septicQuad (prover : UPoly K → Except PyErr (Option (Sos K × Sos K))) (f : Septic K) : Except PyErr (Option (Cert K)) :=
  let d1 := divOne f.axis
  let d2 := divOne d1.1
  if d1.2 = 0 ∧ d2.2 = 0 then
    match prover d2.1 with
    | .error e => .error e
    | .ok none => .ok none
    | .ok (some P) =>
      match restructure prover (sosPoly P.2) with
      | .error e => .error e
      | .ok none => .error .typeError
      | .ok (some A) =>
        match restructure prover (psmul (1 / 2) (sosPoly P.1)) with
        | .error e => .error e
        | .ok none => .error .typeError
        | .ok (some B) => quadFinish f A B
  else .ok none

/-- `sos_struct_septic_symmetric` (septic_symmetric.py 14-23); `six` is `sos_struct_liftfree_for_six` (18), `rational` is `coeff.is_rational`. -/
def septicSymmetric (six : Septic K → Except PyErr (Option (Cert K))) (prover : UPoly K → Except PyErr (Option (Sos K × Sos K))) (rational : Bool) (f : Septic K) :
    Except PyErr (Option (Cert K)) :=
  if f.c610 = f.c601 ∧ f.c520 = f.c502 ∧ f.c430 = f.c403 ∧ f.c421 = f.c412 then
    match six f with
    | .error e => .error e
    | .ok (some C) => .ok (some C)
    | .ok none => if rational then septicQuad prover f else .ok none
  else .ok none

end Verif.Ternary
