import Verif.Model.Nonic
import Verif.Model.StructUtils

/-!
# The solver of cyclic ternary sextics

Model of `triples/core/structsos/ternary/sextic.py` 18-966.  Conventions as in `SexticSmall`: `radsimp`, `together` and `expand` do not change a value, and a quotient
by zero is `zoo` or `nan`.  The numerical searches, and the solvers of symmetric sextics, are parameters (`SexticExt`).  `_sos_struct_sextic_hexagon_full` (566-598) is
not called by anything.
-/

namespace Verif.Ternary

open Verif Verif.Acute

variable {K : Type*} [Field K] [LinearOrder K]

/-- What the sextic solver takes from outside. -/
structure SexticExt (K : Type*) where
  /-- `as_numer_denom`, for the symmetric hexagram. -/
  nd : NumDen K
  /-- `coeff.is_rational`. -/
  rational : Sextic K → Bool
  /-- `coeff.is_rational` of the cubic (78, 85). -/
  cubicRat : Cubic K → Bool
  /-- The candidates of the cubic solver. -/
  cubicUs : Cubic K → List K
  /-- The roots and approximations of `rationalize_func` (120). -/
  vCands : Sextic K → List (Cand K)
  /-- The roots and approximations of `rationalize_func` (180). -/
  tCands : Sextic K → List (Cand K)
  /-- The answer of theorem 2 (197-233): it takes square and cube roots of coefficients. -/
  thm2 : Sextic K → Option (Cert K)
  /-- The pairs the loop over `rationalize_bound` goes through (323-326); none if no root is found (298) or the exact pair is bad (319). -/
  star : Sextic K → List (K × K)
  /-- The values of `y_` (483-510): the square root of `u + 2` if it is rational, else those of `rationalize_bound` (491), none if `q1 < 0` for the float (489). -/
  treeY : Sextic K → List K
  /-- The roots and approximations of `rationalize_func` (536). -/
  treeX : Sextic K → List (Cand K)
  /-- The roots and approximations of `rationalize_func` (793). -/
  c3Cands : Sextic K → List (Cand K)
  /-- `_sos_struct_sextic_hexagon_symmetric`. -/
  hexagonSym : Sextic K → Except PyErr (Option (Cert K))
  /-- `sos_struct_sextic_symmetric_ultimate`. -/
  ultimate : Sextic K → Except PyErr (Option (Cert K))
  /-- The pairs `(x_, y_)` or `(x__, y__)` that are tested (926-955). -/
  full : Sextic K → List (K × K)
  /-- What SymPy raises when the matrix has infinite entries. -/
  zooErr : Sextic K → PyErr

/-- `coeff.poly111()` of a cyclic sextic. -/
def Sextic.poly111 (f : Sextic K) : K := 3 * (f.c600 + f.c510 + f.c501 + f.c420 + f.c411 + f.c402 + f.c330 + f.c321 + f.c312) + f.c222

/-- `new_coeff` (sextic.py 443-444). -/
def Sextic.reflect (f : Sextic K) : Sextic K := ⟨f.c600, f.c501, f.c510, f.c402, f.c411, f.c420, f.c330, f.c312, f.c321, f.c222⟩

/-! ### The hexagram -/

/-- `_compute_x_rest` (sextic.py 104-110). -/
def hexXRest (f : Sextic K) (v : K) : K × K :=
  let x := (f.c321 - f.c312) / f.c330 / (6 * (v + 1))
  (x, f.c321 / f.c330 - (x ^ 2 + 3 * (v + 1) * x - 3 * (v + 1) ^ 2 / 4) + (f.c411 / f.c330 - v ^ 2))

/-- `_check_valid` (sextic.py 111-117). -/
def hexVValid (f : Sextic K) (v : K) : Bool := decide (0 ≤ v ∧ f.c330 * v ^ 2 ≤ f.c411) && decide (0 ≤ (hexXRest f v).2)

/-- `rem` (sextic.py 128, 140). -/
def Sextic.hexRem (f : Sextic K) : K := (f.c330 + f.c411 + f.c321 + f.c312) * 3 + f.c222

/-- The trivial case, for a given `v` (sextic.py 122-137).  The coefficient of `p1` is multiplied back. -/
def hexTrivial (f : Sextic K) (v : K) : Except PyErr (Option (Cert K)) :=
  let x := (hexXRest f v).1
  let rest := (hexXRest f v).2
  if f.hexRem < 0 then .ok none
  else
    match schur 3 with
    | none => .error .typeError
    | some S => .ok (some ((((times prodA S).smul (f.c411 - f.c330 * v ^ 2)).add f.c330
        (cyc3 fun a b c => a * b * (a * b + v * c ^ 2 - (1 + v) / 2 * a * c - (1 + v) / 2 * b * c + x * a * c - x * b * c) ^ 2)).add (rest * f.c330)
        (fun a b c => prodA a b c * cyc3 (fun a b c => a * (b - c) ^ 2) a b c) |>.add f.hexRem (cycp3 fun a _ _ => a ^ 2)))

/-- `eqt` (sextic.py 152) at `t`. -/
def hexEqt (x y t : K) : K := t ^ 4 + 48 * t ^ 2 + 32 * t * y + (-2 * t ^ 2 - 16 * t) * (x + y) + (x - y) ^ 2

/-- `_compute_uv` (sextic.py 172-174). -/
def hexUV (x y t : K) : K × K :=
  let v := (t * (4 - t) - x + y) / (2 * t)
  (t + v, v)

/-- `_is_valid_t` (sextic.py 176-178).  For `t = 0` the number `v` is `zoo` or `nan`, and the comparison raises. -/
def hexTValid (x y rem0 t : K) : Except PyErr Bool :=
  if t = 0 then .error .typeError else .ok (decide (((hexUV x y t).1 + (hexUV x y t).2 + 2) ^ 2 * 3 ≤ rem0))

/-- The answer for `u_`, `v_`, `t_` (sextic.py 184-195). -/
def hexEqualAnswer (f : Sextic K) (u v t : K) : Cert K :=
  .plain [(f.c330, cyc3 fun a b c => a * b * (a * b + c ^ 2 + u * a * c + v * b * c) ^ 2),
    (-hexEqt (f.c321 / f.c330) (f.c312 / f.c330) t / 4 / t ^ 2 * f.c330, fun a b c => prodA a b c * cyc3 (fun a b c => a * (b - c) ^ 2) a b c),
    (f.c330 * (f.hexRem / f.c330 - (u + v + 2) ^ 2 * 3), cycp3 fun a _ _ => a ^ 2)]

/-- `det` (sextic.py 163). -/
def hexDet0 (x y z : K) : K :=
  -20736 * x ^ 3 + 1296 * x ^ 2 * y ^ 2 - 72 * x * y * (z ^ 2 - 60 * z - 4284) - 20736 * y ^ 3 + (z - 102) ^ 3 * (z - 6)

/-- The exact solution (sextic.py 165-169), tried for irrational coefficients.  If the denominator of `v_` or `t_` is zero, the answer is `nan`; this is written as an error. -/
def hexExact (f : Sextic K) : Except PyErr (Option (Cert K)) :=
  let x := f.c321 / f.c330
  let y := f.c312 / f.c330
  let z := f.c222 / f.c330
  if 36 * x * y - z ^ 2 + 204 * z - 10404 = 0 then .error (.custom "nan")
  else
    let v := 24 * (6 * x ^ 2 + y * z - 102 * y) / (36 * x * y - z ^ 2 + 204 * z - 10404)
    let u := (x - v ^ 2) / 4
    if u - v = 0 then .error (.custom "nan") else .ok (some (hexEqualAnswer f u v (u - v)))

/-- `get_discriminant_uv(u, v)[0]` and `w`, `z` (sextic.py 303-313). -/
def starPars (u v : K) : K × K := ((u * u + v) / (u * v - 1), (v * v + u) / (u * v - 1))

/-- `p3` and `q3` and `n3`, before the division by `m3` (sextic.py 306-309). -/
def starP (f : Sextic K) (w z : K) : K := f.c321 + f.c411 - f.c330 * (w * w - 2 * z)
/-- See `starP`. -/
def starQ (f : Sextic K) (w z : K) : K := f.c312 + f.c411 - f.c330 * (z * z - 2 * w)
/-- See `starP`. -/
def starN (f : Sextic K) (w z : K) : K := f.c321 + f.c312 + f.c330 - -f.c330 * 2 * w * z

/-- The determinant (sextic.py 308). -/
def starDet (f : Sextic K) (w z : K) : K :=
  3 * f.c411 * (f.c411 + starN f w z) - (starP f w z ^ 2 + starP f w z * starQ f w z + starQ f w z ^ 2)

/-- The star, for the pair `(u, v)` (sextic.py 332-349). -/
def starAnswer (f : Sextic K) (w z : K) : Option (Cert K) :=
  let p := starP f w z / f.c411
  let n := starN f w z / f.c411
  let q := starQ f w z / f.c411
  let y2 := (3 * (1 + n) - (p ^ 2 + p * q + q ^ 2)) / 6 * f.c411
  if 0 ≤ f.c330 ∧ 0 ≤ f.c411 / 2 ∧ 0 ≤ y2 ∧ 0 ≤ f.hexRem then
    some ⟨[(f.c330, cyc3 fun a b c => c * (a ^ 2 * c - b ^ 2 * c - w * a ^ 2 * b + z * a * b ^ 2 + (w - z) * a * b * c) ^ 2),
      (f.c411 / 2, fun a b c => cyc3 (fun a b c => (a ^ 2 - b ^ 2 + (p + 2 * q) / 3 * (a * c - a * b) - (2 * p + q) / 3 * (b * c - a * b)) ^ 2) a b c * prodA a b c),
      (y2, fun a b c => cyc3 (fun a b c => a ^ 2 * (b - c) ^ 2) a b c * prodA a b c),
      (f.hexRem, fun a b c => sumA a b c * cycp3 (fun a _ _ => a ^ 2) a b c)], sumA⟩
  else none

/-- The loop (sextic.py 316-330) and what follows.  For `u v = 1` the determinant is not a rational number. -/
def hexStar (f : Sextic K) : List (K × K) → Option (Cert K)
  | [] => none
  | (u, v) :: l =>
    if u * v ≠ 1 ∧ 0 ≤ starDet f (starPars u v).1 (starPars u v).2 then starAnswer f (starPars u v).1 (starPars u v).2 else hexStar f l

/-- The case `coeff((4,1,1)) == coeff((3,3,0))` and the star (sextic.py 140-356). -/
def hexEqual (X : SexticExt K) (f : Sextic K) : Except PyErr (Option (Cert K)) :=
  if 0 < f.hexRem ∧ f.c411 = f.c330 then
    let x := f.c321 / f.c330
    let y := f.c312 / f.c330
    if X.rational f = false ∧ hexDet0 x y (f.c222 / f.c330) = 0 then hexExact f
    else
      match rationalizeFunc (hexEqt x y) (-1) (hexTValid x y (f.hexRem / f.c330)) (X.tCands f) with
      | .error e => .error e
      | .ok (some t) => .ok (some (hexEqualAnswer f (hexUV x y t).1 (hexUV x y t).2 t))
      | .ok none =>
        match (if f.c321 = 0 ∨ f.c312 = 0 then X.thm2 f else none) with
        | some C => .ok (some C)
        | none => .ok (hexStar f (X.star f))
  else .ok (hexStar f (X.star f))

/-- The trivial case and what follows (sextic.py 97-356). -/
def hexMain (X : SexticExt K) (f : Sextic K) : Except PyErr (Option (Cert K)) :=
  match rationalizeFunc (fun v => f.c330 * v ^ 2 - f.c411) (-1) (fun v => .ok (hexVValid f v)) (X.vCands f) with
  | .error e => .error e
  | .ok (some v) => hexTrivial f v
  | .ok none => hexEqual X f

/-- `_sos_struct_sextic_hexagram` (sextic.py 31-356). -/
def hexagramSolve (X : SexticExt K) (f : Sextic K) : Except PyErr (Option (Cert K)) :=
  if f.c330 < 0 ∨ f.c411 < 0 then .ok none
  else if f.c330 = 0 then
    let g : Cubic K := ⟨f.c411, f.c321, f.c312, f.c222⟩
    (cubicSolve (X.cubicRat g) (X.cubicUs g) g).map (Option.map (times prodA))
  else if f.c411 = 0 then
    let g : Cubic K := ⟨f.c330, f.c312, f.c321, f.c222⟩
    (cubicSolve (X.cubicRat g) (X.cubicUs g) g).map (Option.map (Cert.inv 0))
  else if f.c321 = f.c312 then
    match hexSym X.nd f with
    | .error e => .error e
    | .ok (some C) => .ok (some C)
    | .ok none => hexMain X f
  else hexMain X f

/-! ### The rotated tree -/

/-- The last weight of the rotated tree (sextic.py 457). -/
def Sextic.rtRem (f : Sextic K) : K := (f.c402 + f.c312 + f.c321) * 3 + f.c222

/-- `x_` (sextic.py 487, 492). -/
def rtX (u v y : K) : K := 1 - (y + 2) * (-u - v + 4 * y + 4) / (2 * (u + 4 * y + 6))

/-- `q1` (sextic.py 488, 493). -/
def rtQ (u v y : K) : K := v - (rtX u v y - 1) ^ 2 + 2 + 4 * y

/-- `p1` (sextic.py 495, 506). -/
def rtP (u y : K) : K := u + 2 - y ^ 2

/-- `n1` (sextic.py 496, 507). -/
def rtN (u v y : K) : K := 2 / (y + 2) * (rtX u v y - 1) * rtP u y

/-- The answer for `y_` (sextic.py 511-528).  A zero weight makes `sum_y_exprs` drop the second expression, which is `nan` for `p1 = 0`. -/
def rtSimple (f : Sextic K) (u v y : K) : Cert K :=
  let x := rtX u v y
  let p := rtP u y
  let q := rtQ u v y
  let n := rtN u v y
  ⟨[(f.c402, cyc3 fun a b c => a * (a ^ 2 * c - a * b ^ 2 + x * b * c ^ 2 + y * b ^ 2 * c - (x + y) * a * b * c) ^ 2),
    (p * f.c402, fun a b c => prodA a b c * cyc3 (fun a b c => a * b * (a - (-n / 2 / p) * b + (-n / 2 / p - 1) * c) ^ 2) a b c),
    ((if p ≠ 0 then q - n ^ 2 / 4 / p else q) * f.c402, fun a b c => prodA a b c * cyc3 (fun a b c => a * b * (b - c) ^ 2) a b c),
    ((if p ≠ 0 then 0 else n / 2) * f.c402, fun a b c => prodA a b c * cyc3 (fun a b c => a ^ 2 * (b - c) ^ 2) a b c),
    (f.rtRem, fun a b c => cycp3 (fun a _ _ => a ^ 2) a b c * sumA a b c)], sumA⟩

/-- The choice of `y_` (sextic.py 481-510): the first with `q1 >= 0` and `4*p1*q1 >= n1**2`.  A zero denominator makes the comparison raise. -/
def rtFind (u v : K) : List K → Except PyErr (Option K)
  | [] => .ok none
  | y :: l =>
    if u + 4 * y + 6 = 0 then .error .typeError
    else if 0 ≤ rtQ u v y then
      if y + 2 = 0 then .error .typeError
      else if rtN u v y ^ 2 ≤ 4 * rtP u y * rtQ u v y then .ok (some y) else rtFind u v l
    else rtFind u v l

/-- `_is_valid_x` (sextic.py 534-535). -/
def rtXValid (v x : K) : Bool := decide (1 ≤ x ∧ 0 ≤ v + 3 * x * (x - 1))

/-- `CyclicSum(a*b**2 + z*a*b*c)` (sextic.py 544). -/
def rtMult (z : K) : Val3 K := cyc3 fun a b c => a * b ^ 2 + z * a * b * c

/-- The last case (sextic.py 531-563). -/
def rtLast (X : SexticExt K) (f : Sextic K) (u v : K) : Except PyErr (Option (Cert K)) :=
  match rationalizeFunc (fun r => r ^ 3 - 3 * r - u) (-1) (fun x => .ok (rtXValid v x)) (X.treeX f) with
  | .error e => .error e
  | .ok none => .ok none
  | .ok (some x) =>
    match amgm (2, 0, 1) (1, 1, 1), amgm (2, 1, 0) (1, 1, 1) with
    | some A, some B =>
      let z := x * (x + 1) / 3
      .ok (some (over (((((times (fun a b c => prodA a b c * sumA a b c * rtMult z a b c) A).smul ((v + 3 * x * (x - 1)) * f.c402)).plus
          ((times (fun a b c => prodA a b c * sumA a b c * rtMult z a b c) B).smul ((u - (x ^ 3 - 3 * x)) * f.c402))).add f.c402
          (fun a b c => sumA a b c * cyc3 (fun a b c => a ^ 2 * c * (a ^ 2 * c - x * a * b ^ 2 - x * b * c ^ 2 + (x * x - 1) * b ^ 2 * c - x * (x - 2) * a * b * c) ^ 2) a b c)).add
          ((x + 1) / 2 * f.c402) (fun a b c => cycp3 (fun a _ _ => a ^ 2) a b c * cyc3 (fun a b c => ((x - 1) * a - b) ^ 2 * (a + (x - 1) * b - x * c) ^ 2) a b c) |>.add
          ((x + 1) * f.c402) (fun a b c => prodA a b c * cyc3 (fun a b c => c * ((x - 1) * a - b) ^ 2 * (x * a * b - a * c - (x - 1) * b * c) ^ 2) a b c) |>.add
          f.rtRem (fun a b c => cycp3 (fun a _ _ => a ^ 2) a b c * sumA a b c * rtMult z a b c))
        (fun a b c => rtMult z a b c * sumA a b c)))
    | _, _ => .error .typeError

/-- `_sos_struct_sextic_rotated_tree` (sextic.py 450-563), for `coeff((4,2,0)) == 0`. -/
def rtCore (X : SexticExt K) (f : Sextic K) : Except PyErr (Option (Cert K)) :=
  let u := f.c321 / f.c402
  let v := f.c312 / f.c402
  if f.c402 ≤ 0 ∨ f.c420 ≠ 0 ∨ u < -2 then .ok none
  else if 2 ≤ u ∧ -6 ≤ v then
    match amgm (2, 1, 0) (1, 1, 1), amgm (2, 0, 1) (1, 1, 1) with
    | some A, some B => .ok (some ((((times prodA A).smul ((u - 2) * f.c402)).plus ((times prodA B).smul ((v + 6) * f.c402))).add f.c402
        (fun a b c => cyc3 (fun a b c => a ^ 2 * c - a * b * c) a b c ^ 2) |>.add f.rtRem (cycp3 fun a _ _ => a ^ 2)))
    | _, _ => .error .typeError
  else if 0 ≤ u ∧ -2 ≤ v then
    match amgm (2, 1, 0) (1, 1, 1), amgm (2, 0, 1) (1, 1, 1) with
    | some A, some B => .ok (some ((((times prodA A).smul (u * f.c402)).plus ((times prodA B).smul ((v + 2) * f.c402))).add f.c402
        (cyc3 fun a b c => a ^ 2 * c ^ 2 * (a - b) ^ 2) |>.add f.rtRem (cycp3 fun a _ _ => a ^ 2)))
    | _, _ => .error .typeError
  else
    match rtFind u v (X.treeY f) with
    | .error e => .error e
    | .ok (some y) => .ok (some (rtSimple f u v y))
    | .ok none => rtLast X f u v

/-- `_sos_struct_sextic_rotated_tree` (sextic.py 420-563). -/
def rotatedTree (X : SexticExt K) (f : Sextic K) : Except PyErr (Option (Cert K)) :=
  if f.c420 ≠ 0 then (rtCore X f.reflect).map (Option.map Cert.reflect) else rtCore X f

/-! ### The hexagon -/

/-- `mapping` (sextic.py 642, 798). -/
def sqMap (x y : K) : Val3 K := fun a b c => cyc3 (fun a b c => x * a ^ 2 * b + y * a * b ^ 2 - (x + y) * a * b * c) a b c ^ 2

/-- `quadratic_weighting(c1, c2, c3, mapping)` as a sum of weighted expressions. -/
def qwTerms (c1 c2 c3 : K) : Option (List (K × Val3 K)) := (quadraticWeighting c1 c2 c3).map fun l => l.map fun w => (w.1, sqMap w.2.1 w.2.2)

/-- `p1` (sextic.py 624). -/
def Sextic.sdp1 (f : Sextic K) : K :=
  2 * f.c312 ^ 2 + 14 * f.c312 * f.c402 + 5 * f.c312 * f.c321 + 18 * f.c312 * f.c330 + 9 * f.c312 * f.c411 + 22 * f.c312 * f.c420 + 20 * f.c402 ^ 2 + 22 * f.c402 * f.c321 +
    72 * f.c402 * f.c330 + 36 * f.c402 * f.c411 + 104 * f.c402 * f.c420 + 2 * f.c321 ^ 2 + 18 * f.c321 * f.c330 + 9 * f.c321 * f.c411 + 14 * f.c321 * f.c420 + 27 * f.c330 ^ 2 +
    54 * f.c330 * f.c411 + 72 * f.c330 * f.c420 + 36 * f.c411 * f.c420 + 20 * f.c420 ^ 2

/-- `p3` (sextic.py 625). -/
def Sextic.sdp3 (f : Sextic K) : K := f.c312 + 4 * f.c402 + f.c321 + 3 * f.c330 + 3 * f.c411 + 4 * f.c420

/-- `p2` (sextic.py 626). -/
def Sextic.sdp2 (f : Sextic K) : K := 3 * f.sdp3 * (2 * f.c312 + 10 * f.c402 + f.c321 + 6 * f.c330 + 3 * f.c411 + 2 * f.c420) - f.sdp1

/-- `r`, `x`, `y` (sextic.py 631-633). -/
def Sextic.sdpR (f : Sextic K) : K := f.sdp1 ^ 2 / f.sdp2 / 54 / f.sdp3
/-- See `Sextic.sdpR`. -/
def Sextic.sdpX (f : Sextic K) : K := -9 * (f.c330 - f.c411) * f.sdp3 / f.sdp1 + 1
/-- See `Sextic.sdpR`. -/
def Sextic.sdpY (f : Sextic K) : K := -f.sdp2 / f.sdp1

/-- The expression of `solution` (sextic.py 646). -/
def sdpExpr (x y : K) : Val3 K := cyc3 fun a b c => (a ^ 2 * b - a * c ^ 2 - x * (a ^ 2 * b - b ^ 2 * c) + y * (a ^ 2 * c - a * b ^ 2)) ^ 2

/-- `_sos_struct_sextic_hexagon_sdp` (sextic.py 602-647).  `None + expression` raises. -/
def hexagonSdp (X : SexticExt K) (f : Sextic K) : Except PyErr (Option (Cert K)) :=
  if X.rational f = false ∨ f.poly111 < 0 then .ok none
  else if f.sdp1 = 0 ∨ f.sdp2 = 0 ∨ f.sdp3 = 0 then .ok none
  else
    let r := f.sdpR
    let x := f.sdpX
    let y := f.sdpY
    let q0 := f.c420 - 2 * r * (x ^ 2 - x + 1)
    let q1 := f.c402 - 2 * r * y ^ 2
    let q2 := f.c330 - 2 * r * y * (x - 2)
    if 0 ≤ q0 ∧ q2 ^ 2 ≤ q0 * q1 * 4 then
      match qwTerms q0 q2 q1 with
      | none => .error .typeError
      | some l => .ok (some (.plain ((r, sdpExpr x y) :: (f.poly111, cycp3 fun a _ _ => a ^ 2) :: l)))
    else .ok none

/-- `_compute_hexagram_discriminant` (sextic.py 736-753). -/
def hexDisc (z x y c33 : K) : K :=
  let z := z / c33
  let x := x / c33
  let y := y / c33
  let s1 := x + y
  let s2 := x * y
  let d := s1 ^ 2 + 9 * s1 - s2 + 27
  let e := s1 ^ 2 - s2
  let u := x + y + 3 * z + 3
  e * d ^ 3 + u * (-27 * e * d ^ 2) + u ^ 2 * (-e * d * (4 * s1 ^ 2 - 45 * s1 - 4 * s2 - 378)) +
    u ^ 3 * ((8 * s1 ^ 5 - 207 * s1 ^ 4 - 16 * s1 ^ 3 * s2 - 3051 * s1 ^ 3 + 234 * s1 ^ 2 * s2 - 9963 * s1 ^ 2 + 8 * s1 * s2 ^ 2 + 2970 * s1 * s2 - 729 * s1 - 27 * s2 ^ 2 + 9477 * s2) / 3) +
    u ^ 4 * ((10 * s1 ^ 4 + 351 * s1 ^ 3 - 20 * s1 ^ 2 * s2 + 1890 * s1 ^ 2 - 351 * s1 * s2 + 486 * s1 + 10 * s2 ^ 2 - 1728 * s2) / 3) +
    u ^ 5 * (-(16 * s1 ^ 3 + 207 * s1 ^ 2 - 16 * s1 * s2 + 189 * s1 - 171 * s2) / 3) + u ^ 6 * ((28 * s1 ^ 2 + 111 * s1 - 12 * s2 + 9) / 9) + u ^ 7 * (-(8 * s1 + 3) / 9) + u ^ 8 * (1 / 9)

/-- `_compute_subtracted_params` (sextic.py 734, 755-762). -/
def hexagonSub (f : Sextic K) (c3 : K) : Sextic K :=
  ⟨0, 0, 0, 0, f.c411 + c3, 0, f.c330 + c3, f.c321 + 6 * f.c420 - 2 * f.c402 - 3 * c3, f.c312 + 6 * f.c402 - 2 * f.c420 - 3 * c3, f.c222 - 9 * (f.c420 + f.c402) + 12 * c3⟩

/-- `_check_valid` (sextic.py 764-785). -/
def hexC3Valid (f : Sextic K) (c3 : K) : Bool :=
  if ¬ (0 ≤ c3 ∧ c3 ^ 2 ≤ 4 * f.c420 * f.c402) then false
  else
    let g := hexagonSub f c3
    if g.c411 < 0 ∨ g.c330 < 0 then false
    else if 0 ≤ g.c321 ∧ 0 ≤ g.c312 then true
    else if g.c411 = 0 ∧ g.c330 = 0 then false
    else
      let x := g.c321 / max g.c411 g.c330
      let y := g.c312 / max g.c411 g.c330
      if x ^ 2 * y ^ 2 + 18 * x * y - 4 * x ^ 3 - 4 * y ^ 3 - 27 ≤ 0 then true
      else if g.c411 = 0 ∨ g.c330 = 0 then false
      else decide (hexDisc g.c411 g.c321 g.c312 g.c330 ≤ 0)

/-- The value of `c3` (sextic.py 788-793). -/
def hexagonC3 (X : SexticExt K) (f : Sextic K) : Except PyErr (Option K) :=
  if f.c321 + 6 * f.c420 - 2 * f.c402 = -3 * f.c330 ∧ f.c312 + 6 * f.c402 - 2 * f.c420 = -3 * f.c330 then .ok (some (-f.c330))
  else rationalizeFunc (fun u => u ^ 2 - 4 * f.c420 * f.c402) (-1) (fun c3 => .ok (hexC3Valid f c3)) (X.c3Cands f)

/-- `_sos_struct_sextic_hexagon_to_hexagram` (sextic.py 720-800). -/
def hexagonToHexagram (X : SexticExt K) (f : Sextic K) : Except PyErr (Option (Cert K)) :=
  if f.c420 < 0 ∨ f.c402 < 0 ∨ (f.c330 < 0 ∧ 4 * f.c420 * f.c402 < f.c330 ^ 2) ∨ (f.c411 < 0 ∧ 4 * f.c420 * f.c402 < f.c411 ^ 2) then .ok none
  else
    match hexagonC3 X f with
    | .error e => .error e
    | .ok none => .ok none
    | .ok (some c3) =>
      match hexagramSolve X (hexagonSub f c3) with
      | .error e => .error e
      | .ok none => .ok none
      | .ok (some C) =>
        match qwTerms f.c420 (-c3) f.c402 with
        | none => .error .typeError
        | some l => .ok (some ((Cert.plain l).plus C))

/-- `_sos_struct_sextic_hexagon_sdp2` (sextic.py 650-718): nothing is returned. -/
def hexagonSdp2 (_ : Sextic K) : Except PyErr (Option (Cert K)) := .ok none

/-- `for solver in solvers` (sextic.py 414-417). -/
def firstOf (f : Sextic K) : List (Sextic K → Except PyErr (Option (Cert K))) → Except PyErr (Option (Cert K))
  | [] => .ok none
  | s :: l =>
    match s f with
    | .error e => .error e
    | .ok (some C) => .ok (some C)
    | .ok none => firstOf f l

/-- `_sos_struct_sextic_hexagon` (sextic.py 359-417). -/
def hexagonSolve (X : SexticExt K) (real : Bool) (f : Sextic K) : Except PyErr (Option (Cert K)) :=
  if ¬ (f.c600 = 0 ∧ f.c510 = 0 ∧ f.c501 = 0) then .ok none
  else if f.c420 = f.c402 ∧ f.c321 = f.c312 then X.hexagonSym f
  else if f.c420 = 0 ∧ f.c402 = 0 then hexagramSolve X f
  else if (f.c420 = 0 ∨ f.c402 = 0) ∧ f.c330 = 0 ∧ f.c411 = 0 then rotatedTree X f
  else
    firstOf f (if 0 < f.c420 ∧ 0 < f.c402 ∧ max (f.c330 ^ 2) (f.c411 ^ 2) ≤ 4 * f.c420 * f.c402 then
        if real then [hexagonSdp X, hexagonSdp2, hexagonToHexagram X] else [hexagonSdp X, hexagonToHexagram X, hexagonSdp2]
      else [hexagonToHexagram X])

/-! ### The full sextic -/

/-- `quad_form` (sextic.py 871-875). -/
def fullMat0 (f : Sextic K) : ℕ → ℕ → K
  | 0, 0 => f.c600
  | 0, 1 => f.c510 / 2
  | 1, 0 => f.c510 / 2
  | 0, 2 => f.c501 / 2
  | 2, 0 => f.c501 / 2
  | 1, 1 => f.c420 - f.c501
  | 1, 2 => f.c330 / 2 - f.c600
  | 2, 1 => f.c330 / 2 - f.c600
  | 2, 2 => f.c402 - f.c510
  | _, _ => 0

/-- `_compute_quad_form_sol` (sextic.py 852-860).  Unpacking `None` raises. -/
def fullQuad (M : ℕ → ℕ → K) : Except PyErr (List (K × Val3 K)) :=
  match congruence 3 M with
  | .error e => .error e
  | .ok none => .error .typeError
  | .ok (some (U, S)) => .ok [
      (S 0, fun a b c => cyc3 (fun a b c => U 0 0 * (a ^ 3 - a * b * c) + U 0 1 * (a ^ 2 * b - a * b * c) + U 0 2 * (a * b ^ 2 - a * b * c)) a b c ^ 2),
      (S 1, fun a b c => cyc3 (fun a b c => U 1 1 * (a ^ 2 * b - a * b * c) + U 1 2 * (a * b ^ 2 - a * b * c)) a b c ^ 2),
      (S 2, fun a b c => cyc3 (fun a b c => U 2 2 * (a * b ^ 2 - a * b * c)) a b c ^ 2)]

/-- `rest_form` (sextic.py 864-868). -/
def Sextic.rest0 (f : Sextic K) : K := f.c411 + 3 * f.c501 - f.c330 + 3 * f.c510 + 8 * f.c600
/-- See `Sextic.rest0`. -/
def Sextic.rest1 (f : Sextic K) : K := f.c321 + -6 * f.c501 - 2 * f.c402 + 3 * f.c330 + 6 * f.c420 + 4 * f.c510 - 6 * f.c600
/-- See `Sextic.rest0`. -/
def Sextic.rest2 (f : Sextic K) : K := f.c312 + 4 * f.c501 + 6 * f.c402 + 3 * f.c330 - 2 * f.c420 - 6 * f.c510 - 6 * f.c600

/-- `r`, `u`, `v` as functions of `x`, `y` (sextic.py 880-904): `none` if the case is not implemented, an error if a denominator is zero. -/
def fullPars (X : SexticExt K) (f : Sextic K) : Except PyErr (Option (K × (K → K → K) × (K → K → K))) :=
  if f.rest0 ≠ 0 then
    let r1 := f.rest1 / f.rest0
    let r2 := f.rest2 / f.rest0
    let denom := (r1 + 2 * r2 + 9 / 2) ^ 2 + 27 / 4
    if r1 + r2 + 3 = 0 then .error (X.zooErr f)
    else .ok (some (f.rest0 / (54 * (r1 + r2 + 3) / denom),
      fun x y => ((2 * r1 ^ 2 + 5 * r1 * r2 + 9 * r1 + 2 * r2 ^ 2 + 9 * r2) * x + (2 * r1 ^ 2 + 5 * r1 * r2 + 18 * r1 + 2 * r2 ^ 2 + 18 * r2 + 27) * y +
        (-4 * r1 ^ 2 - 13 * r1 * r2 - 18 * r1 - 10 * r2 ^ 2 - 36 * r2 - 27)) / denom,
      fun x y => ((9 * r1 + 9 * r2 + 27) * x + (-2 * r1 ^ 2 - 5 * r1 * r2 - 9 * r1 - 2 * r2 ^ 2 - 9 * r2) * y +
        (-r1 ^ 2 - r1 * r2 - 18 * r1 + 2 * r2 ^ 2 - 9 * r2 - 27)) / denom))
  else if f.rest1 ≠ 0 then
    let r1 := f.rest2 / f.rest1
    let denom := 2 * r1 + 1
    if r1 + 1 = 0 ∨ denom = 0 then .error (X.zooErr f)
    else .ok (some (f.rest1 * denom ^ 2 / (54 * (r1 + 1)),
      fun x y => ((r1 + 2) * x + (r1 + 2) * y + (-5 * r1 - 4)) / denom,
      fun _ y => ((-r1 - 2) * y + (r1 - 1)) / denom))
  else .ok none

/-- `z` (sextic.py 906). -/
def fullZ (x y : K) : K := x ^ 2 + x * (y - 3) + y ^ 2 + 3

/-- `quad_form` at `(x, y)`, made symmetric (sextic.py 910-914, 960 without the division). -/
def fullMat (f : Sextic K) (r u v x y : K) : ℕ → ℕ → K
  | 0, 0 => f.c600 * fullZ x y - 2 * r
  | 0, 1 => f.c510 / 2 * fullZ x y - r * (u - v)
  | 1, 0 => f.c510 / 2 * fullZ x y - r * (u - v)
  | 0, 2 => f.c501 / 2 * fullZ x y - r * (y - x)
  | 2, 0 => f.c501 / 2 * fullZ x y - r * (y - x)
  | 1, 1 => (f.c420 - f.c501) * fullZ x y - r * (2 * u ^ 2 + 2 * u * v + 2 * v ^ 2 + 6 * x)
  | 1, 2 => (f.c330 / 2 - f.c600) * fullZ x y - r * (2 * u * x - 2 * u * y - 2 * v * x - 4 * v * y - 6) / 2
  | 2, 1 => (f.c330 / 2 - f.c600) * fullZ x y - r * (2 * u * x - 2 * u * y - 2 * v * x - 4 * v * y - 6) / 2
  | 2, 2 => (f.c402 - f.c510) * fullZ x y - r * (-6 * u + 2 * x ^ 2 + 2 * x * y + 2 * y ^ 2)
  | _, _ => 0

/-- `quad_form_det(x, y, i) >= 0` for `i` = 1, 2, 3 (sextic.py 916-924, 934, 951). -/
def minorsOk (M : ℕ → ℕ → K) : Bool :=
  decide (0 ≤ M 0 0) && decide (0 ≤ M 0 0 * M 1 1 - M 1 0 ^ 2) &&
    decide (0 ≤ M 0 0 * M 1 1 * M 2 2 + 2 * M 1 0 * M 2 1 * M 2 0 - M 0 0 * M 2 1 ^ 2 - M 2 2 * M 1 0 ^ 2 - M 1 1 * M 2 0 ^ 2)

/-- The expression of `main_sol` (sextic.py 965). -/
def fullExpr (u v x y : K) : Val3 K := cyc3 fun a b c =>
  (a ^ 3 + a ^ 2 * b * u + a ^ 2 * c * y + a * b ^ 2 * x + a * c ^ 2 * (-u - v) - b ^ 3 + b ^ 2 * c * v + b * c ^ 2 * (-x - y)) ^ 2

/-- `_sos_struct_sextic_full_sdp` (sextic.py 803-966).  For `z_ = 0` the matrix (960) has infinite entries. -/
def fullSdp (X : SexticExt K) (f : Sextic K) : Except PyErr (Option (Cert K)) :=
  if X.rational f = false ∨ f.c600 < 0 ∨ f.poly111 ≠ 0 then .ok none
  else if f.rest0 = 0 ∧ f.rest1 = 0 ∧ f.rest2 = 0 then (fullQuad (fullMat0 f)).map fun l => some (.plain l)
  else
    match fullPars X f with
    | .error e => .error e
    | .ok none => .ok none
    | .ok (some (r, u, v)) =>
      match (X.full f).find? fun p => minorsOk (fullMat f r (u p.1 p.2) (v p.1 p.2) p.1 p.2) with
      | none => .ok none
      | some (x, y) =>
        if fullZ x y = 0 then .error (X.zooErr f)
        else (fullQuad fun i j => fullMat f r (u x y) (v x y) x y i j / fullZ x y).map fun l =>
          some (.plain ((r / fullZ x y, fullExpr (u x y) (v x y) x y) :: l))

/-- `sos_struct_sextic` (sextic.py 18-28). -/
def sexticSolve (X : SexticExt K) (real : Bool) (f : Sextic K) : Except PyErr (Option (Cert K)) :=
  if f.c510 = f.c501 ∧ f.c420 = f.c402 ∧ f.c321 = f.c312 then X.ultimate f
  else if f.c600 = 0 ∧ f.c510 = 0 ∧ f.c501 = 0 then hexagonSolve X real f
  else if f.c600 ≠ 0 then fullSdp X f
  else .ok none

end Verif.Ternary
