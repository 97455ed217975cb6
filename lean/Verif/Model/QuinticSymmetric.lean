import Verif.Model.SepticSymmetric

/-!
# Symmetric ternary quintic solver

Model of `triples/core/structsos/ternary/quintic_symmetric.py`.  Conventions as in `TernarySeptic`: `radsimp`, `expand`, `together` and `as_coeff_Mul` do not
change a value, floats are numbers of the field, and what root searches and roundings return is a parameter.
-/

namespace Verif.Ternary

open Verif Verif.Acute

variable {K : Type*} [Field K] [LinearOrder K]

/-- The coefficients of a cyclic quintic. -/
structure Quintic (K : Type*) where
  c500 : K
  c410 : K
  c320 : K
  c230 : K
  c140 : K
  c311 : K
  c221 : K

/-- The numbers read by the solver (quintic_symmetric.py 75-89, 154-159). -/
def Quintic.ofCoeff (c : Coeff K) : Quintic K :=
  ⟨c.call [5, 0, 0], c.call [4, 1, 0], c.call [3, 2, 0], c.call [2, 3, 0], c.call [1, 4, 0], c.call [3, 1, 1], c.call [2, 2, 1]⟩

/-- `sum_y_exprs` (structsos/utils.py 91-99): a term of weight zero is dropped. -/
def sumY (l : List (K × Val3 K)) : List (K × Val3 K) := l.filter fun t => decide (t.1 ≠ 0)

/-- `CyclicSum((a-b)**2)`. -/
def sd3 : Val3 K := cyc3 fun a b _ => (a - b) ^ 2

/-- `CyclicSum(a*b)`. -/
def sab3 : Val3 K := cyc3 fun a b _ => a * b

/-- `CyclicSum((a-b)**2)/2`, the multiplier (quintic_symmetric.py 254, 319, 356, 384). -/
def halfSd : Val3 K := fun a b c => sd3 a b c / 2

/-- `CyclicSum((a+b+k*c)*(a-b)**2*(a+b-t*c)**2)`. -/
def tgt (k t : K) : Val3 K := cyc3 fun a b c => (a + b + k * c) * (a - b) ^ 2 * (a + b - t * c) ^ 2

/-- `CyclicSum(c*(a-b)**2*(a+b-t*c)**2)`. -/
def tgc (t : K) : Val3 K := cyc3 fun a b c => c * (a - b) ^ 2 * (a + b - t * c) ^ 2

/-- The last expression of most answers, `CyclicProduct(a) * CyclicSum(a*b)`. -/
def tail5 : Val3 K := fun a b c => prodA a b c * sab3 a b c

/-! ### `_sos_struct_quintic_symmetric_hexagon` -/

/-- The first list of weights (quintic_symmetric.py 667-672). -/
def hexFirst (m u v rem : K) : List (K × Val3 K) := [
  (m, cyc3 fun a b c => a * (b - c) ^ 4),
  (u, cyc3 fun a b c => a ^ 3 * (b - c) ^ 2),
  (m * 4 + u + v / 2, fun a b c => prodA a b c * sd3 a b c),
  (rem, tail5)]

/-- The third case (quintic_symmetric.py 703-722); `u, v` are normalised.  For `u = 0` or `k = -2` a quotient is `zoo` or `nan` and its comparison raises
`TypeError`; `x2 = 0` makes `w2` a `zoo`, which is not compared. -/
def hexThird (m u v rem : K) : Except PyErr (Option (Cert K)) :=
  if (2 * u + v) ^ 2 + 8 * v ≤ 0 then
    if u = 0 then .error .typeError
    else
      let k := (v + 8) / u
      if k + 2 = 0 then .error .typeError
      else
        let t2 := -4 / (k + 2)
        let x2 := t2 ^ 2 - 2 * t2
        let w2 := u / x2
        let w1 := 1 - w2
        if x2 ≠ 0 ∧ 0 ≤ w1 ∧ w1 ≤ 1 then
          .ok (some (.plain (sumY [
            (w1 * m, cyc3 fun a b c => a * (b - c) ^ 4),
            (w2 * m, cyc3 fun a b c => a * (b - c) ^ 2 * (b + c - t2 * a) ^ 2),
            (rem, tail5)])))
        else .ok none
  else .ok none

/-- `_sos_struct_quintic_symmetric_hexagon` (quintic_symmetric.py 632-724); what follows the `return None` of line 724 is never run. -/
def quinHexagon (m u v w : K) : Except PyErr (Option (Cert K)) :=
  if m < 0 then .ok none
  else
    let rem := (m + u) * 2 + v + w
    if rem < 0 then .ok none
    else if ∀ t ∈ hexFirst m u v rem, 0 ≤ t.1 then .ok (some (.plain (sumY (hexFirst m u v rem))))
    else if m = 0 then .ok none
    else if -1 ≤ u / m ∧ -2 ≤ v / m then
      .ok (some (.plain (sumY [
        (m, cyc3 fun a b c => a * (b - c) ^ 2 * (b + c - a) ^ 2),
        ((u / m + 1) * m, cyc3 fun a b c => a ^ 3 * (b - c) ^ 2),
        ((v / m + 2 * (u / m) + 4) * m / 2, fun a b c => prodA a b c * sd3 a b c),
        (rem, tail5)])))
    else hexThird m (u / m) (v / m) rem

/-! ### What the solver gets from elsewhere -/

/-- Calls into other files; `z u v` are the normalised coefficients. -/
structure QuinticExt (K : Type*) where
  /-- `coeff.is_rational`. -/
  rational : Bool
  /-- The root of `gcd(det1, det1.diff())` when it is linear (quintic_symmetric.py 117-119). -/
  gcd1 : K → K → K → Option K
  /-- The right ends of the intervals but the last (126-129). -/
  ivs : K → K → K → List K
  /-- The roots of `det1`, each with the values of `rationalize_bound` (136-141). -/
  nrs : K → K → K → List (K × List K)
  /-- `sos_struct_quartic` (457). -/
  quart : Quartic K → Except PyErr (Option (Cert K))
  /-- The roots of `eqt1` (408). -/
  roots : K → K → List K
  /-- `isinstance(u_, sp.Rational)` (439, 531, 566). -/
  isRat : K → Bool
  /-- `.n(20)` of both numbers (440, 532). -/
  approx : K × K → K × K
  /-- The pairs of roundings tried (441-442, 533-534). -/
  rounds : K × K → List (K × K)
  /-- The root of `gcd(sym, sym.diff(a))` when it is linear (467-472). -/
  dbl : K → K → K → Option K
  /-- `sp.sqrtdenest(sp.sqrt(x))` (480); comparing a complex number raises `TypeError` (482). -/
  sqrt : K → Except PyErr K
  /-- `rationalize_bound(w_lower_bound, direction = 1, compulsory = True)` (522). -/
  bound : K → List K
  /-- `rationalize_bound(t_, direction = direction, compulsory = True)` (567-568). -/
  boundT : K → Bool → List K

/-! ### Subtracting squares first -/

/-- `_criterion` (quintic_symmetric.py 96-108). -/
def criterion (z u v x : K) : Option K :=
  let den := 2 * (-4 * u - v + 4 * x ^ 2 - 8 * x - 8 * z - 4)
  if den = 0 then none
  else
    let y := -(x - 1) * (-2 * u - v + 4 * x ^ 2 - 12 * x - 8 * z - 2) / den
    let z2 := 2 * x - y ^ 2 + z
    if z2 < 0 then none
    else
      let u2 := u - x ^ 2 - 2 * x * y + 2 * y
      let v2 := v - 2 * x ^ 2 + 8 * x * y - 4 * x + 8 * y ^ 2 - 8 * y + 2
      if (0 < z2 ∧ (2 * u2 + v2) ^ 2 + 8 * v2 * z2 ≤ 0) ∨ (z2 = 0 ∧ 0 ≤ u2 ∧ 0 ≤ 2 * u2 + v2) then some y else none

/-- The first number that passes `_criterion`, with its `y`. -/
def firstX (z u v : K) : List K → Option (K × K)
  | [] => none
  | x :: l =>
    match criterion z u v x with
    | some y => some (x, y)
    | none => firstX z u v l

/-- The loop for irrational coefficients (quintic_symmetric.py 136-148). -/
def firstXs (z u v : K) : List (K × List K) → Option (K × K)
  | [] => none
  | x :: l =>
    match criterion z u v x.1 with
    | none => firstXs z u v l
    | some _ =>
      match firstX z u v x.2 with
      | some p => some p
      | none => firstXs z u v l

/-- `x_, y_` (quintic_symmetric.py 115-148). -/
def findX (X : QuinticExt K) (z u v : K) : Option (K × K) :=
  match firstX z u v (X.gcd1 z u v).toList with
  | some p => some p
  | none => if X.rational then firstX z u v (X.ivs z u v) else firstXs z u v (X.nrs z u v)

/-- The square subtracted for `x_, y_` (quintic_symmetric.py 162-164). -/
def firstSq (x y : K) : Val3 K := cyc3 fun a b c => a * (a ^ 2 - x * a * b - x * a * c - y * b ^ 2 - y * c ^ 2 + (2 * x + 2 * y - 1) * b * c) ^ 2

/-- The answer for `x_, y_` (quintic_symmetric.py 150-165); `w` is the coefficient of `a^2 b^2 c`. -/
def firstAns (m z u v w : K) (p : K × K) : Except PyErr (Option (Cert K)) :=
  let x := p.1
  let y := p.2
  match quinHexagon (m * (2 * x - y ^ 2 + z)) (m * (u - x ^ 2 - 2 * x * y + 2 * y)) (m * (v - 2 * x ^ 2 + 8 * x * y - 4 * x + 8 * y ^ 2 - 8 * y + 2))
      (w + m * (4 * x ^ 2 - 4 * x * y - 6 * y ^ 2 + 4 * y - 1)) with
  | .error e => .error e
  | .ok none => .ok none
  | .ok (some C) => .ok (some (C.add m (firstSq x y)))

/-! ### `z >= -1` -/

/-- The case above the leftmost point of the curve (quintic_symmetric.py 169-191). -/
def upTriv (m z u v rem : K) : Except PyErr (Option (Cert K)) :=
  let l : List (K × Val3 K) := [
    (if 0 ≤ 2 * z + 1 then m / 2 else 0, tgt (2 * z + 1) 1),
    (if 2 * z + 1 < 0 then m * (z + 1) else 0, tgc 1),
    ((u + 1 + z) * m, cyc3 fun a b c => a ^ 3 * (b - c) ^ 2),
    ((v + 3 + 4 * z + 2 * u) * m / 2, fun a b c => prodA a b c * sd3 a b c),
    (rem, tail5)]
  if 2 * z + 1 < 0 then
    match schur 5 with
    | none => .error .typeError
    | some S => .ok (some ((S.smul m).plus (.plain (sumY l))))
  else .ok (some (.plain (sumY l)))

/-- The weights of the second trivial case (quintic_symmetric.py 193-211). -/
def upSecond (m z u v rem : K) : List (K × Val3 K) :=
  let c1 := m * u - m * (z + 1) * (4 * z ^ 2 + 8 * z - 23) / 27
  [(m / 2, tgt ((2 * z - 1) / 3) (-((2 * z - 1) / 3))),
    (c1, cyc3 fun a b c => a ^ 3 * (b - c) ^ 2),
    ((m * v + 2 * c1 + m * (2 * z - 1) ^ 3 / 27) / 2, fun a b c => prodA a b c * sd3 a b c),
    (rem, tail5)]

/-- The denominator of `t2` (quintic_symmetric.py 230, 331). -/
def secDen (z u v : K) : K := -6 * u - 3 * v + 4 * z ^ 2 - 4 * z - 5

/-- `t2` (quintic_symmetric.py 230, 331). -/
def secT (z u v : K) : K := -(2 * u * z - u + v * z + 4 * v + 2 * z - 1) / secDen z u v

/-- The second coordinate of the point `t` of the curve (quintic_symmetric.py 231-232, 337). -/
def curveV (z t : K) : K := -t ^ 2 * (2 * t + 2 * z - 1)

/-- The first coordinate of the point `t` of the curve (quintic_symmetric.py 334). -/
def curveU (z t : K) : K := t ^ 3 + t ^ 2 * z - 2 * t ^ 2 - 2 * t * z + t - 1

/-- The answer without multiplier (quintic_symmetric.py 239-250). -/
def secPlain (m z t1 t2 w1 rem : K) : Cert K := .plain (sumY [
  (w1 * m / 2, tgt (2 * z - 1 + 2 * t1) t1),
  ((1 - w1) * m / 2, tgt (2 * z - 1 + 2 * t2) t2),
  (rem, tail5)])

/-- `CyclicSum(a*(a-b)*(a-c)) * CyclicSum((b-c)**2*(b+c-t*a)**2)`. -/
def schurTimes (t : K) : Val3 K := fun a b c => cyc3 (fun a b c => a * (a - b) * (a - c)) a b c * cyc3 (fun a b c => (b - c) ^ 2 * (b + c - t * a) ^ 2) a b c

/-- The answer of higher degree for `y2 <= 0` (quintic_symmetric.py 255-273). -/
def secHigh (m z t1 t2 w1 rem : K) : Cert K := over (.plain (sumY [
  (w1 * m / 2, schurTimes t1),
  (w1 * m * (2 - t1) * (t1 + 1), fun a b c => sumA a b c * discV3 a b c),
  (w1 * m * (z + t1) / 2, fun a b c => sd3 a b c * tgc t1 a b c),
  ((1 - w1) * m / 4, fun a b c => sd3 a b c * tgt (2 * z - 1 + 2 * t2) t2 a b c),
  (rem / 2, fun a b c => sd3 a b c * tail5 a b c)])) halfSd

/-- The answer of higher degree for `y2 > 0` (quintic_symmetric.py 274-291). -/
def secHigher (m z t1 t2 w1 rem : K) : Cert K := over (.plain (sumY [
  (w1 * m / 2, schurTimes t1),
  ((1 - w1) * m / 2, schurTimes t2),
  ((w1 * (2 - t1) * (t1 + 1) + (1 - w1) * (2 - t2) * (t2 + 1)) * m, fun a b c => sumA a b c * discV3 a b c),
  (w1 * m * (z + t1) / 2, fun a b c => sd3 a b c * tgc t1 a b c),
  ((1 - w1) * m * (z + t2) / 2, fun a b c => sd3 a b c * tgc t2 a b c),
  (rem / 2, fun a b c => sd3 a b c * tail5 a b c)])) halfSd

/-- The secant method (quintic_symmetric.py 229-297).  `secDen = 0` makes `t2` and `w1` not numbers, and `0 <= w1` raises `TypeError`. -/
def secant (m z u v rem : K) : Except PyErr (Option (Cert K)) :=
  if secDen z u v = 0 then .error .typeError
  else
    let t1 := (1 - 2 * z) / 3
    let t2 := secT z u v
    let y1 := curveV z t1
    let y2 := curveV z t2
    let w1 := (v - y2) / (y1 - y2)
    if y1 ≠ y2 ∧ 0 ≤ w1 ∧ w1 ≤ 1 then
      if (w1 = 0 ∧ y2 ≤ 0) ∨ (y1 ≤ 0 ∧ y2 ≤ 0) then .ok (some (secPlain m z t1 t2 w1 rem))
      else if y2 ≤ 0 then .ok (some (secHigh m z t1 t2 w1 rem))
      else .ok (some (secHigher m z t1 t2 w1 rem))
    else .ok none

/-- The branch `z >= -1` (quintic_symmetric.py 168-297). -/
def quinUp (m z u v rem : K) : Except PyErr (Option (Cert K)) :=
  if 0 ≤ u + 1 + z ∧ 0 ≤ v + 3 + 4 * z + 2 * u then upTriv m z u v rem
  else if ∀ t ∈ upSecond m z u v rem, 0 ≤ t.1 then .ok (some (.plain (sumY (upSecond m z u v rem))))
  else secant m z u v rem

/-! ### `-3 <= z <= -1` -/

/-- `CyclicSum(c*(a-c)**2*(b-c)**2*((1-t)*(a+b) + 2*c)**2)`. -/
def midSq (t : K) : Val3 K := cyc3 fun a b c => c * (a - c) ^ 2 * (b - c) ^ 2 * ((1 - t) * (a + b) + 2 * c) ^ 2

/-- The weights of the trivial case (quintic_symmetric.py 311-326). -/
def midTriv (m z u v rem : K) : List (K × Val3 K) := [
  (m / 4, cyc3 fun a b c => c * (a - c) ^ 2 * (b - c) ^ 2 * ((z + 1) * (a + b) + 2 * c) ^ 2),
  ((3 + z) * (1 - z) * m / 4, fun a b c => sumA a b c * discV3 a b c),
  ((u + z + 1) * m / 2, fun a b c => sd3 a b c * cyc3 (fun a b c => a ^ 3 * (b - c) ^ 2) a b c),
  ((v - z ^ 2 + 2 * (u + z + 1)) * m / 4, fun a b c => prodA a b c * sd3 a b c ^ 2),
  (rem / 2, fun a b c => sd3 a b c * tail5 a b c)]

/-- The denominator of `w1` (quintic_symmetric.py 343), with `u3 = 1` and `v3 = -2`. -/
def baryDen (z t2 : K) : K := (-z - 1) * -2 - curveU z t2 * -2 - z ^ 2 + curveV z t2

/-- `w1` (quintic_symmetric.py 343). -/
def baryW (z u v t2 : K) : K := (u * -2 - curveU z t2 * -2 - v + curveV z t2) / baryDen z t2

/-- The weights of the barycentric case (quintic_symmetric.py 345-364). -/
def midBary (m z u t2 w1 rem : K) : List (K × Val3 K) := [
  (w1 * m / 4, midSq (-z)),
  ((1 - w1) * m / 4, midSq t2),
  ((w1 * (3 + z) * (1 - z) + (1 - w1) * (3 - t2) * (1 + t2)) * m / 4, fun a b c => sumA a b c * discV3 a b c),
  ((1 - w1) * (z + t2) * m / 2, fun a b c => sd3 a b c * tgc t2 a b c),
  ((u - w1 * (-z - 1) - (1 - w1) * curveU z t2) * m / 2, fun a b c => sd3 a b c * cyc3 (fun a b c => a ^ 3 * (b - c) ^ 2) a b c),
  (rem / 2, fun a b c => prodA a b c * sd3 a b c * sab3 a b c)]

/-- The branch `-3 <= z <= -1` (quintic_symmetric.py 299-367).  When a quotient has denominator zero, `w1` is not a number and its comparison raises
`TypeError`. -/
def quinMid (m z u v rem : K) : Except PyErr (Option (Cert K)) :=
  if ∀ t ∈ midTriv m z u v rem, 0 ≤ t.1 then .ok (some (over (.plain (sumY (midTriv m z u v rem))) halfSd))
  else if secDen z u v = 0 then .error .typeError
  else
    let t2 := secT z u v
    if baryDen z t2 = 0 then .error .typeError
    else
      let l := midBary m z u t2 (baryW z u v t2) rem
      if ∀ t ∈ l, 0 ≤ t.1 then .ok (some (over (.plain (sumY l)) halfSd)) else .ok none

/-! ### `z < -3` -/

/-- `du` (quintic_symmetric.py 371). -/
def duOf (z u : K) : K := u - (z ^ 2 + 2 * z + 5) / 4

/-- The list of the trivial case (quintic_symmetric.py 377-390). -/
def lowTriv (m z u v rem : K) : List (K × Val3 K) := [
  (m, cyc3 fun a b c => c * (a ^ 2 * c + b ^ 2 * c + c ^ 3 - (1 - z) / 2 * a * c ^ 2 - (1 - z) / 2 * b * c ^ 2 - (2 * z + 3) * a * b * c + (z + 1) / 2 * a ^ 2 * b +
    (z + 1) / 2 * a * b ^ 2) ^ 2),
  (m * duOf z u / 2, fun a b c => cyc3 (fun a b c => c ^ 3 * (a - b) ^ 2) a b c * sd3 a b c),
  (m * (v - (z ^ 2 - 6 * z - 9) / 2 + 2 * duOf z u) / 4, fun a b c => sd3 a b c ^ 2 * prodA a b c),
  (rem / 2, fun a b c => sd3 a b c * tail5 a b c)]

/-- `eqt1` (quintic_symmetric.py 404). -/
def eqt1 (z u t : K) : K :=
  27 * t ^ 6 + 36 * t ^ 5 * z - 18 * t ^ 5 - 48 * t ^ 4 * z + 69 * t ^ 4 + 24 * t ^ 3 * z - 92 * t ^ 3 - 48 * t ^ 2 * z + 69 * t ^ 2 + 36 * t * z - 18 * t + 27 - u * (64 * t ^ 3)

/-- `eqt2` (quintic_symmetric.py 405). -/
def eqt2 (z v t : K) : K :=
  -27 * t ^ 6 - 36 * t ^ 5 * z - 36 * t ^ 5 - 48 * t ^ 4 * z - 93 * t ^ 4 - 88 * t ^ 3 * z - 72 * t ^ 3 - 48 * t ^ 2 * z - 93 * t ^ 2 - 36 * t * z - 36 * t - 27 - v * (32 * t ^ 3)

/-- `w0` (quintic_symmetric.py 435, 514, 599). -/
def lowW0 (u : K) : K := (3 - u) / (4 * u)

/-- `w1` (quintic_symmetric.py 435, 514, 599). -/
def lowW1 (u : K) : K := 9 * (u - 1) ^ 2 * (u + 1) * (u + 3) / (32 * u ^ 3)

/-- `w_` (quintic_symmetric.py 513, 575). -/
def lowW (u : K) : K := (3 * u ^ 3 + u ^ 2 + 9 * u - 9) / (4 * u ^ 2)

/-- The value of a solution. -/
def Cert.val (E : Cert K) : Val3 K := fun a b c => (E.terms.map fun t => t.1 * t.2 a b c).sum / E.den a b c

/-- `_compute_mpnq_discriminant` (quintic_symmetric.py 418-424) without the discriminant. -/
def aQuartic (r v x y : K) : Quartic K :=
  let m := -2 * r ^ 2 - 8 * r * y ^ 2 - 4 * r * y + v - 4 * x * y + 4 * x + 9 * y ^ 2 + 6 * y + 3
  let p := 2 * r ^ 2 * y ^ 2 + r ^ 2 - 4 * r * x - 4 * r * y ^ 2 - 20 * r * y + 6 * r + v * y ^ 2 + 2 * v * y - 2 * v - x ^ 2 + 10 * x * y - 4 * x + 3 * y ^ 2 + 24 * y - 9
  let n := -2 * r ^ 2 * y ^ 2 + 12 * r ^ 2 * y - 12 * r * x * y + 4 * r * x + 8 * r * y ^ 2 - 8 * r * y - 12 * r - v * y ^ 2 - 2 * v * y + 3 * v - 2 * x ^ 2 + 4 * x * y + 8 * x -
    9 * y ^ 2 - 6 * y + 15
  ⟨m, p, n, p, -m - p * 2 - n⟩

/-- `_verify_xy` of case a (quintic_symmetric.py 425-431). -/
def aVerify (r v : K) (p : K × K) : Prop :=
  ¬ (-2 < p.2 ∧ p.2 < 0) ∧
    let q := aQuartic r v p.1 p.2
    (0 < q.m ∧ 0 ≤ 3 * q.m * (q.m + q.n) - 3 * q.p ^ 2) ∨ (q.m = 0 ∧ 0 ≤ 2 * q.p + q.n)

instance (r v : K) (p : K × K) : Decidable (aVerify r v p) := by unfold aVerify; infer_instance

/-- `func_g` of case a (quintic_symmetric.py 448). -/
def aFunc (r x y : K) : Val3 K := fun a b c =>
  (c ^ 2 - r * b * c + b ^ 2 - (2 - r) * a * b) * (c + y * b) + (c ^ 2 - r * a * c + a ^ 2 - (2 - r) * a * b) * (c + y * a) - c ^ 3 + a * b * c +
    x * (a ^ 2 * b + a * b ^ 2 - 2 * a * b * c)

/-- The pair used in case a (quintic_symmetric.py 439-445). -/
def aPick (X : QuinticExt K) (r v u0 : K) (p : K × K) : K × K :=
  if X.isRat u0 then p else ((X.rounds (X.approx p)).find? fun q => decide (aVerify r v q)).getD (X.approx p)

/-- Case a after the choice of the pair (quintic_symmetric.py 447-459).  A missing `multiplier` or `quartic_solution` raises `TypeError`. -/
def aAnswer (X : QuinticExt K) (m r v rem : K) (p : K × K) : Except PyErr (Option (Cert K)) :=
  match quadratic 1 (p.2 ^ 2 + 2 * p.2 - 1) with
  | none => .error .typeError
  | some E =>
    let q := aQuartic r v p.1 p.2
    match X.quart ⟨m * q.m, m * q.p, m * q.n, m * q.p, -(m * q.m) - m * q.p * 2 - m * q.n⟩ with
    | .error e => .error e
    | .ok none => .error .typeError
    | .ok (some Q) =>
      .ok (some (((times prodA (Q.add rem fun a b c => sab3 a b c * E.val a b c)).add m (cyc3 fun a b c => c * aFunc r p.1 p.2 a b c ^ 2)).quot E))

/-- `_compute_coeffs` of case b (quintic_symmetric.py 491-505). -/
structure BCoef (K : Type*) where
  u : K
  v : K
  q : K
  ind : K

/-- `_compute_coeffs` of case b (quintic_symmetric.py 491-505). -/
def bCoef (t x y w : K) : BCoef K :=
  let u := (4 * t ^ 2 * x ^ 2 - 4 * t ^ 2 * x + t ^ 2 - 8 * t * x ^ 2 - 8 * t * x * y + 12 * t * x + 4 * t * y - 4 * t - 2 * w + 4 * x ^ 2 + 8 * x * y - 16 * x + 4 * y ^ 2 + 2) / 4
  let v := (2 * t ^ 2 * w + 4 * t ^ 2 * x ^ 2 - 8 * t ^ 2 * x * y + 4 * t ^ 2 * y - 4 * t * u - 4 * t * w + 8 * t * x ^ 2 - 28 * t * x + 8 * t * y ^ 2 + 12 * t * y + 10 * t +
    2 * u * w + 2 * u - 16 * x ^ 2 + 12 * x + 4 * y + 3) / 4
  let q := -(-2 * t ^ 2 * u * w - 2 * t ^ 2 * u - 2 * t ^ 2 * w + 4 * t ^ 2 * x ^ 2 - 16 * t ^ 2 * x * y - 4 * t ^ 2 * x + 4 * t ^ 2 * y ^ 2 + 12 * t ^ 2 * y - t ^ 2 + 4 * t * u * w +
    4 * t * w + 8 * t * x ^ 2 + 24 * t * x * y - 24 * t * x - 8 * t * y + 14 * t + 4 * u - 4 * v - 2 * w - 16 * x ^ 2 - 16 * x * y + 20 * x + 12 * y + 1) / (4 * (t - 1) ^ 2)
  let ind := (8 * t ^ 2 * w * x ^ 2 - 8 * t ^ 2 * w * x + 2 * t ^ 2 * w - 4 * t ^ 2 * x ^ 2 + 4 * t ^ 2 * x - t ^ 2 - 16 * t * w * x ^ 2 - 16 * t * w * x * y + 24 * t * w * x +
    8 * t * w * y - 8 * t * w + 56 * t * x ^ 2 - 40 * t * x * y - 36 * t * x + 20 * t * y + 4 * t - 4 * w ^ 2 + 8 * w * x ^ 2 + 16 * w * x * y - 32 * w * x + 8 * w * y ^ 2 - 2 * w -
    68 * x ^ 2 + 24 * x * y + 28 * y ^ 2 + 16 * y + 10) / 4
  ⟨u, v, q, ind⟩

/-- `_verify_xy` of case b (quintic_symmetric.py 507-510). -/
def bVerify (t w : K) (p : K × K) : Prop :=
  let k := bCoef t p.1 p.2 w;
  (-1 : K) ≤ k.u ∧ 0 ≤ k.v ∧ 0 ≤ k.q ∧ 0 ≤ k.ind

instance (t w : K) (p : K × K) : Decidable (bVerify t w p) := by unfold bVerify; infer_instance

/-- `func_g` of case b (quintic_symmetric.py 541). -/
def bFunc (t x y : K) : Val3 K := fun a b c =>
  x * ((b + c - t * a) * (c - b) ^ 2 + (c + a - t * b) * (a - c) ^ 2) + (1 / 2 - x) * (b + c - t * a) * (c + a - t * b) * (2 * c - a - b) + y * (a + b - t * c) * (a - b) ^ 2

/-- Case b after the choices (quintic_symmetric.py 539-560).  A missing `multiplier` raises `TypeError`. -/
def bAnswer (m t w extra rem : K) (p : K × K) : Except PyErr (Option (Cert K)) :=
  let k := bCoef t p.1 p.2 w
  match quadratic 1 k.u with
  | none => .error .typeError
  | some E =>
    .ok (some ((Cert.plain (sumY [
      (m, cyc3 fun a b c => c * bFunc t p.1 p.2 a b c ^ 2),
      (m * k.v, fun a b c => sumA a b c * discV3 a b c),
      (m * k.q, cyc3 fun a b c => c * (a - b) ^ 2 * (t * a * b - (t - 1) * a * c - (t - 1) * b * c) ^ 2),
      (m * extra / 2, fun a b c => E.val a b c * tgc t a b c),
      (m * k.ind / 2, fun a b c => prodA a b c * cyc3 (fun a b c => (a - b) ^ 2 * (a + b - t * c) ^ 2) a b c),
      (rem, fun a b c => E.val a b c * tail5 a b c)])).quot E))

/-- `w_lower_bound` (quintic_symmetric.py 485). -/
def wLower (u : K) : K := -(u ^ 2 + 6 * u - 9) / (2 * u ^ 2)

/-- `x0, y0` of case b (quintic_symmetric.py 515-516). -/
def bStart (t u : K) : K × K :=
  ((t ^ 2 - 2 * t - 2 * lowW0 u * lowW u - 2 * lowW1 u + 1) / (2 * t ^ 2 - 6 * t + 4), (-2 * t * lowW0 u - 2 * lowW0 u * lowW u + 4 * lowW0 u - 2 * lowW1 u + 1) / (2 * t - 4))

/-- `w` and `extra_w` (quintic_symmetric.py 519-528). -/
def bWeight (X : QuinticExt K) (t u w : K) : Option (K × K) :=
  if bVerify t w (bStart t u) then some (w, 0)
  else ((X.bound (wLower u)).find? fun w' => decide (w' ≤ w ∧ bVerify t w' (bStart t u))).map fun w' => (w', w - w')

/-- The pair used in case b (quintic_symmetric.py 531-537). -/
def bPick (X : QuinticExt K) (t w u du : K) (p : K × K) : K × K :=
  if X.isRat u = false ∧ (X.rational = true ∨ du ≠ 0) then ((X.rounds (X.approx p)).find? fun q => decide (bVerify t w q)).getD (X.approx p) else p

/-- `u_` of case b (quintic_symmetric.py 477-483). -/
def bU (X : QuinticExt K) (t u0 du : K) : Except PyErr (Option K) :=
  if du = 0 ∧ X.rational = false then
    match X.sqrt (t ^ 2 - t - 2) with
    | .error e => .error e
    | .ok s =>
      let u := (2 * t + 2 * s - 1) / 3
      .ok (if u < 3 then none else some u)
  else .ok (some u0)

/-- Case b (quintic_symmetric.py 472-560).  For `t = 1` or `t = 2` a quotient is not a number and its comparison raises `TypeError`. -/
def caseB (X : QuinticExt K) (m z u rem u0 root : K) : Except PyErr (Option (Cert K)) :=
  let t := root + 1
  let w := 2 * z - 1 + 2 * t
  match bU X t u0 (duOf z u) with
  | .error e => .error e
  | .ok none => .ok none
  | .ok (some u1) =>
    if w < wLower u1 then .ok none
    else if t = 1 ∨ t = 2 then .error .typeError
    else
      match bWeight X t u1 w with
      | none => .ok none
      | some W => bAnswer m t W.1 W.2 rem (bPick X t W.1 u1 (duOf z u) (bStart t u1))

/-- The first answer of case c (quintic_symmetric.py 580-596). -/
def cFirst (m z u v rem t : K) : List (K × Val3 K) :=
  let k := -m / (64 * t ^ 3)
  [(m / 2, tgt (2 * lowW t + 2 * z - (t ^ 2 + 6 * t - 9) / (2 * t ^ 2)) ((3 * t ^ 2 + 2 * t + 3) / (4 * t))),
    (k * eqt1 z u t, cyc3 fun a b c => a ^ 2 * (b + c) * (b - c) ^ 2),
    (k * eqt2 z v t, fun a b c => prodA a b c * sd3 a b c),
    (rem, tail5)]

/-- `func_g` of case c (quintic_symmetric.py 600). -/
def cFunc (t : K) : Val3 K := fun a b c =>
  (lowW0 t * (a + b) - c) * (a ^ 2 + b ^ 2 + c ^ 2 - (lowW t + 1) / 2 * c * (a + b) + (lowW t - 2) * a * b) - lowW1 t * a * b * (2 * c - a - b)

/-- `p1` (quintic_symmetric.py 608-613); its four terms are kept apart, each with the multiplier. -/
def cSecond (m z u v rem t : K) (E : Cert K) : List (K × Val3 K) :=
  let k := -m / (64 * t ^ 3)
  let t' := (3 * t ^ 2 + 2 * t + 3) / (4 * t)
  [(m, cyc3 fun a b c => c * cFunc t a b c ^ 2),
    (27 * (t - 3) * (t ^ 2 - t + 2) / t ^ 3 / 32 * m, fun a b c => prodA a b c * cyc3 (fun a b c => (a - b) ^ 2 * (a + b - t' * c) ^ 2) a b c),
    ((2 * lowW t + 2 * z) * m / 2, fun a b c => E.val a b c * tgc t' a b c),
    (k * eqt1 z u t, fun a b c => E.val a b c * cyc3 (fun a b c => a ^ 2 * (b + c) * (b - c) ^ 2) a b c),
    (k * eqt2 z v t, fun a b c => E.val a b c * (prodA a b c * sd3 a b c)),
    (rem, fun a b c => E.val a b c * tail5 a b c)]

/-- `t_` of case c (quintic_symmetric.py 566-571). -/
def cPick (X : QuinticExt K) (z u v t : K) : K :=
  if X.isRat t then t
  else ((X.boundT t (decide (9 * t ^ 2 + 8 * t * z + 2 * t + 9 ≤ 0))).find? fun s => decide (3 ≤ s ∧ eqt1 z u s ≤ 0 ∧ eqt2 z v s ≤ 0)).getD t

/-- Case c (quintic_symmetric.py 573-628).  A missing `multiplier` raises `TypeError`. -/
def caseC (m z u v rem t : K) : Except PyErr (Option (Cert K)) :=
  let extra := 2 * lowW t + 2 * z
  if (t ^ 2 + 6 * t - 9) / (2 * t ^ 2) ≤ extra then
    if ∃ s ∈ cFirst m z u v rem t, s.1 < 0 then .ok none else .ok (some (.plain (sumY (cFirst m z u v rem t))))
  else if 0 ≤ extra then
    let k := -m / (64 * t ^ 3)
    if k * eqt1 z u t < 0 ∨ k * eqt2 z v t < 0 then .ok none
    else
      match quadratic 1 (-((7 * t ^ 2 + 30 * t - 9) / (16 * t ^ 2))) with
      | none => .error .typeError
      | some E => .ok (some ((Cert.plain (sumY (cSecond m z u v rem t E))).quot E))
  else .ok none

/-- The branch `z < -3` (quintic_symmetric.py 369-628). -/
def quinLow (X : QuinticExt K) (m z u v rem : K) : Except PyErr (Option (Cert K)) :=
  if duOf z u < 0 then .ok none
  else if 0 ≤ m * (v - (z ^ 2 - 6 * z - 9) / 2 + 2 * duOf z u) / 4 then .ok (some (over (.plain (sumY (lowTriv m z u v rem))) halfSd))
  else
    match (X.roots z u).find? fun t => decide (3 ≤ t ∧ eqt2 z v t ≤ 1 / 10 ^ 8) with
    | none => .ok none
    | some u0 =>
      let r := (1 - z) / 2
      let p : K × K := (-r * lowW0 u0 - lowW1 u0, -lowW0 u0)
      if duOf z u = 0 ∧ aVerify r v p then aAnswer X m r v rem (aPick X r v u0 p)
      else if duOf z u = 0 ∧ X.rational = true then .ok none
      else
        match X.dbl z u v with
        | some root => caseB X m z u rem u0 root
        | none => caseC m z u v rem (cPick X z u v u0)

/-- `sos_struct_quintic_symmetric` (quintic_symmetric.py 11-628). -/
def quinSym (X : QuinticExt K) (f : Quintic K) : Except PyErr (Option (Cert K)) :=
  if ¬ (f.c410 = f.c140 ∧ f.c320 = f.c230) ∨ f.c500 < 0 then .ok none
  else if f.c500 = 0 then quinHexagon f.c410 f.c320 f.c311 f.c221
  else
    let m := f.c500
    let z := f.c410 / m
    let u := f.c320 / m
    let v := f.c311 / m
    let rem := (1 + v + (z + u) * 2) * m + f.c221
    if rem < 0 then .ok none
    else
      let first : Except PyErr (Option (Cert K)) :=
        match findX X z u v with
        | none => .ok none
        | some p => firstAns m z u v f.c221 p
      match first with
      | .error e => .error e
      | .ok (some C) => .ok (some C)
      | .ok none =>
        if -1 ≤ z then quinUp m z u v rem
        else if -3 ≤ z then quinMid m z u v rem
        else quinLow X m z u v rem

end Verif.Ternary
