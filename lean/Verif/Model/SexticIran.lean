import Verif.Model.SexticHexagon

/-!
# The solver of symmetric sextics without `a^6`

Model of `_sos_struct_sextic_symmetric_schur_split` (`triples/core/structsos/ternary/sextic_symmetric.py` 652-752) and `_sos_struct_sextic_iran96` (755-1191).  Conventions as in
`SexticHexagon`.  Terms of weight zero are dropped where all terms are expressions, and kept where a term is itself an answer (`CommonExpr`).
-/

namespace Verif.Ternary

open Verif Verif.Acute

variable {K : Type*} [Field K] [LinearOrder K]

/-- What the solver gets from SymPy and from other solvers. -/
structure IranExt (K : Type*) where
  /-- For `_sos_struct_sextic_hexagon_symmetric`. -/
  hex : SxHexExt K
  /-- `sos_struct_liftfree_for_six` of the product with `a+b+c` (749-750). -/
  lift : Sextic K → Except PyErr (Option (Cert K))
  /-- `coeff.is_rational`. -/
  rational : Sextic K → Bool
  /-- The root of the common divisor of `sym` and its derivative if the divisor is linear (1007-1010), from the coefficients of `sym`. -/
  root : K → K → K → Option K
  /-- The values of `rationalize_bound` (1064). -/
  rs : K → List K
  /-- `sp.polys.count_roots(sym, 0, None) <= 1` (1072), from the coefficients of `sym`. -/
  few : K → K → K → Bool
  /-- The rational roots of `equ` (1095-1096), from `t` and `w`. -/
  uRoots : K → K → List K
  /-- The real `u__` of `nroots(equ)[::-1]` (1103-1104) with the values of `rationalize_bound` (1108). -/
  uApps : K → K → List (K × List K)

/-- `rem` (sextic_symmetric.py 826) for polynomials with all coefficients. -/
def Sextic.fullRem (f : Sextic K) : K := f.c222 + 6 * f.c321 + 3 * f.c330 + 3 * f.c411 + 6 * f.c420 + 6 * f.c510 + 3 * f.c600

/-- The term for Schur's inequality `CyclicSum(a*b*(a-c)**2*(b-c)**2)`. -/
def hx1 : Val3 K := cyc3 fun a b c => a * b * (a - c) ^ 2 * (b - c) ^ 2

/-- `CyclicSum(a*(b-c)**2) * CyclicProduct(a)`. -/
def hx2 : Val3 K := fun a b c => s1V a b c * prodA a b c

/-- Cases 1-3 of `_sos_struct_sextic_symmetric_schur_split` (sextic_symmetric.py 664-723).  **Case 3 leaves out `rem * a^2 b^2 c^2`.** -/
def schurCases (f : Sextic K) : Option (Cert K) :=
  let y0 := -2 * f.c321 - 3 * f.c330 - 3 * f.c411 - 7 * f.c420 - 12 * f.c510 - 9 * f.c600
  let y1 := f.c321 + 2 * f.c330 + f.c411 + 4 * f.c420 + 5 * f.c510 + 4 * f.c600
  let y2 := f.c330 + 2 * f.c420 + 2 * f.c510 + 2 * f.c600
  let y4 := 4 * f.c321 + 7 * f.c330 + 5 * f.c411 + 16 * f.c420 + 22 * f.c510 + 16 * f.c600
  let y5 := -f.c321 - 2 * f.c330 - f.c411 - 4 * f.c420 - 4 * f.c510 - 2 * f.c600
  let z0 := 8 * f.c321 / 3 + 17 * f.c330 / 3 + 7 * f.c411 / 3 + 35 * f.c420 / 3 + 38 * f.c510 / 3 + 35 * f.c600 / 3
  let common := 0 ≤ y1 ∧ 0 ≤ y2 ∧ 0 ≤ f.c600 ∧ 0 ≤ y4 ∧ 0 ≤ y5 ∧ 0 ≤ f.fullRem
  if common ∧ 0 ≤ y0 then
    some (.plain [(y0, discV), (1, cyc3 fun a b c => (f.c600 * a ^ 2 + y1 * a * b + y1 * a * c + y2 * b * c) * (a - b) ^ 2 * (a - c) ^ 2),
      (y4 / 2, cyc3 fun a b c => a ^ 2 * (b - c) ^ 2 * (b + c - a) ^ 2), (y5, cyc3 fun a b c => b * c * (b - c) ^ 2 * (b + c - a) ^ 2), (f.fullRem, a2V)])
  else if common ∧ 0 ≤ z0 then
    some (.plain (sumY [(z0, discV), (y1, cyc3 fun a b _ => a * b * (a - b) ^ 4), (y2, cyc3 fun a b c => b * c * (a - b) ^ 2 * (a - c) ^ 2),
      (f.c600, fun a b c => cyc3 (fun a b c => a * (a - b) * (a - c)) a b c ^ 2), (y4, cyc3 fun a b c => a ^ 2 * (a * b + a * c - b ^ 2 - c ^ 2) ^ 2 / 6),
      (y5, cyc3 fun a b c => a * b * (a - b) ^ 2 * (a + b - c) ^ 2), (f.fullRem, a2V)]))
  else
    let x1 := 2 * f.c510 + 2 * f.c600
    let x2 := f.c411 + 2 * f.c420 + 4 * f.c510 + 3 * f.c600
    let x3 := 2 * f.c321 + 2 * f.c330 + 2 * f.c411 + 4 * f.c420 + 6 * f.c510 + 4 * f.c600
    let x4 := f.c330 + 2 * f.c420 + 2 * f.c510 + 2 * f.c600
    let x5 := -f.c330 / 3 - f.c411 / 3 - f.c420 / 3 - 2 * f.c510 - 2 * f.c600
    if 0 ≤ f.c600 ∧ 0 ≤ x1 ∧ 0 ≤ x2 ∧ 0 ≤ x3 ∧ 0 ≤ x4 ∧ 0 ≤ x5 then
      some (.plain (sumY [(f.c600, cyc3 fun a b c => (a ^ 3 - a ^ 2 * b - a * b ^ 2 + a * c ^ 2 + b ^ 3 + b * c ^ 2 - 2 * c ^ 3) ^ 2 / 6),
        (x1, cyc3 fun a b c => a * b * (a - b) ^ 2 * (a + b - c) ^ 2 / 2), (x2, cyc3 fun a b c => a ^ 2 * (a * b + a * c - b ^ 2 - c ^ 2) ^ 2 / 6),
        (x3, cyc3 fun a b c => a ^ 2 * b * c * (b - c) ^ 2 / 2), (x4, cyc3 fun a b c => (a * b ^ 2 + a * c ^ 2 - b ^ 2 * c - b * c ^ 2) ^ 2 / 6), (x5, discV)]))
    else none

/-- `_sos_struct_sextic_symmetric_schur_split` (sextic_symmetric.py 652-752). -/
def schurSplit (X : IranExt K) (f : Sextic K) : Except PyErr (Option (Cert K)) :=
  match schurCases f with
  | some C => .ok (some C)
  | none => (X.lift f).map fun r => r.map fun C => over C sumA

/-- Easy cases 2 and 3 of `_sos_struct_sextic_iran96` (sextic_symmetric.py 840-904); `m, p, q, w, z` are the coefficients of `a^5 b`, `a^4 b^2`, `a^3 b^3`, `a^4 bc`, `a^3 b^2 c`. -/
def iranEasy (f : Sextic K) : Except PyErr (Option (Cert K)) :=
  let m := f.c510
  let p := f.c420
  let q := f.c330
  let w := f.c411
  let z := f.c321
  let q2 := 2 * (m + p) + q
  if 0 ≤ p ∧ 0 ≤ q + 2 * m + 2 * p then
    let x := (q - w) / (4 * m) + 1 / 2
    let y3 := z - m * x * (x + 2) - 2 * p + 3 * (q + 2 * m + 2 * p)
    if 0 ≤ m ∧ 0 ≤ y3 ∧ 0 ≤ f.fullRem then
      .ok (some (.plain (sumY [(m, cyc3 fun a b c => a * b * (a - b) ^ 2 * (a + b - x * c) ^ 2), (p, discV), (q + 2 * m + 2 * p, hx1), (y3, hx2), (f.fullRem, a2V)])))
    else
      let u := if -(w + 2 * p) / 4 / m < 1 then 1 else -(w + 2 * p) / 4 / m
      let w2 := w + 2 * p + 4 * u * m
      if 2 * q2 + w2 + min (2 * q2) w2 + (z - 2 * p - (u ^ 2 + 2 * u) * m) < 0 then .ok none
      else
        let l := min w2 q2
        let y5 := z - u * (u + 2) * m - 2 * p + (w2 + q2 - 2 * l)
        if 0 ≤ m ∧ 0 ≤ l ∧ 0 ≤ y5 ∧ 0 ≤ f.fullRem then
          match schurinv 6, schur 3 with
          | some I, some S =>
            .ok (some (((I.smul (q2 - l)).plus ((times prodA S).smul (w2 - l))).plus
              (.plain (sumY [(m, cyc3 fun a b c => a * b * (a - b) ^ 2 * (a + b - u * c) ^ 2), (p, discV), (l, hx1), (y5, hx2), (f.fullRem, a2V)]))))
          | _, _ => .error .typeError
        else .ok none
  else .ok none

/-- Case 4 (sextic_symmetric.py 907-928). -/
def iranBorder (f : Sextic K) : Except PyErr (Option (Cert K)) :=
  let m := f.c510
  let yh := f.c330 - f.c420 ^ 2 / 4 / m - 2 * m
  let x := f.c420 / m / 4
  let y2 := f.c411 - m * (4 - 4 * x) - yh
  let y3 := f.c321 + f.c411 + m * (3 * x ^ 2 + 2 * x) + 2 * yh
  if 0 ≤ yh ∧ 0 ≤ m ∧ 0 ≤ y2 ∧ 0 ≤ y3 ∧ 0 ≤ f.fullRem then
    match schur 3 with
    | some S =>
      .ok (some (((times prodA S).smul y2).plus
        (.plain (sumY [(m, cyc3 fun a b c => a * b * (a ^ 2 + b ^ 2 - 2 * c ^ 2 + 2 * x * a * b - x * a * c - x * b * c) ^ 2), (yh, hx1), (y3, hx2), (f.fullRem, a2V)]))))
    | none => .error .typeError
  else .ok none

/-- The numbers `u_`, `v_` and `tmp` of easy case 5 (sextic_symmetric.py 940-955).  **`tmp` is not computed again after `u_` changes.** -/
def iranUV (f : Sextic K) : K × K × K :=
  let m := f.c510
  let p := f.c420
  let w := f.c411
  let z := f.c321
  let u0 := -(-2 * m - 5 * p + 3 * w + z) / 9
  let v0 := (-u0 + p - w - z) / 2
  let uv : K × K :=
    if 0 ≤ u0 ∧ 0 ≤ v0 then (u0, v0)
    else if 0 ≤ u0 ∧ v0 < 0 then ((2 * p + m - w) / 4, v0)
    else (0, max 0 ((-0 + p - w - z) / 2))
  let tmp := m + f.c330 - (p - uv.1) ^ 2 / m + 2 * uv.1
  if uv.2 ≤ tmp then (uv.1, uv.2, tmp)
  else if uv.1 ≤ m + p then (m + p, max 0 ((-(m + p) + p - w - z) / 2), tmp)
  else (uv.1, uv.2, tmp)

/-- Easy case 5 (sextic_symmetric.py 930-981). -/
def iranRat (f : Sextic K) : Except PyErr (Option (Cert K)) :=
  let m := f.c510
  let p := f.c420
  let w := f.c411
  let z := f.c321
  let u := (iranUV f).1
  let v := (iranUV f).2.1
  let tmp := (iranUV f).2.2
  if 0 ≤ u ∧ (0 ≤ v ∧ v ≤ tmp) ∧ v ≤ 4 * u + w - m - 2 * p ∧ (-u + p - w - z) / 2 ≤ v then
    if 0 ≤ m / 2 ∧ 0 ≤ (tmp - v) / 2 ∧ 0 ≤ -m - 2 * p + 4 * u - v + w ∧ 0 ≤ -p + u + 2 * v + w + z ∧ 0 ≤ f.fullRem then
      match schur 3 with
      | some S =>
        .ok (some (((times prodA S).smul (-m - 2 * p + 4 * u - v + w)).plus
          (.plain (sumY [(m / 2, fun a b c => sab3 a b c * cyc3 (fun a b c => (a - b) ^ 2 * (a + b - (-p + u) / m * c) ^ 2) a b c),
            ((tmp - v) / 2, fun a b c => sab3 a b c * cyc3 (fun a b c => a ^ 2 * (b - c) ^ 2) a b c), (u, discV), (v, hx1), (-p + u + 2 * v + w + z, hx2), (f.fullRem, a2V)]))))
      | none => .error .typeError
    else .ok none
  else .ok none

/-- The case of a double root (sextic_symmetric.py 1016-1037), with normalised `p`, `q`. -/
def iranDouble (m rem p q u : K) : Option (Cert K) :=
  let c1 := (2 * p + q + 2) / (4 * (u - 1) ^ 2)
  let r := (p * u ^ 2 + p + q * u + 2 * u) / (u - 1) ^ 2
  if (0 ≤ c1 ∧ c1 ≤ 1) ∧ 0 ≤ r then
    some (.plain (sumY [(m * c1, cyc3 fun a b c => b * c * ((a - b) * (a + b - u * c) - (c - a) * (c + a - u * b)) ^ 2),
      (m * (1 - c1), cyc3 fun a b c => b * c * (b - c) ^ 2 * (b + c - u * a) ^ 2), (m * r, discV), (rem, a2V)]))
  else none

/-- `coeff_z` (sextic_symmetric.py 1089). -/
def coeffZ (t u : K) : K := -(t ^ 2 * u ^ 2 - t ^ 2 * u + t ^ 2 - 4 * t * u - u ^ 4 + 7 * u ^ 2 - 6 * u + 4) / (u - 1) ^ 2

/-- The loop over the approximations (sextic_symmetric.py 1103-1111): `u_` after it. -/
def uLoop (t z : K) : Option K → List (K × List K) → Option K
  | cur, [] => cur
  | cur, (s, us) :: rest =>
    if coeffZ t s ≤ z then
      let d : K := if 0 < (t ^ 2 - 4 * t + 2 * s ^ 3 - 6 * s ^ 2 + 6 * s + 2) / (s - 1) then 1 else -1
      uLoop t z (if us = [] then cur else us.find? fun u => decide (u ≠ 1 ∧ coeffZ t u ≤ z ∧ 0 < (u - s) * d)) rest
    else uLoop t z cur rest

/-- The choice of `u_` (sextic_symmetric.py 1090-1111) if there is no double root. -/
def uSelect (X : IranExt K) (t w z : K) : Option K :=
  if t = 2 then
    let u := 2 - w / 4
    some (if u ≠ 1 ∧ z < coeffZ t u then 1 else u)
  else
    match (X.uRoots t w).find? fun u => decide (coeffZ t u ≤ z) with
    | some u => some u
    | none => uLoop t z none (X.uApps t w)

/-- The last part (sextic_symmetric.py 1113-1191): `yh` is `y_hex`, `dbl` says that there is a double root. -/
def iranLast (m rem t r w z yh : K) (dbl : Bool) : Option K → Except PyErr (Option (Cert K))
  | none => .ok none
  | some u =>
    let y0 := if dbl then 0 else yh
    if u ≠ 1 then
      let phi := (t * u - u ^ 2 + 2 * u - 3) / (u - 1)
      let y4 := if dbl then 1 / (u - 1) ^ 2 * yh else 0
      let pw1 := m * ((w - (t ^ 2 + 4 * t * u ^ 2 - 8 * t * u - 4 * u ^ 3 + 8 * u ^ 2 - 4 * u + 4) / (u - 1) ^ 2) / 2)
      let pw2 := m * (z - coeffZ t u)
      let pw3 := m * ((t - 2 * u) ^ 2 / 2 / (u - 1) ^ 2 + if dbl then yh / 2 / (u - 1) ^ 2 else 0)
      if (y0 < 0 ∨ r < 0 ∨ rem / m < 0 ∨ y4 < 0) ∨ pw1 < 0 ∨ pw2 < 0 ∨ pw3 < 0 then .ok none
      else
        .ok (some (over (.plain (sumY [(y0 * m, fun a b c => sumA a b c * hx1 a b c), (r * m, fun a b c => sumA a b c * discV a b c), (rem / m * m, fun a b c => sumA a b c * a2V a b c),
          (m, cyc3 fun a b c => a * (b - c) ^ 2 * (a ^ 2 + b ^ 2 + c ^ 2 - t * a * b - t * a * c + phi * b * c) ^ 2),
          (y4 * m, cyc3 fun a b c => c * (a - b) ^ 2 * (u * a * b - (u - 1) * a * c - (u - 1) * b * c) ^ 2),
          (pw1, fun a b c => sumA a b c ^ 2 * sd3 a b c * prodA a b c), (pw2, fun a b c => sumA a b c * s1V a b c * prodA a b c),
          (pw3, fun a b c => cyc3 (fun a b c => (b - c) ^ 2 * (b + c - u * a) ^ 2) a b c * prodA a b c)])) sumA))
    else
      if (y0 < 0 ∨ r < 0 ∨ rem / m < 0) ∨ w - 4 < 0 ∨ z + w + 1 < 0 then .ok none
      else
        match schur 3 with
        | some S =>
          .ok (some (over (((times (fun a b c => sumA a b c * prodA a b c) S).smul (m * (w - 4))).plus
            (.plain (sumY [(y0 * m, fun a b c => sumA a b c * hx1 a b c), (r * m, fun a b c => sumA a b c * discV a b c), (rem / m * m, fun a b c => sumA a b c * a2V a b c),
              (m, cyc3 fun a b c => a * (b - c) ^ 2 * (b + c - a) ^ 4), (m * (z + w + 1), fun a b c => sumA a b c * s1V a b c * prodA a b c),
              (m * 2, fun a b c => cyc3 (fun a b c => (b - c) ^ 2 * (b + c - a) ^ 2) a b c * prodA a b c)]))) sumA))
        | none => .error .typeError

/-- The perturbation (sextic_symmetric.py 1047-1081): `q, w, z, y_hex` after it, `none` if no number is accepted. -/
def iranPerturb (X : IranExt K) (rational : Bool) (p q w z : K) (u : Option K) : Option (K × K × K × K) :=
  if rational = true ∧ X.hex.isRat (p + 4 + 2 * X.hex.sq (2 * p + q + 2)) = false then
    let dw := match u with | none => 1 | some u => 1 / (u - 1) ^ 2
    let dz := match u with | none => -3 | some u => (-u ^ 2 + u - 1) / (u - 1) ^ 2
    let ok : K → Bool := fun n =>
      let q2 := n ^ 2 - 2 * p - 2
      let yh := q - q2
      let w2 := w - dw * yh
      let z2 := z - dz * yh
      decide ((0 ≤ n ∧ 0 ≤ p + 4 + 2 * n) ∧ 0 ≤ yh ∧ 0 ≤ 2 * p + q2 + 2) && X.few (2 * p + q2 + 2) (4 * p + 2 * q2 + 2 * w2 + 2 * z2 + 6) (2 * p + w2 + 4)
    ((X.rs (2 * p + q + 2)).find? ok).map fun n => let yh := q - (n ^ 2 - 2 * p - 2); (n ^ 2 - 2 * p - 2, w - dw * yh, z - dz * yh, yh)
  else some (q, w, z, 0)

/-- `u_` from the double root (sextic_symmetric.py 1010-1014). -/
def rootU : Option K → Option K
  | some r => if r ≠ 1 then some (1 / r + 1) else none
  | none => none

/-- `u_` is only chosen if there is none yet (sextic_symmetric.py 1090). -/
def pickU : Option K → Option K → Option K
  | some u, _ => some u
  | none, v => v

/-- The part after the easy cases (sextic_symmetric.py 984-1191) with normalised coefficients. -/
def iranMain (X : IranExt K) (rational : Bool) (m rem p q w z : K) : Except PyErr (Option (Cert K)) :=
  if ¬ ((p ≤ -4 ∧ p * p / 4 + 2 ≤ q) ∨ (-4 ≤ p ∧ -2 * (p + 1) ≤ q)) then .ok none
  else
    let u : Option K := rootU (X.root (2 * p + q + 2) (4 * p + 2 * q + 2 * w + 2 * z + 6) (2 * p + w + 4))
    match u.bind (iranDouble m rem p q) with
    | some C => .ok (some C)
    | none =>
      match iranPerturb X rational p q w z u with
      | none => .ok none
      | some (q, w, z, yh) =>
        let r := p + 4 + 2 * X.hex.sq (2 * p + q + 2)
        let t := -(p - r) / 2
        let w := w + 2 * r
        let z := z - 2 * r
        iranLast m rem t r w z yh u.isSome (pickU u (uSelect X t w z))

/-- One step of a chain of attempts. -/
def tryNext (r : Except PyErr (Option (Cert K))) (next : Except PyErr (Option (Cert K))) : Except PyErr (Option (Cert K)) :=
  match r with
  | .error e => .error e
  | .ok (some C) => .ok (some C)
  | .ok none => next

/-- `_sos_struct_sextic_iran96` (sextic_symmetric.py 755-1191). -/
def sxIran (X : IranExt K) (real : Bool) (f : Sextic K) : Except PyErr (Option (Cert K)) :=
  if ¬ (f.c600 = 0 ∧ f.c510 = f.c501 ∧ f.c420 = f.c402 ∧ f.c321 = f.c312 ∧ 0 ≤ f.c510) then .ok none
  else if f.c510 < 0 ∨ f.fullRem < 0 then .ok none
  else if f.c510 = 0 then sxHexagon X.hex real f
  else
    tryNext (schurSplit X f) <| tryNext (iranEasy f) <| tryNext (iranBorder f) <| tryNext (if X.rational f then iranRat f else .ok none) <|
      iranMain X (X.rational f) f.c510 f.fullRem (f.c420 / f.c510) (f.c330 / f.c510) (f.c411 / f.c510) (f.c321 / f.c510)

end Verif.Ternary
