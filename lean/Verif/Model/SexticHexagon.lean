import Verif.Model.QuinticSymmetric
import Verif.Model.SexticSmall
import Verif.Model.StructUtils

/-!
# The solver of symmetric sextics without `a^6` and `a^5 b`

Model of `_sos_struct_sextic_hexagon_symmetric` and `_sos_struct_sextic_hexagon_symmetric_sdp` (`triples/core/structsos/ternary/sextic_symmetric.py` 99-410).
Conventions as in `SexticSmall`: `radsimp`, `together` and `expand` do not change a value, square roots are numbers of the field.
-/

namespace Verif.Ternary

open Verif Verif.Acute

variable {K : Type*} [Field K] [LinearOrder K]

/-- What the solver gets from SymPy. -/
structure SxHexExt (K : Type*) where
  /-- `as_numer_denom`. -/
  nd : NumDen K
  /-- The roots and approximations of `rationalize_func` (206). -/
  us : Sextic K → List (Cand K)
  /-- `sp.sqrt`. -/
  sq : K → K
  /-- `isinstance(_, sp.Rational)`. -/
  isRat : K → Bool

/-- `CyclicSum(a*(b-c)**2)`. -/
def s1V : Val3 K := cyc3 fun a b c => a * (b - c) ^ 2

/-- `CyclicProduct(a**2)`. -/
def a2V : Val3 K := cycp3 fun a _ _ => a ^ 2

/-- `l22` (sextic_symmetric.py 128) and `rem` (279). -/
def Sextic.symRem (f : Sextic K) : K := f.c222 + 6 * f.c321 + 3 * f.c330 + 3 * f.c411 + 6 * f.c420

/-- `_compute_quad_form` (sextic_symmetric.py 136-140): `M00, M01, M02`. -/
def hexForm (f : Sextic K) (u : K) : K × K × K :=
  let w1 := (f.c411 + f.c330) / 2
  let w2 := (f.c411 - f.c330) / 2
  (-(-3 * f.c420 * u ^ 2 - 6 * f.c420 * u + 2 * u ^ 2 * w2 + 6 * u * w2 + 6 * w2) / (3 * u * (u + 2)),
    (3 * u ^ 2 * w1 - u ^ 2 * w2 + 6 * u * w1 - 6 * u * w2 - 6 * w2) / (6 * u * (u + 2)),
    (f.c321 * u + 4 * f.c420 * u + 3 * u * w1 - 3 * u * w2 - 6 * w2) / (2 * u))

/-- `_is_valid` (sextic_symmetric.py 142-146) of a number. -/
def hexValid (f : Sextic K) (u : K) : Bool :=
  if u = 0 ∨ u = -2 then false
  else
    let M := hexForm f u
    decide (|M.2.1| ≤ M.1 ∧ 0 ≤ f.symRem * (M.1 + M.2.1) - 2 * M.2.2 ^ 2 ∧ 0 < -(f.c330 - f.c411) * (u * (u + 2)))

/-- `mapping` (sextic_symmetric.py 159-167): the cyclic sum is written out. -/
def hexMapping (x y : K) : Val3 K := fun a b c =>
  if x = 1 ∧ y = 0 then s1V a b c ^ 2
  else if x = 0 ∧ y = 1 then a2V a b c
  else cyc3 (fun a b c => x * (a ^ 2 * b + a ^ 2 * c - 2 * a * b * c) + y / 3 * a * b * c) a b c ^ 2

/-- `_compute_quad_form_sol` (sextic_symmetric.py 148-177). -/
def hexFormSol (f : Sextic K) (M : K × K × K) : Option (List (K × Val3 K)) :=
  if M.1 < M.2.1 then none
  else (quadraticWeighting ((M.1 + M.2.1) / 2) (M.2.2 * 2) f.symRem).map fun l => ((M.1 - M.2.1) / 2, discV) :: l.map fun w => (w.1, hexMapping w.2.1 w.2.2)

/-- `_compute_sol` (sextic_symmetric.py 179-188). -/
def hexSol (f : Sextic K) : Option K → Option (Cert K)
  | none => none
  | some u =>
    if u = 0 ∨ u = -2 then none
    else
      let r := -(f.c330 - f.c411) / (6 * u * (u + 2))
      match hexFormSol f (hexForm f u) with
      | some l => if 0 ≤ r then some (.plain ((r, cyc3 fun a b c => (a - b) ^ 2 * (c ^ 2 + (u + 2) * (a * b + b * c + c * a) - a * b) ^ 2) :: l)) else none
      | none => none

/-- `_sos_struct_sextic_hexagon_symmetric_sdp` (sextic_symmetric.py 99-208).  `_is_valid(None)` raises `TypeError`. -/
def sxHexSdp (X : SxHexExt K) (f : Sextic K) : Except PyErr (Option (Cert K)) :=
  if f.c420 ≤ 0 then
    if f.c420 = 0 ∧ f.c411 = 0 ∧ f.c330 = 0 ∧ f.c321 = 0 ∧ 0 ≤ f.c222 then .ok (some (.plain [(f.c222, fun a b c => prodA a b c ^ 2)])) else .ok none
  else if ¬ (0 ≤ f.symRem ∧ |f.c411| ≤ 2 * f.c420 ∧ |f.c330| ≤ 2 * f.c420) then .ok none
  else if f.c411 = f.c330 then .ok (hexSol f (some 1))
  else
    let w1 := (f.c411 + f.c330) / 2
    let w2 := (f.c411 - f.c330) / 2
    let denom := f.c321 + 4 * f.c420 + 3 * w1 - 3 * w2
    if denom = 0 then if 0 < f.symRem then .error .typeError else .ok none
    else
      let u := 6 * w2 / denom
      if 0 < f.symRem ∧ hexValid f u = false then (rationalizeFunc (fun _ => 0) 0 (fun u => .ok (hexValid f u)) (X.us f)).map (hexSol f)
      else .ok (hexSol f (some u))

/-- `_linear_comb` (sextic_symmetric.py 304-326): `w` and `t`, where `t = none` is `oo`.  At `(2, -10)` all numbers are `nan`. -/
def hexComb (x y : K) : Option (K × Option K) :=
  if (x + y + 2) ^ 2 + 4 * y + 4 ≤ 0 ∧ y ≤ -3 * x - 4 then
    if x = 2 ∧ y = 10 then some (1, some 1)
    else
      let r := 4 * (x - 2) * (3 * x + 2 * y + 14) / (x + y + 8) ^ 2
      let x2 := r + 2
      let y2 := -10 + (y + 10) / (x - 2) * r
      some (if x2 ≠ -1 then (x2 - x) / (x2 - 2) else (y2 - y) / (y2 + 10), if x2 + y2 + 4 ≠ 0 then some (-4 / (x2 + y2 + 4)) else none)
  else none

/-- `_get_solution` (sextic_symmetric.py 330-390) after the special values. -/
def hexRealMain (X : SxHexExt K) (t : K) : Option (List (K × Val3 K)) :=
  if t ≤ -2 ∨ 1 ≤ t then
    let ker := X.sq (t ^ 2 + t - 2)
    let w := t ^ 2 + 4 * t - 8
    if w ≠ 0 ∧ X.isRat ker = true then
      let l := w ^ 2 / (4 * (t - 2) ^ 2 * (5 * t ^ 2 - 4 * t + ker * (4 * t - 16) + 8))
      let z := (2 * t ^ 2 - 2 * t + ker * (2 * t - 4)) / w
      some [(l * 4 / t ^ 2, cyc3 fun a b c => (a - b) ^ 2 *
        (a * b * c * (-3 * t * z + 2 * t - 2 * z + 4) + a * b * (a + b) * (t - 2) - c ^ 2 * t * (1 - z) * (a + b + c) - c * (t - 2 * z) * (a ^ 2 + b ^ 2 - c ^ 2)) ^ 2)]
    else if 0 ≤ w then
      some [(1 / t ^ 2, cyc3 fun a b c => c ^ 2 * (a - b) ^ 2 * (2 * (a ^ 2 + b ^ 2 - c ^ 2) - (2 + 3 * t) * a * b + t * c * (a + b + c)) ^ 2),
        (w / t ^ 2, fun a b c => sumA a b c ^ 2 * discV a b c)]
    else
      some [(1 / t ^ 2 / 9, cyc3 fun a b c => (a - b) ^ 2 * ((t - 4) * a ^ 2 * b + (-t - 2) * a ^ 2 * c + (t - 4) * a * b ^ 2 + (8 * t + 10) * a * b * c - 3 * t * a * c ^ 2 +
          (-t - 2) * b ^ 2 * c - 3 * t * b * c ^ 2 + (2 - 2 * t) * c ^ 3) ^ 2),
        (4 * (t - 1) * (t + 2) / 3 / t ^ 2, fun a b c => sumA a b c ^ 2 * discV a b c)]
  else if -1 ≤ 2 * t ∧ 2 * t ≤ 2 then
    let p1 : Val3 K := fun a b c => cyc3 (fun a b c => (a - b) * (a - c) * (2 * t * b * c - a * b - a * c)) a b c ^ 2
    if 2 * t ≤ 1 then
      some [(1 - 2 * t, p1), (1 + 2 * t, cyc3 fun a b c => (a - b) ^ 2 * (a - c) ^ 2 * (2 * t * b * c - a * b - a * c) ^ 2)]
    else
      some [(4 * (1 - t) / 3, p1),
        ((2 * t + 1) / 3, cyc3 fun a b c => (a - b) ^ 2 * (-a ^ 2 * b - a ^ 2 * c - a * b ^ 2 + 2 * a * b * c + a * c ^ 2 - b ^ 2 * c + b * c ^ 2 +
          t * (4 * a * b * c - 2 * a * c ^ 2 - 2 * b * c ^ 2)) ^ 2)]
  else none

/-- `_get_solution` (sextic_symmetric.py 330-390); `none` as the argument is `oo`. -/
def hexReal (X : SxHexExt K) : Option K → Option (List (K × Val3 K))
  | none => some [(1, cyc3 fun a b c => (a - b) ^ 2 * (a ^ 2 * b - a ^ 2 * c + a * b ^ 2 + 2 * a * b * c - a * c ^ 2 - b ^ 2 * c - b * c ^ 2) ^ 2)]
  | some t =>
    if t = 1 then some [(1, fun a b c => s1V a b c ^ 2 * sd3 a b c)]
    else if t = 2 then some [(1, cyc3 fun a b c => (a - b) ^ 2 * (a ^ 2 * b + a * b ^ 2 - 5 * a * b * c + a * c ^ 2 + b * c ^ 2 + c ^ 3) ^ 2)]
    else if t = 0 then some [(1, cyc3 fun a b c => (a - b) ^ 4 * (a * b + a * c + b * c - c ^ 2) ^ 2)]
    else if t = -2 then some [(1 / 2, fun a b c => sumA a b c ^ 2 * cyc3 (fun a b c => a ^ 2 * (b - c) ^ 2) a b c * sd3 a b c)]
    else if t = -1 / 2 then some [(1 / 2, fun a b c => cyc3 (fun a b _ => a * b) a b c ^ 2 * sd3 a b c ^ 2)]
    else hexRealMain X t

/-- The numbers of the branch for real variables (sextic_symmetric.py 289-301): the type, `coeffp`, `new_c420`, `new_c411`, `new_c321`. -/
def hexRealNums (f : Sextic K) : Bool × K × K × K × K :=
  if f.c411 ≤ f.c330 then
    let p := (f.c420 * 2 - f.c330) / 4
    let n := f.c420 - p
    (false, p, n, (f.c411 + p * 2) / n, (f.c321 - 2 * p) / n)
  else
    let p := (f.c420 * 2 - f.c411) / 4
    let n := f.c420 - p
    (true, p, n, (f.c330 + p * 2) / n, (f.c321 - 2 * p) / n)

/-- `1 / t` (sextic_symmetric.py 331-332); `1 / oo` is zero. -/
def invT : Option K → Option K
  | none => some 0
  | some t => some (1 / t)

/-- The answer of the branch for real variables (sextic_symmetric.py 324-394).  For `new_c420 = 0` the numbers are not finite and nothing is found; at `(2, -10)` the comparison
of `nan` raises `TypeError`, and so does a product with `None`. -/
def sxHexReal (X : SxHexExt K) (f : Sextic K) : Except PyErr (Option (Cert K)) :=
  let N := hexRealNums f
  if N.2.2.1 = 0 then .ok none
  else
    match hexComb N.2.2.2.1 N.2.2.2.2 with
    | none => .ok none
    | some (w, t) =>
      if N.2.2.2.1 = 2 ∧ N.2.2.2.2 = -10 then .error .typeError
      else
        let t := if N.1 then invT t else t
        match hexReal X (some 1), hexReal X t with
        | some l1, some l2 =>
          .ok (some (((Acute.over (.plain (l1.map (fun e => (w * N.2.2.1 * e.1, e.2)) ++ l2.map fun e => ((1 - w) * N.2.2.1 * e.1, e.2))) sd3).add N.2.1 discV).add f.symRem a2V))
        | _, _ => .error .typeError

/-- `new_coeffs_` (sextic_symmetric.py 400-406). -/
def Sextic.subDisc (f : Sextic K) : Sextic K :=
  ⟨0, 0, 0, 0, f.c411 + 2 * f.c420, 0, f.c330 + 2 * f.c420, f.c321 - 2 * f.c420, f.c312 - 2 * f.c420, f.c222 + 6 * f.c420⟩

/-- The end of `_sos_struct_sextic_hexagon_symmetric` (sextic_symmetric.py 397-410). -/
def sxHexRest (X : SxHexExt K) (f : Sextic K) : Except PyErr (Option (Cert K)) := (hexSym X.nd f.subDisc).map fun r => r.map fun C => C.add f.c420 discV

/-- `_sos_struct_sextic_hexagon_symmetric` (sextic_symmetric.py 211-410). -/
def sxHexagon (X : SxHexExt K) (real : Bool) (f : Sextic K) : Except PyErr (Option (Cert K)) :=
  if f.c420 ≤ 0 then if f.c420 = 0 then hexSym X.nd f else .ok none
  else if f.symRem < 0 then .ok none
  else
    match sxHexSdp X f with
    | .error e => .error e
    | .ok (some C) => .ok (some C)
    | .ok none =>
      if real = true ∧ |f.c330| ≤ 2 * f.c420 ∧ |f.c411| ≤ 2 * f.c420 then
        match sxHexReal X f with
        | .error e => .error e
        | .ok (some C) => .ok (some C)
        | .ok none => sxHexRest X f
      else sxHexRest X f

end Verif.Ternary
