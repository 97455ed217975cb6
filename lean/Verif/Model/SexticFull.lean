import Verif.Model.SexticIran

/-!
# The solver of symmetric sextics

Model of `sos_struct_sextic_symmetric_ultimate` (`triples/core/structsos/ternary/sextic_symmetric.py` 20-37), `_sos_struct_sextic_symmetric_full_sdp` (1194-1335),
`_sos_struct_sextic_symmetric_ultimate` (1887-2030), `_sos_struct_sextic_symmetric_ultimate_1root` (2032-2172) and `_sos_struct_sextic_symmetric_ultimate_2roots` (2175-2285).
`_sos_struct_sextic_symmetric_quadratic_form` (1338-1885) is a parameter.  Conventions as in `SexticIran`.
-/

namespace Verif.Ternary

open Verif Verif.Acute

variable {K : Type*} [Field K] [LinearOrder K]

/-- What the solver gets from SymPy and from other solvers. -/
structure UltExt (K : Type*) where
  /-- For `_sos_struct_sextic_iran96` and the solvers it calls. -/
  iran : IranExt K
  /-- `sos_struct_quartic` (1951, 2160). -/
  quart : Quartic K → Except PyErr (Option (Cert K))
  /-- `_sos_struct_sextic_symmetric_quadratic_form` (1967) in its `try`: an exception counts as no answer. -/
  quadForm : Sextic K → Option (Cert K)
  /-- The roots and approximations of `rationalize_func` (1333). -/
  detCands : Sextic K → List (Cand K)
  /-- `roots[0]` (1985-1991). -/
  border : Sextic K → List K
  /-- `roots[1]` (1994-2010). -/
  axis : Sextic K → List K

/-! ### The sum of squares for all real numbers -/

/-- `a0` (sextic_symmetric.py 1247). -/
def Sextic.a0 (f : Sextic K) : K := 2 * f.c321 + 3 * f.c330 + 3 * f.c411 + 8 * f.c420 + 14 * f.c510 + 12 * f.c600

/-- `a1` (sextic_symmetric.py 1246). -/
def Sextic.a1 (f : Sextic K) : K := 2 * f.c321 + 2 * f.c330 + 4 * f.c411 + 8 * f.c420 + 20 * f.c510 + 20 * f.c600

/-- `a2` (sextic_symmetric.py 1245). -/
def Sextic.a2 (f : Sextic K) : K := f.c411 + 2 * f.c420 + 10 * f.c510 + 15 * f.c600

/-- `a3` (sextic_symmetric.py 1244). -/
def Sextic.a3 (f : Sextic K) : K := 2 * f.c510 + 6 * f.c600

/-- `CyclicSum(x*a**3 + y*a*b**2 + y*a*c**2 - (x + 2*y)*a*b*c)**2` in the forms of `mapping` (sextic_symmetric.py 1253-1260). -/
def sdpMapping (x y : K) : Val3 K := fun a b c =>
  if x = 0 then y ^ 2 * s1V a b c ^ 2
  else if y = -3 * x / 2 then x ^ 2 / 4 * cycp3 (fun a b c => (a + b - 2 * c) ^ 2) a b c
  else if y = -x then x ^ 2 * cyc3 (fun a b c => a * (a - b) * (a - c)) a b c ^ 2
  else cyc3 (fun a b c => x * a ^ 3 + y * a * b ^ 2 + y * a * c ^ 2 - (x + 2 * y) * a * b * c) a b c ^ 2

/-- `_get_quad_sol` (sextic_symmetric.py 1252-1261). -/
def sdpQuad (l00 l01 l11 : K) : Option (List (K × Val3 K)) := (quadraticWeighting l00 (2 * l01) l11).map fun l => l.map fun w => (w.1, sdpMapping w.2.1 w.2.2)

/-- `detu` (sextic_symmetric.py 1276). -/
def sdpDet (f : Sextic K) (u : K) : K :=
  u ^ 3 - 3 * f.a2 * u ^ 2 + (-36 * f.a0 * f.c600 + 9 * f.a1 * f.a3) * u + (108 * f.a0 * f.a2 * f.c600 - 27 * f.a0 * f.a3 ^ 2 - 27 * f.a1 ^ 2 * f.c600)

/-- `func_l11` (sextic_symmetric.py 1277). -/
def sdpL11 (f : Sextic K) (u : K) : K :=
  -(-12 * f.a0 * f.a2 + 36 * f.a0 * f.a3 - 108 * f.a0 * f.c600 + 4 * f.a0 * u + 3 * f.a1 ^ 2 - 6 * f.a1 * u + 3 * u ^ 2) / (48 * f.a0)

/-- `func_w` (sextic_symmetric.py 1279-1280). -/
def sdpW (f : Sextic K) (u : K) : K :=
  -(9 * u ^ 2 + (12 * f.a0 - 18 * f.a1) * u + (16 * f.a0 ^ 2 - 24 * f.a0 * f.a1 + 12 * f.a0 * f.a2 - 12 * f.a0 * f.a3 - 36 * f.a0 * f.c600 - 48 * f.a0 * f.c420 + 9 * f.a1 ^ 2)) / (48 * f.a0)

/-- `p1` (sextic_symmetric.py 1295). -/
def sdpP (a0 a1 u : K) : Val3 K := fun a b c => u * (a ^ 2 + b ^ 2) + (4 * a0 - 3 * a1 + u) * c ^ 2 - (2 * a0 - 3 * a1 + u) * a * b + (2 * a0 - u) * (a * c + b * c)

/-- `_get_solution` (sextic_symmetric.py 1287-1301). -/
def sdpSol (f : Sextic K) (u : K) : Option (Cert K) :=
  match sdpQuad (-(-36 * f.a0 * f.c600 + u ^ 2) / (36 * f.a0)) ((6 * f.a0 * f.a3 - 36 * f.a0 * f.c600 - f.a1 * u + u ^ 2) / (24 * f.a0)) (sdpL11 f u) with
  | none => none
  | some l =>
    if sdpW f u < 0 then none
    else some (.plain ((1 / (72 * f.a0), cyc3 fun a b c => (a - b) ^ 2 * sdpP f.a0 f.a1 u a b c ^ 2) :: (sdpW f u, discV) :: (f.fullRem, a2V) :: l))

/-- `_validation` (sextic_symmetric.py 1303-1305). -/
def sdpValid (f : Sextic K) (u : K) : Bool := decide (0 ≤ sdpW f u ∧ 0 ≤ sdpL11 f u)

/-- The discriminant of `x^3 + b x^2 + c x + d`. -/
def cubicDisc (b c d : K) : K := b ^ 2 * c ^ 2 - 4 * c ^ 3 - 4 * b ^ 3 * d - 27 * d ^ 2 + 18 * b * c * d

/-- The case `a0 == 0` (sextic_symmetric.py 1263-1272). -/
def sdpZero (f : Sextic K) : Option (Cert K) :=
  if f.a1 ≠ 0 then none
  else
    let w := -f.a2 / 4 + f.a3 / 4 + 3 * f.c600 / 4 + f.c420
    match sdpQuad f.c600 (f.a3 / 4 - 3 * f.c600 / 2) (f.a2 / 4 - 3 * f.a3 / 4 + 9 * f.c600 / 4) with
    | none => none
    | some l => if w < 0 then none else some (.plain ((w, discV) :: (f.fullRem, a2V) :: l))

/-- The first of the numbers that passes `_validation`, with its solution (sextic_symmetric.py 1319-1327). -/
def sdpFirst (f : Sextic K) : List K → Option (Cert K)
  | [] => none
  | u :: us => if sdpValid f u then sdpSol f u else sdpFirst f us

/-- The coefficients `c2, c1, c0` of `detu` (sextic_symmetric.py 1276, 1315). -/
def sdpCo (f : Sextic K) : K × K × K :=
  (-3 * f.a2, -36 * f.a0 * f.c600 + 9 * f.a1 * f.a3, 108 * f.a0 * f.a2 * f.c600 - 27 * f.a0 * f.a3 ^ 2 - 27 * f.a1 ^ 2 * f.c600)

/-- The multiple roots of `detu` (sextic_symmetric.py 1316-1325). -/
def sdpMulti (c : K × K × K) : List K :=
  let denom := 3 * c.2.1 - c.1 ^ 2
  if denom = 0 then [-c.1 / 3] else [(-9 * c.2.2 + c.2.1 * c.1) / 2 / denom, (9 * c.2.2 - 4 * c.2.1 * c.1 + c.1 ^ 3) / denom]

/-- `_sos_struct_sextic_symmetric_full_sdp` (sextic_symmetric.py 1194-1335). -/
def sxFullSdp (X : UltExt K) (f : Sextic K) : Except PyErr (Option (Cert K)) :=
  let u0 := -2 * f.a0 / 3 + f.a1
  let disc := cubicDisc (sdpCo f).1 (sdpCo f).2.1 (sdpCo f).2.2
  if f.fullRem < 0 then .ok none
  else if f.c600 ≤ 0 ∨ f.a0 < 0 then .ok none
  else if f.a0 = 0 then .ok (sdpZero f)
  else if sdpL11 f u0 < 0 ∨ sdpW f u0 < 0 then .ok none
  else if 0 ≤ sdpDet f u0 then .ok (sdpSol f u0)
  else if disc < 0 then .ok none
  else if disc = 0 then .ok (sdpFirst f (sdpMulti (sdpCo f)))
  else
    match rationalizeFunc (sdpDet f) 1 (fun u => .ok (sdpValid f u)) (X.detCands f) with
    | .error e => .error e
    | .ok none => .ok none
    | .ok (some u) => .ok (sdpSol f u)

/-! ### Roots on the border -/

/-- The symmetric sextic with given coefficients. -/
def Sextic.sym (c600 c510 c420 c330 c411 c321 c222 : K) : Sextic K := ⟨c600, c510, c510, c420, c411, c420, c330, c321, c321, c222⟩

/-- `poly - k * g`. -/
def Sextic.minus (f : Sextic K) (k : K) (g : Sextic K) : Sextic K :=
  ⟨f.c600 - k * g.c600, f.c510 - k * g.c510, f.c501 - k * g.c501, f.c420 - k * g.c420, f.c411 - k * g.c411, f.c402 - k * g.c402, f.c330 - k * g.c330, f.c321 - k * g.c321,
    f.c312 - k * g.c312, f.c222 - k * g.c222⟩

/-- The coefficients of `(a**3+b**3+c**3-3*a*b*c-x_*(a*a*(b+c)+b*b*(c+a)+c*c*(a+b)-6*a*b*c))**2` (sextic_symmetric.py 2063), also of the square at 2199. -/
def borderPoly (x : K) : Sextic K := .sym 1 (-2 * x) (x ^ 2 - 2 * x) (2 * x ^ 2 + 2) (2 * x ^ 2 + 12 * x - 6) (-10 * x ^ 2 + 4 * x) (42 * x ^ 2 - 36 * x + 9)

/-- `CyclicSum(a**3-x_*a**2*(b+c)+(2*x_-1)*a*b*c)**2` (sextic_symmetric.py 2070, 2199). -/
def borderSq (x : K) : Val3 K := fun a b c => cyc3 (fun a b c => a ^ 3 - x * a ^ 2 * (b + c) + (2 * x - 1) * a * b * c) a b c ^ 2

/-- The square that is added (sextic_symmetric.py 2066-2071). -/
def borderTerm (x : K) : Val3 K := fun a b c =>
  if x = 3 / 2 then cycp3 (fun a b c => (a + b - 2 * c) ^ 2) a b c / 4
  else if x = 1 then cyc3 (fun a b c => a * (a - b) * (a - c)) a b c ^ 2
  else borderSq x a b c

/-- A root on the border only (sextic_symmetric.py 2053-2073). -/
def ultBorder (X : UltExt K) (real : Bool) (f : Sextic K) (r : K) : Except PyErr (Option (Cert K)) :=
  let x := r - 1
  if r ≠ 2 ∧ -2 * x ≤ f.c510 then (sxIran X.iran real (f.minus f.c600 (borderPoly x))).map fun o => o.map fun C => C.add f.c600 (borderTerm x)
  else .ok none

/-! ### A root on the symmetric axis -/

/-- `z0, z1, z2, z3` (sextic_symmetric.py 2090-2096). -/
def axisZ (f : Sextic K) (x : K) : K × K × K × K :=
  let d := 1 / (2 * x ^ 4 - 4 * x ^ 2 + 2)
  (f.c600 / 2, (2 * f.c600 * x ^ 5 - 4 * f.c600 * x ^ 3 - 2 * f.c600 * x + 2 * f.c510 * x ^ 4 - 6 * f.c510 * x ^ 2 - 4 * f.c420 * x - f.c330 * x ^ 2 - f.c330) * d,
    (4 * f.c600 * x + 2 * f.c510 * x ^ 2 + 2 * f.c510 + 4 * f.c420 * x + f.c330 * x ^ 2 + f.c330) * d,
    (-f.c600 * x ^ 4 + 4 * f.c600 * x ^ 2 + f.c600 + 4 * f.c510 * x + 2 * f.c420 * x ^ 2 + 2 * f.c420 + 2 * f.c330 * x) * d)

/-- `z0*(a**2+b**2) + z1*a*b + z2*c*(a+b) + z3*c**2`. -/
def axisS (z : K × K × K × K) : Val3 K := fun a b c => z.1 * (a ^ 2 + b ^ 2) + z.2.1 * a * b + z.2.2.1 * c * (a + b) + z.2.2.2 * c ^ 2

/-- `p1` (sextic_symmetric.py 2121-2138): `together().as_coeff_Mul()` only moves a factor. -/
def axisP (z : K × K × K × K) : Option (Val3 K) :=
  let (z0, z1, z2, z3) := z
  if 0 < z3 ∨ (z2 = 0 ∧ z3 = 0) then
    let ratio := -z2 / (2 * z3)
    let r1 := if 0 < z3 then z0 - z2 ^ 2 / 4 / z3 else z0
    let r2 := if 0 < z3 then z1 + 2 * r1 - 2 * (z0 - r1) else z1 + 2 * z0
    if 0 ≤ r1 ∧ 0 ≤ r2 then
      some fun a b c => (if 0 < z3 then z3 * (c - ratio * a - ratio * b) ^ 2 else 0) +
        (if 4 * r1 < r2 then r1 * (a - b) ^ 2 + r2 * a * b else (r1 - r2 / 4) * (a - b) ^ 2 + r2 / 4 * (a + b) ^ 2)
    else none
  else if 0 ≤ 2 * z0 + z1 ∧ 0 ≤ z2 ∧ 0 ≤ z3 then some fun a b c => z0 * (a - b) ^ 2 + (2 * z0 + z1) * a * b + z2 * c * (a + b) + z3 * c ^ 2
  else none

/-- `quartic` (sextic_symmetric.py 2148-2155). -/
def axisQuartic (z : K × K × K × K) : Quartic K :=
  let (z0, z1, z2, z3) := z
  let p := z0 * z1 + 3 * z0 * z2 + z1 * z3 + z2 * z3
  ⟨z0 ^ 2 + 2 * z0 * z3, p, 3 * z0 ^ 2 + 2 * z0 * z3 + 2 * z1 * z2 + z2 ^ 2 + z3 ^ 2, p, 2 * z0 * z1 + 2 * z0 * z2 + z1 ^ 2 + 2 * z1 * z2 + 3 * z2 ^ 2 + 2 * z2 * z3⟩

/-- A root on the symmetric axis only (sextic_symmetric.py 2078-2169).  Division by the multiplier `None` raises `TypeError`. -/
def ultAxis (X : UltExt K) (f : Sextic K) (r : K) : Except PyErr (Option (Cert K)) :=
  let x := r + 1
  if r = 0 then .ok none
  else if X.iran.rational f = true ∧ X.iran.hex.isRat x = false then .ok none
  else
    let z := axisZ f x
    match axisP z with
    | some p => .ok (some (.plain [(1, cyc3 fun a b c => p a b c * (a - b) ^ 2 * (a + b - x * c) ^ 2)]))
    | none =>
      let (z0, z1, z2, z3) := z
      if 0 ≤ 2 * z0 + z3 ∧ 0 ≤ 2 * z0 + z3 + z1 + 2 * z2 then
        match X.quart (axisQuartic z) with
        | .error e => .error e
        | .ok none => .ok none
        | .ok (some Q) =>
          match quadratic (2 * (2 * z0 + z3)) (2 * (z1 + 2 * z2)) with
          | none => .error .typeError
          | some M =>
            let func : Val3 K := fun a b c => axisS z a b c * (a - b) * (a + b - x * c)
            .ok (some (((times (cyc3 fun a b c => (a - b) ^ 2 * (a + b - x * c) ^ 2) Q).add 1 (cyc3 fun a b c => (func b c a - func c a b) ^ 2)).quot M))
      else .ok none

/-- `_sos_struct_sextic_symmetric_ultimate_1root` (sextic_symmetric.py 2032-2172). -/
def ultOne (X : UltExt K) (real : Bool) (f : Sextic K) : Except PyErr (Option (Cert K)) :=
  match X.border f, X.axis f with
  | [r], _ => ultBorder X real f r
  | _ :: _, _ => .ok none
  | [], [r] => ultAxis X f r
  | [], _ => .ok none

/-! ### Roots on the border and on the axis -/

/-- `get_diffpoly` (sextic_symmetric.py 2225-2231), for `x = 0` also the polynomial at 2250-2251. -/
def diffPoly (x : K) : Sextic K := .sym 1 (-x - 1) (4 * x - 5) (10 - 6 * x) (x ^ 2 - 4 * x + 11) (-x ^ 2 + 5 * x - 10) (3 * x ^ 2 - 18 * x + 30)

/-- `solution` and `diffpoly` for the border point `(1,0,1)` (sextic_symmetric.py 2233-2268).  **For `x = 4` and `x = 1` the polynomial contains the factor `coeff6`, which
is multiplied once more at 2272.** -/
def twoDiff (m x : K) : Option (Cert K × Sextic K) :=
  if x = 4 then some (.plain [(m / 2, fun a b c => sd3 a b c * cyc3 (fun a b c => a ^ 2 - 2 * b * c) a b c ^ 2)], (Sextic.sym 0 0 0 0 0 0 0).minus (-m) (diffPoly 4))
  else if x = 1 then some (.plain [(m, fun a b c => cyc3 (fun a b c => a * (a - b) * (a - c)) a b c ^ 2)], (Sextic.sym 0 0 0 0 0 0 0).minus (-m) (diffPoly 1))
  else if 1 < x then
    (quadratic 1 (x - 2)).map fun M =>
      ((Cert.plain [((4 - x) * (x - 1) / 2 * m, cyc3 fun a b c => a ^ 2 * (b - c) ^ 2 * (a ^ 2 + b ^ 2 + c ^ 2 - 2 * a * b - 2 * a * c + (2 - x) * b * c) ^ 2),
        (m / 2, fun a b c => cyc3 (fun _ b c => (b - c) ^ 2) a b c * ((2 * x - x ^ 2) * a * b * c - cycp3 (fun a b c => a + b - c) a b c) ^ 2)]).quot M, diffPoly x)
  else
    let x := if x ≤ 0 then 0 else x
    (schur 3).map fun S =>
      (Acute.over (((times (fun a b c => prodA a b c * cyc3 (fun a b c => (b - c) ^ 2 * (b + c - (x + 1) * a) ^ 2) a b c) S).smul m).add 1 fun a b c => discV a b c *
        (m * cyc3 (fun a b c => (a - b) ^ 2 * (a + b - c) ^ 2) a b c + 2 * (2 - x) * m * cyc3 (fun a b _ => a * b * (a - b) ^ 2) a b c +
          12 * (1 - x) * m * cyc3 (fun a b c => a ^ 2 * b * c) a b c)) (cyc3 fun a b c => a ^ 2 * (b - c) ^ 2), diffPoly x)

/-- `x` (sextic_symmetric.py 2206-2209): `none` if it is not assigned. -/
def twoX : List K → Option K
  | [r] => some r
  | [r, s] => if r = 0 ∨ s = 0 then some (r + s) else none
  | _ => none

/-- `_sos_struct_sextic_symmetric_ultimate_2roots` (sextic_symmetric.py 2175-2285).  Reading `x` before it is assigned raises `UnboundLocalError`. -/
def ultTwo (X : UltExt K) (f : Sextic K) : Except PyErr (Option (Cert K)) :=
  let finish : Cert K × Sextic K → Except PyErr (Option (Cert K)) := fun d => (sxIran X.iran true (f.minus f.c600 d.2)).map fun o => o.map fun C => d.1.plus C
  if X.border f ≠ [2] then
    match X.border f with
    | [] => .ok none
    | r :: _ =>
      if X.iran.hex.isRat (r - 1) = false then .ok none
      else finish (.plain [(f.c600, borderSq (r - 1))], borderPoly (r - 1))
  else if 1 ≤ (X.axis f).length ∧ (X.axis f).length ≤ 2 then
    match twoX (X.axis f) with
    | none => .error (.custom "UnboundLocalError")
    | some x =>
      if 4 < x then .ok none
      else
        match twoDiff f.c600 x with
        | none => .error .typeError
        | some d => finish d
  else .ok none

/-! ### The solver -/

/-- `_sos_struct_sextic_symmetric_ultimate` (sextic_symmetric.py 1887-2030).  The division of `f(a,1,1)` by `(a-1)^2` (1995) has no remainder when `rem` is zero (`axis_form`),
so that exit is left out. -/
def ultMain (X : UltExt K) (real : Bool) (f : Sextic K) : Except PyErr (Option (Cert K)) :=
  if f.fullRem ≠ 0 then .ok none
  else
    let m := f.c600
    let p := f.c600 + f.c510
    let n := -2 * f.c600 + 2 * f.c420 + f.c330
    let u := 8 * f.c600 + 6 * f.c510 - f.c330 + f.c411
    let v := -6 * f.c600 - 2 * f.c510 + 4 * f.c420 + 3 * f.c330 + f.c321
    let w := 2 * f.c600 + f.c510 - f.c420 - f.c330
    if 3 * u + 2 * v < 0 then .ok none
    else if v = 0 ∧ w = 0 then (X.quart ⟨m, p, n, p, u - m - 2 * p - n⟩).map fun o => o.map fun C => (times sd3 C).smul (1 / 2)
    else
      tryNext (sxFullSdp X f) <| tryNext (.ok (if X.iran.rational f then X.quadForm f else none)) <| tryNext (schurSplit X.iran f) <|
        match X.border f, X.axis f with
        | [], [] => .ok none
        | _ :: _, _ :: _ => ultTwo X f
        | _, _ => ultOne X real f

/-- `sos_struct_sextic_symmetric_ultimate` (sextic_symmetric.py 20-37). -/
def sxUltimate (X : UltExt K) (real : Bool) (f : Sextic K) : Except PyErr (Option (Cert K)) :=
  if ¬ (f.c510 = f.c501 ∧ f.c420 = f.c402 ∧ f.c321 = f.c312) then .ok none
  else if f.c600 = 0 then sxIran X.iran real f
  else if f.c600 < 0 then .ok none
  else if f.c510 = 0 ∧ f.c420 = 0 ∧ f.c321 = 0 then sexticTree X.iran.hex.nd f
  else ultMain X real f

end Verif.Ternary
