import Verif.Model.TernaryQuartic

/-!
# Ternary roots and their tangents

Model of the class `TernaryMixin` (triples/utils/roots/roots.py 353-541): the parameters `u, v` of a root, the reduced cyclic sums, the standard form; and of triples/core/linsos/tangents.py: the
polynomials vanishing at given roots that LinSOS squares.

Simplifications.  A root is a triple of numbers of a field.  The numbers `u, v` and `x` of the tangents are exact: the rationalisation `rl` and the tests `near`, `near2` that accept its result are not
modelled.  An integer relation found by `pslq` is an argument.  The cache of `cyclic_sum` is not modelled, nor `from_uv` and `approximate`, which compute with approximations, nor
`_tangents_irrational_uv`.
-/

namespace Verif.Roots

open Verif Verif.Ternary

variable {K : Type*} [Field K] [DecidableEq K]

/-! ### Shapes of roots -/

/-- `is_centered` (roots.py 87-90). -/
def isCentered (a b c : K) : Bool := decide (a = b ∧ a = c)

/-- `is_corner` (roots.py 75-77). -/
def isCorner (a b c : K) : Bool := decide (([a, b, c].countP fun x => decide (x = 0)) > 1)

/-- `is_border` (roots.py 79-81). -/
def isBorder (a b c : K) : Bool := decide (([a, b, c].countP fun x => decide (x = 0)) > 0)

/-- `is_symmetric` (roots.py 83-85). -/
def isSymmetric (a b c : K) : Bool := decide ([a, b, c].eraseDups.length < 3)

/-- `is_nontrivial` (roots.py 92-94). -/
def isNontrivial (a b c : K) : Bool := !isBorder a b c && !isSymmetric a b c

/-! ### The parameters `u, v` -/

/-- `sa2b2 - sa2bc` (roots.py 365-369). -/
def den (a b c : K) : K := a ^ 2 * b ^ 2 + b ^ 2 * c ^ 2 + c ^ 2 * a ^ 2 - a * b * c * (a + b + c)

/-- `TernaryMixin.__init__` (roots.py 357-372); `none` is `(oo, oo)`. -/
def uv (a b c : K) : Option (K × K) :=
  if isCentered a b c then some (2, 2)
  else if isCorner a b c then none
  else some ((a * b ^ 3 + b * c ^ 3 + c * a ^ 3 - a * b * c * (a + b + c)) * (1 / den a b c), (a ^ 3 * b + b ^ 3 * c + c ^ 3 * a - a * b * c * (a + b + c)) * (1 / den a b c))

/-- `_ker` (roots.py 374-375). -/
def ker (u v : K) : K := u ^ 2 - u * v + v ^ 2 + u + v + 1

/-! ### `cyclic_sum` -/

/-- The table for exponents below three (roots.py 473-492). -/
def csBase (u v : K) : ℕ → ℕ → K
  | 0, 0 => 3
  | 0, 1 => 1
  | 0, 2 => 1 - 2 * ((u + v - 1) / ker u v)
  | 1, 0 => 1
  | 1, 1 => (u + v - 1) / ker u v
  | 1, 2 => ((v - u) * (u * v + u + v - 2) + u ^ 3 + 1) / ker u v ^ 2
  | 2, 0 => 1 - 2 * ((u + v - 1) / ker u v)
  | 2, 1 => ((u - v) * (u * v + u + v - 2) + v ^ 3 + 1) / ker u v ^ 2
  | 2, 2 => (u ^ 2 + v ^ 2 - 2 * (u + v) + 3) / ker u v ^ 2
  | _, _ => 0

/-- The remainder of `x**n` modulo `self.poly()`, `x^3 - x^2 + q x - r` (roots.py 421-427, 461-464): the coefficients of `1, x, x^2`. -/
def powMod (q r : K) : ℕ → K × K × K
  | 0 => (1, 0, 0)
  | n + 1 => let t := powMod q r n; (r * t.2.2, t.1 - q * t.2.2, t.2.1 + t.2.2)

/-- The products of the two remainders (roots.py 465-468). -/
def csReduced (u v : K) (i j : ℕ) : K :=
  let q := (u + v - 1) / ker u v
  let r := (u * v - 1) / ker u v ^ 2 * 3 / 3
  let s := powMod q r i
  let t := powMod q r j
  s.1 * t.1 * csBase u v 0 0 + s.1 * t.2.1 * csBase u v 0 1 + s.1 * t.2.2 * csBase u v 0 2 + s.2.1 * t.1 * csBase u v 1 0 + s.2.1 * t.2.1 * csBase u v 1 1 +
    s.2.1 * t.2.2 * csBase u v 1 2 + s.2.2 * t.1 * csBase u v 2 0 + s.2.2 * t.2.1 * csBase u v 2 1 + s.2.2 * t.2.2 * csBase u v 2 2

/-- The part of `cyclic_sum` for exponents with a zero (roots.py 444-494). -/
def csZero (u v : K) (i j k : ℕ) : K :=
  let t : ℕ × ℕ × ℕ := if k ≠ 0 then (if j = 0 then (k, i, j) else if i = 0 then (j, k, i) else (i, j, k)) else (i, j, k)
  let t : ℕ × ℕ := if t.1 = 0 then (t.2.1, t.1) else (t.1, t.2.1)
  if 3 ≤ max i (max j k) then csReduced u v t.1 t.2 else csBase u v t.1 t.2

/-- `TernaryMixin.cyclic_sum(monom)` (roots.py 429-494). -/
def cyclicSum (u v : K) (i j k : ℕ) : K :=
  let m := min i (min j k)
  if 1 ≤ m then ((u * v - 1) / ker u v ^ 2) ^ m * csZero u v (i - m) (j - m) (k - m) else csZero u v i j k

/-! ### `standardize` -/

/-- The first rotation that satisfies the test (roots.py 522-534). -/
def firstRot (test : K → K → K → Bool) (a b c : K) : K × K × K :=
  if test a b c then (a, b, c) else if test b c a then (b, c, a) else if test c a b then (c, a, b) else (a, b, c)

/-- `standardize(cyc)` (roots.py 497-540). -/
def standardize [LinearOrder K] (cyc : Bool) (a b c : K) : K × K × K :=
  if isCentered a b c then (1, 1, 1)
  else
    let s := (a + b + c) / 3
    let r := (a / s, b / s, c / s)
    if cyc then
      let m := max r.1 (max r.2.1 r.2.2)
      if isSymmetric a b c then firstRot (fun x _ z => decide (x = m ∧ z < m)) r.1 r.2.1 r.2.2 else firstRot (fun x _ _ => decide (x = m)) r.1 r.2.1 r.2.2
    else r

/-! ### Tangents -/

/-- `quad` (tangents.py 187, 433-434, 513-514). -/
def quad (u v : K) : Val3 K := fun a b c => a ^ 2 - b ^ 2 + u * (a * b - a * c) + v * (b * c - a * b)

/-- `diamond` (tangents.py 191). -/
def diamond (u v : K) : Val3 K := fun a b c => (u + v - 1) * a ^ 2 + (-v ^ 2 + v - 1) * a * b + (-u ^ 2 + u - 1) * a * c + (u * v - 1) * b * c

/-- `_tangents_quadratic` (tangents.py 178-198). -/
def tanQuadratic (centered strict : Bool) (u v : K) : List (Val3 K) :=
  [quad u v] ++
    if !centered && strict then
      [diamond u v, fun a b c => (v ^ 2 - v + 1) * diamond u v a b c + (u * v - 1) * diamond u v b c a, fun a b c => (u * v - 1) * diamond u v a b c + (u ^ 2 - u + 1) * diamond u v b c a]
    else []

/-- `trapezoid` (tangents.py 213, 242). -/
def trapezoid (u v : K) : Val3 K := fun a b c =>
  a ^ 3 + a ^ 2 * b * (u - v - 1) - a ^ 2 * c * u + a * b ^ 2 * (v - 1) + a * c ^ 2 * v + b ^ 2 * c * (1 - u) + b * c ^ 2 * (u - v + 1) - c ^ 3

/-- `inverse_quad` (tangents.py 222). -/
def inverseQuad (p q : K) : Val3 K := fun a b c => a ^ 2 * c - b ^ 2 * c - p * (a ^ 2 * b - a * b * c) + q * (a * b ^ 2 - a * b * c)

/-- `umbrella` (tangents.py 224-227). -/
def umbrella (u v : K) : Val3 K := fun a b c =>
  (1 - u * v) * (a ^ 2 * c) + (u ^ 2 * v - u) * (a * b ^ 2) + (u ^ 3 - u ^ 2 * v - u ^ 2 + u * v + u - v) * (a * b * c) + (-u ^ 3 - 1) * (b ^ 2 * c) + (u ^ 2 + v) * (b * c ^ 2)

/-- `scythe` (tangents.py 229-232). -/
def scythe (u v : K) : Val3 K := fun a b c =>
  (1 - u * v) * (a ^ 2 * c) + (u ^ 3 - u ^ 2 * v - u ^ 2 + u * v ^ 2 + u * v + u - 2 * v) * (a * b * c) + (u * v - 1) * b ^ 3 + (-u ^ 3 + u ^ 2 * v - u * v ^ 2 - u + v - 1) * (b ^ 2 * c) +
    (u ^ 2 - u * v + v + 1) * (b * c ^ 2)

/-- `knife` (tangents.py 237-240). -/
def knife (u v : K) : Val3 K := fun a b c =>
  (1 - u * v) * (a ^ 2 * c) + (-u ^ 3 + u ^ 2 * v - u * v - u) * (a * b ^ 2) + (u ^ 3 - u ^ 2 + u * v + u + v ^ 2 - v) * (a * b * c) + (u ^ 2 + v) * b ^ 3 +
    (-u ^ 2 * v + u * v - v ^ 2 - 1) * (b ^ 2 * c)

/-- `_tangents_cubic` (tangents.py 201-251). -/
def tanCubic (centered : Bool) (u v : K) : List (Val3 K) :=
  if u * v = 1 then []
  else
    [inverseQuad ((u * u + v) / (u * v - 1)) ((v * v + u) / (u * v - 1)), umbrella u v, scythe u v] ++
      if centered then [knife u v, trapezoid u v]
      else
        [cyc3 fun a b c => (u * v - 1) * a ^ 2 * b - ((u - v) * (u * v + u + v - 2) + v ^ 3 + 1) / 3 * a * b * c,
          cyc3 fun a b c => (u * v - 1) * a ^ 2 * c - ((v - u) * (u * v + u + v - 2) + u ^ 3 + 1) / 3 * a * b * c]

/-- `_standard_border_root` (tangents.py 80-85); `none` is the `ValueError`. -/
def borderX (a b c : K) : Option K := if a = 0 then some (b / c) else if b = 0 then some (c / a) else if c = 0 then some (a / b) else none

/-- `_standard_symmetric_root` (tangents.py 87-92); `none` is the `ValueError`. -/
def symX (a b c : K) : Option K := if a = b then some (c / b) else if b = c then some (a / c) else if c = a then some (b / a) else none

/-- `_tangents_helper_ternary_cyclic._tangents_border` for a rational `x` (tangents.py 308-317). -/
def tanBorder (x : K) : List (Val3 K) :=
  if x = 0 then []
  else if x = 1 then [fun a b c => a + b - c]
  else [fun a b c => x * a - x ^ 2 * b - c, fun a b c => a ^ 2 - b ^ 2 + 1 / x * (a * b - a * c) + x * (b * c - a * b)]

/-- The tangent for a border root with the relation `u x^2 + v x + w = 0` (tangents.py 319-324). -/
def tanBorderQuad (u v w : K) : Val3 K := fun a b c =>
  w * u * a ^ 2 + w * v * a * b + w ^ 2 * b ^ 2 + u ^ 2 * c ^ 2 + u * v * a * c - (w * (u + v + w) + u * (u + v)) * b * c

/-- `_tangents_helper_ternary_symmetric._tangents_border` (tangents.py 340-356); `v` is `x + 1/x`. -/
def tanSymBorder [LinearOrder K] (strict : Bool) (x : K) : List (Val3 K) :=
  if x = 0 then []
  else if x = 1 then [fun a b c => a + b - c]
  else if 1 < x then []
  else
    let v := x + 1 / x
    if strict then [fun a b c => a ^ 2 + b ^ 2 + c ^ 2 - v * a * c - v * b * c + (2 * v - 3) * a * b, fun a b _ => a ^ 2 - v * a * b + b ^ 2] else []

/-- `_tangents_symmetric` for a rational `x` (tangents.py 359-373). -/
def tanSym (x : K) : List (Val3 K) :=
  if x = 0 then [fun a b c => a + b - c]
  else
    [fun a b c => a + b - (x + 1) * c, fun a b c => x * a * b + x * a * c - (x + 1) * b * c,
      fun a b c => a ^ 2 + a * b * (-2 * x - 2) + a * c * (x + 1) + b ^ 2 + b * c * (x + 1) - 2 * c ^ 2]

/-- The tangents for a symmetric root with the relation `u x^2 + v x + w = 0` (tangents.py 375-382). -/
def tanSymQuad (u v w : K) : List (Val3 K) :=
  [-v, u + w].map fun t a b c => (-a ^ 2 + a * b + a * c - b * c) * t + (-a ^ 2 + b ^ 2 + c ^ 2) * u + b * c * v + a ^ 2 * w

/-- `_tangent_t` of one interior and one border root (tangents.py 436-448); `none` for `t` is `oo`. -/
def mixT (u v x : K) (t : Option K) : Option (Val3 K) :=
  let m := u * x - 1
  let n := x - v
  let basis : Val3 K := fun a b c => (m + x * n) * quad u v a b c + (x * n) * quad u v b c a
  let diff : Val3 K := fun a b c => (m * n * b + m ^ 2 * c) * quad u v a b c + (n ^ 2 * a + m * n * b) * quad u v b c a
  if t = some 0 then some basis
  else if m = 0 ∨ n = 0 then none
  else
    match t with
    | none => some diff
    | some t => some fun a b c => diff a b c * t + basis a b c * c

/-- `_tangent_t2` (tangents.py 455-464). -/
def mixT2 (u v x : K) (t : Option K) : Option (Val3 K) :=
  let m := u * x - 1
  let n := v * x - 1
  let basis : Val3 K := fun a b c => (x * m + n) * quad u v a b c + (x * n) * quad u v b c a
  let diff : Val3 K := fun a b c => (m * n * b + (x - u) * m * c) * quad u v a b c + ((x - v) * n * a + m * n * b) * quad u v b c a
  match t with
  | none => some diff
  | some t => if t = 0 then none else some fun a b c => diff a b c * t + basis a b c * c

/-- `x / y` in SymPy for rational numbers: a division of a nonzero number by zero is `zoo` (`some none`), of zero by zero is `nan` (`none`). -/
def sdiv (x y : K) : Option (Option K) := if y = 0 then (if x = 0 then none else some none) else some (some (x / y))

/-- `_tangents_nontrivial_1_border_1` (tangents.py 426-469) for a rational `x`.  `none` is the `NameError` at `_tangent_t2`, which is defined only if `u != v`.  A tangent whose parameter is `nan` is kept by
the code as an expression `nan`; it is left out here. -/
def mix11 (u v x : K) : Option (List (Val3 K)) :=
  if x = 0 then some []
  else
    let t3 := sdiv (-u * x - v * x + x ^ 2 + 1) (x * (u * v - 1))
    let t4 := sdiv (-(u * x - 1) * (u * x - v * x + x ^ 2 - 1)) (x * (u ^ 2 * x ^ 2 - 2 * u * x + v ^ 3 - 2 * v ^ 2 * x + v * x ^ 2 + 1))
    let app (f : Option K → Option (Val3 K)) (t : Option (Option K)) : Option (Val3 K) := match t with | some (some t) => f (some t) | _ => none
    let l := [mixT u v x (some 0), mixT u v x none, app (mixT u v x) t3, app (mixT u v x) t4]
    if u = v then none
    else some ((l ++ [mixT2 u v x none, app (mixT2 u v x) (sdiv (-u + x) (u * v - 1))]).filterMap id)

/-- `vertex1` (tangents.py 495-502). -/
def vertex1 (u v c2 c1 c0 : K) : List K :=
  [0, -c0 * u ^ 2 - c1 * u - c2, c0 + c1 * v + c2 * v ^ 2, -c0 * u - c1 - c2 * v, -c0 * u ^ 2 + c0 * u * v - c0 - c1 * u - c2, c2 * (u * v - 1)]

/-- `vertex2` (tangents.py 504-511). -/
def vertex2 (u v c2 c1 c0 : K) : List K :=
  [c0 * c2 * (u * v - 1) * (c0 * u + c1 + c2 * v),
    c2 ^ 3 + (2 * c0 * u ^ 2 - c0 * u * v + c0 + 2 * c1 * u) * c2 ^ 2 +
      (c0 ^ 2 * u ^ 4 - c0 ^ 2 * u ^ 3 * v + c0 ^ 2 * u ^ 2 * v ^ 2 + c0 ^ 2 * u ^ 2 - 2 * c0 ^ 2 * u * v + c0 ^ 2 + 2 * c0 * c1 * u ^ 3 - c0 * c1 * u ^ 2 * v + c0 * c1 * u * v ^ 2 + c0 * c1 * u - c0 * c1 * v +
        c1 ^ 2 * u ^ 2) * c2 + c0 ^ 2 * c1 * u ^ 2 * v - c0 ^ 2 * c1 * u + c0 * c1 ^ 2 * u * v - c0 * c1 ^ 2,
    -(c0 * u + c1 + c2 * v) * c2 * (c0 * u + c1 + c2 * v),
    (c0 * u ^ 2 + c1 * u + c2) * c2 * (c0 * u + c1 + c2 * v),
    (-u * v + 1) * c0 ^ 3 + (c1 * u ^ 2 * v - c1 * u * v ^ 2 - c1 * u + c1 * v + c2 * u ^ 4 - 2 * c2 * u ^ 3 * v + 2 * c2 * u ^ 2 * v ^ 2 + 2 * c2 * u ^ 2 - c2 * u * v ^ 3 - 4 * c2 * u * v + c2 * v ^ 2 + 2 * c2) * c0 ^ 2 +
      (c1 ^ 2 * u * v - c1 ^ 2 + 2 * c1 * c2 * u ^ 3 - 2 * c1 * c2 * u ^ 2 * v + c1 * c2 * u * v ^ 2 + 2 * c1 * c2 * u - c1 * c2 * v + 2 * c2 ^ 2 * u ^ 2 - 2 * c2 ^ 2 * u * v + 2 * c2 ^ 2) * c0 + c1 ^ 2 * c2 * u ^ 2 +
      2 * c1 * c2 ^ 2 * u + c2 ^ 3,
    0]

/-- `_tangent_t` of one interior and two border roots (tangents.py 516-519). -/
def mixV (u v c2 c1 c0 t : K) : Val3 K :=
  let x := List.zipWith (fun v1 v2 => (1 - t) * v1 + t * v2) (vertex1 u v c2 c1 c0) (vertex2 u v c2 c1 c0)
  fun a b c => (x.getD 0 0 * a + x.getD 1 0 * b + x.getD 2 0 * c) * quad u v a b c + (x.getD 3 0 * a + x.getD 4 0 * b + x.getD 5 0 * c) * quad u v b c a

/-- `_tangents_nontrivial_1_border_2` (tangents.py 472-532) after the relation `c2 x^2 + c1 x + c0 = 0` is found.  The set of the last two parameters is a list here. -/
def mix12 (u v c2 c1 c0 : K) : List (Val3 K) :=
  let v1 := vertex1 u v c2 c1 c0
  let v2 := vertex2 u v c2 c1 c0
  let s1 := (v1.take 3).sum
  let r1 := (v1.drop 3).sum
  let s2 := (v2.take 3).sum
  let r2 := (v2.drop 3).sum
  let k1 := v1.getD 4 0 - v1.getD 1 0
  let k2 := v2.getD 4 0 - v2.getD 1 0
  [quad u v, mixV u v c2 c1 c0 0] ++ (if s1 * r2 = s2 * r1 ∧ s1 ≠ s2 then [mixV u v c2 c1 c0 (s1 / (s1 - s2))] else []) ++
    (if s1 ≠ s2 ∨ r1 ≠ r2 then
      [mixV u v c2 c1 c0 1] ++ (match sdiv k1 (k1 - k2) with | some (some t) => [mixV u v c2 c1 c0 t] | _ => [])
    else [])

/-- `_tangents_symmetric_border` for one symmetric root `(x, 1, 1)` and border roots with `y + 1/y = r` (tangents.py 562-573). -/
def mixSym (r x : K) : List (Val3 K) :=
  let v := (r + x * (r - x) - 2) / x
  [fun a b c => a ^ 2 + b ^ 2 + c ^ 2 - r * a * (b + c) + v * b * c, fun a b c => a + b - (x + 1) * c, fun a b c => x * a * b + x * a * c - (x + 1) * b * c]

/-- `line` (tangents.py 589, 606). -/
def lineT (x y z : K) : Val3 K := fun a b c => (y - z) * a + (z - x) * b + (x - y) * c

/-- `perp_line` (tangents.py 590, 607). -/
def perpLine (x y z : K) : Val3 K := fun a b c => (x * y + x * z - y ^ 2 - z ^ 2) * a + (-x ^ 2 + x * y + y * z - z ^ 2) * b + (-x ^ 2 + x * z - y ^ 2 + y * z) * c

/-- `_tangents_helper_ternary_acyclic._tangents_border` (tangents.py 584-592) for a rational root. -/
def tanAcBorder (x y z : K) : List (Val3 K) := if isSymmetric x y z then [] else [lineT x y z, perpLine x y z]

/-- `_tangents_rational` (tangents.py 604-617). -/
def tanRational (x y z : K) : List (Val3 K) :=
  if x = y ∨ y = z ∨ z = x then [perpLine x y z]
  else
    [lineT x y z, perpLine x y z, fun a b c => x * (y - z) * b * c + y * (z - x) * c * a + z * (x - y) * a * b,
      fun a b c => (-x * y + x * z + y ^ 2 - z ^ 2) * a ^ 2 + (x ^ 2 - x * z - y ^ 2 + y * z) * a * b + (-x ^ 2 + x * y - y * z + z ^ 2) * a * c + (-x ^ 2 + x * y - y * z + z ^ 2) * b ^ 2 +
        (-x * y + x * z + y ^ 2 - z ^ 2) * b * c + (x ^ 2 - x * z - y ^ 2 + y * z) * c ^ 2]

/-- The line through two points (tangents.py 657-659). -/
def lineThrough (r1 r2 : K × K × K) : Val3 K := fun a b c =>
  (r1.2.1 * r2.2.2 - r2.2.1 * r1.2.2) * a + (-r1.1 * r2.2.2 + r2.1 * r1.2.2) * b + (r1.1 * r2.2.1 - r2.1 * r1.2.1) * c

/-- `_tangents_multiple_border` (tangents.py 644-660) after the test of the sides; the tangents are paired with the roots they come from. -/
def tanMulti : List (K × K × K) → List (Val3 K)
  | [] => []
  | r :: l => lineT r.1 r.2.1 r.2.2 :: l.map (lineThrough r) ++ tanMulti l

end Verif.Roots
