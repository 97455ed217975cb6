import Verif.Model.SexticFull
import Verif.Model.SepticSymmetric

/-!
# Symmetric sextics that vanish on the axis like a square

Model of `_sos_struct_sextic_symmetric_quadratic_form` (`triples/core/structsos/ternary/sextic_symmetric.py` 1338-1424) and of the class `_sextic_sym_axis` (1427-1884).
`_restructure_quartic_polynomial` is `restructure` of `SepticSymmetric`.  Conventions as in `SexticFull`; `together`, `expand` and `as_coeff_Mul` do not change a value.
A quotient by zero is `zoo` or `nan`; comparing it raises `TypeError`.
-/

namespace Verif.Ternary

open Verif Verif.Acute Verif.Univariate

variable {K : Type*} [Field K] [LinearOrder K]

/-- An expression that is returned: `nan`, or a sum of terms over a denominator. -/
inductive QSol (K : Type*)
  | nan
  | cert (C : Cert K)

/-- What a solver of `_sextic_sym_axis` returns: `none` for `flg == 2`, otherwise the solution with `true` for `flg == 0` and `false` for `flg == 1`. -/
abbrev QRes (K : Type*) := Except PyErr (Option (QSol K × Bool))

/-- An entry of `nroots(det1, method='factor', real=True)`: an exact rational root, or an approximation. -/
inductive BRoot (K : Type*)
  | rat (m : K)
  | irr (m : K)

/-- What the solvers get from SymPy. -/
structure QuadExt (K : Type*) where
  /-- `prove_univariate(poly, return_raw=True)` (58). -/
  prover : UPoly K → Except PyErr (Option (Sos K × Sos K))
  /-- `_F_alternative_find_z` with `z_type == 0` (1541-1557), which uses `gcd` and root isolation; its last argument is `ker_coeff/coeff0`. -/
  findZ : K → K → K → Except PyErr K
  /-- The roots of `det1` for `suv` and `puv` (1791). -/
  roots : K → K → List (BRoot K)
  /-- The intervals `(m1, m2)` after each rounding (1834-1841) for `suv`, `puv` and the root. -/
  intervals : K → K → K → List (K × K)

/-! ### The solvers that do not lift the degree -/

/-- `p1` of `_F_square` (sextic_symmetric.py 1457-1462) without the weights. -/
def sqP (z : K) : Val3 K := cyc3 fun a b c => 2 * a ^ 3 - (z + 1) * b * c ^ 2 - (z + 1) * b ^ 2 * c + 2 * z * a * b * c

/-- `_F_square` (sextic_symmetric.py 1447-1464). -/
def qSquare (x y ker : K) : QRes K :=
  if x + y = 5 / 3 ∧ x ≠ 1 then
    let z := 2 * (3 * x - 2) / 3 / (x - 1)
    let ker2 := -3 * (x - 1) * (9 * x - 5) / 4
    if ker2 ≤ ker then .ok (some (.cert (.plain [((x - 1) ^ 2 / 4, fun a b c => sqP z a b c ^ 2), (ker - ker2, discV3)]), true)) else .ok none
  else .ok none

/-- `p1` of `_F_trivial` (sextic_symmetric.py 1474-1475); its sign does not matter. -/
def trivP (x y : K) : Val3 K := fun a b c =>
  let p1 := (3 * x - 3) * a ^ 2 + (3 * y - 4) * a * b + (3 * y - 2) * a * c + (3 * x - 3) * b ^ 2 + (3 * y - 2) * b * c + (3 * x - 1) * c ^ 2
  if x < 1 then -p1 else p1

/-- `_F_trivial` (sextic_symmetric.py 1466-1481). -/
def qTrivial (x y ker : K) : QRes K :=
  if 1 / 3 ≤ ker then .ok (some (.cert (.plain [(1 / 18, cyc3 fun a b c => (a - b) ^ 2 * trivP x y a b c ^ 2), (ker - 1 / 3, discV3)]), true)) else .ok none

/-! ### The solvers that lift the degree -/

/-- What a solver of type 1 returns: `p1, c1, c2, multiplier`. -/
structure Lifted (K : Type*) where
  p : List (K × Val3 K)
  c1 : K
  c2 : K
  m0 : K
  m1 : K

/-- `_F_regular` (sextic_symmetric.py 1484-1494). -/
def qRegular (x y : K) : Lifted K :=
  ⟨[(2, fun a b c => cyc3 (fun a b c => a ^ 2 * ((x - 1) * a ^ 2 + (y - x) * a * b + (y - x) * a * c + (2 * x - y) / 2 * b ^ 2 + (2 * x - y) / 2 * c ^ 2 - (x + y - 1) * b * c)) a b c ^ 2)],
    0, 2, 2, -2⟩

/-- `h` (sextic_symmetric.py 1523-1527). -/
def sos2H (x y z : K) : Val3 K := fun a b c => (a - b) * (
  -3 * a ^ 3 + a ^ 2 * b * z - 3 * a ^ 2 * b - a ^ 2 * c * z + a * b ^ 2 * z - 3 * a * b ^ 2 - 4 * a * b * c * z - 6 * a * b * c + 3 * a * c ^ 2 * z + 9 * a * c ^ 2 - 3 * b ^ 3
    - b ^ 2 * c * z + 3 * b * c ^ 2 * z + 9 * b * c ^ 2 - 2 * c ^ 3 * z
  + x * (3 * a ^ 3 - a ^ 2 * b * z - a ^ 2 * b + a ^ 2 * c * z - 2 * a ^ 2 * c - a * b ^ 2 * z - a * b ^ 2 + 4 * a * b * c * z + 16 * a * b * c - 3 * a * c ^ 2 * z - 9 * a * c ^ 2
    + 3 * b ^ 3 + b ^ 2 * c * z - 2 * b ^ 2 * c - 3 * b * c ^ 2 * z - 9 * b * c ^ 2 + 2 * c ^ 3 * z + 2 * c ^ 3)
  + y * (4 * a ^ 2 * b + 2 * a ^ 2 * c + 4 * a * b ^ 2 - 4 * a * b * c - 3 * a * c ^ 2 + 2 * b ^ 2 * c - 3 * b * c ^ 2 - 2 * c ^ 3))

/-- `z` of `_F_sos2` (sextic_symmetric.py 1509). -/
def sos2Z (second : Bool) (x y : K) : K := if second then (x + 2 * y - 3) / (2 * (x - 1)) else -(2 * x + y - 2) / (2 * (x - 1))

/-- `_F_sos2` (sextic_symmetric.py 1496-1536).  For `x == 1` the numbers `c1` and `c2` are `nan`, so that the comparison in `_merge_remainder_terms` (1660) raises. -/
def qSos2 (second : Bool) (x y : K) : Except PyErr (Lifted K) :=
  if x = 1 then .error .typeError
  else
    let z := sos2Z second x y
    .ok ⟨[(1 / 9, cyc3 fun a b c => sos2H x y z a b c ^ 2)],
      2 * (20 * x ^ 2 - x * y - 30 * x - y ^ 2 + 3 * y + z ^ 2 * (-x ^ 2 + 2 * x - 1) + z * (x ^ 2 + 2 * x * y - 4 * x - 2 * y + 3) + 9) / 3,
      2 * (16 * x ^ 2 + 28 * x * y - 48 * x - 8 * y ^ 2 - 6 * y + z ^ 2 * (x ^ 2 - 2 * x + 1) + z * (8 * x ^ 2 + 7 * x * y - 20 * x - 7 * y + 12) + 21) / 3, 2, -2⟩

/-- `h1` (sextic_symmetric.py 1579). -/
def altH1 (x y : K) : Val3 K := fun a b c =>
  3 * a ^ 2 * (x - 1) * (x + y - 1) + 3 * a * (b + c) * (x ^ 2 + 2 * x * y - 4 * x + y ^ 2 - 3 * y + 3) + b * c * (3 * x * y + 3 * y ^ 2 - 9 * y + 4)

/-- `h2` (sextic_symmetric.py 1580). -/
def altH2 (x y z : K) : Val3 K := fun a b c => a ^ 2 * (x - y + 1) + a * (b + c) * (2 * y - 2) + z * (a - b) * (a - c) + (b ^ 2 + c ^ 2) * (x - 1)

/-- `_F_alternative` (sextic_symmetric.py 1559-1592). -/
def qAlternative (x y z : K) : Option (Lifted K) :=
  let w := x + y - 1
  if w < 2 / 3 then none
  else
    let c1 := (-3 * x - 3 * y + 5) * z ^ 2 + (-6 * x ^ 2 + 4 * x + 6 * y ^ 2 - 16 * y + 10) * z + 6 * x ^ 2 * y - 7 * x ^ 2 + 3 * x * y ^ 2 - 14 * x * y + 10 * x - 3 * y ^ 3 + 11 * y ^ 2 - 12 * y + 5
    let c2 := (-6 * x * y - 6 * y ^ 2 + 10 * y) * z - 2 * x ^ 2 + 6 * x * y ^ 2 - 8 * x * y + 2 * x + 6 * y ^ 3 - 19 * y ^ 2 + 14 * y
    some ⟨[(1 / w ^ 2 / 18, fun a b c => sd3 a b c * cyc3 (fun a b c => a * altH1 x y a b c) a b c ^ 2),
      ((3 * x + 3 * y - 5) / w ^ 2, cyc3 fun a b c => a ^ 2 * (b - c) ^ 2 * altH2 x y z a b c ^ 2)], c1 / w ^ 2, c2 / w ^ 2, 1, (2 * x + 2 * y - 4) / w⟩

/-! ### The remainder -/

/-- `CyclicProduct((a+b-2*c)**2)`. -/
def axV3 : Val3 K := cycp3 fun a b c => (a + b - 2 * c) ^ 2

/-- `_rem_regular` (sextic_symmetric.py 1599-1610); `_rem_regular` and `_rem_sos` return `p2, c21, c22`. -/
def remRegular (t rem : K) (r : Option K) (m0 m1 : K) : Except PyErr (Cert K × K × K) :=
  if m0 = 2 ∧ m1 = -2 then
    .ok (.plain [(t / 4, fun a b c => sd3 a b c * axV3 a b c), (2 * rem, fun a b c => cyc3 (fun a b _ => a ^ 2 - a * b) a b c ^ 2 * remV r a b c)], 0, 0)
  else
    match quadratic m0 m1 with
    | none => .error .typeError
    | some Q => .ok (((times axV3 Q).smul (t / 4)).plus ((times (fun a b c => sd3 a b c * remV r a b c) Q).smul (rem / 2)), 0, 0)

/-- `func_h` of `_rem_sos` (sextic_symmetric.py 1627). -/
def remH (u2 uv : K) : Val3 K := fun a b c => 2 * u2 * (a ^ 2 - a * b + a * c + b ^ 2 + b * c) + uv * (3 * a * b + a * c + b * c + c ^ 2)

/-- `u2, uv, v2` (sextic_symmetric.py 1623-1626). -/
def remUV (rem : K) : Option K → K × K × K
  | none => (0, 0, rem * 2)
  | some r => (rem * 2, rem * r * 2, rem * r ^ 2 * 2)

/-- `_rem_sos` (sextic_symmetric.py 1612-1633).  For `u2 == 0` also `func_h` is zero and the solution `1/(8*u2) * p21` is `zoo*0`, which is `nan`. -/
def remSos (t rem : K) (r : Option K) (m0 m1 : K) : Option (QSol K × K × K) :=
  if m0 = 2 ∧ m1 = -2 then
    let U := remUV rem r
    let c1 := -(3 * U.2.2 - 24 * U.1 + 6 * U.2.1) / 4
    let c2 := -9 * (4 * U.1 - 4 * U.2.1 + U.2.2) / 4 + 2 * c1
    some (if U.1 = 0 then .nan
      else .cert (.plain [(t / 4, fun a b c => sd3 a b c * axV3 a b c), (1 / (8 * U.1), cyc3 fun a b c => (a - b) ^ 2 * (a + b - 2 * c) ^ 2 * remH U.1 U.2.1 a b c ^ 2)]), c1, c2)
  else none

/-- `_merge_remainder_terms` (sextic_symmetric.py 1635-1667). -/
def mergeRem (L : Lifted K) (p2 : QSol K) (c21 c22 ker : K) : QRes K :=
  if L.m0 + L.m1 < 0 then .ok none
  else
    let c1 := L.c1 + c21 + L.m0 * ker
    let c2 := L.c2 + c22 + L.m1 * ker
    if 0 ≤ c1 ∧ 0 ≤ c1 + c2 then
      let flg := decide (c2 ≤ 2 * c1 ∧ L.m1 ≤ 2 * L.m0)
      match p2, quadratic c1 c2, quadratic L.m0 L.m1 with
      | .nan, _, _ => .ok (some (.nan, flg))
      | .cert P, some Q, some M => .ok (some (.cert ((((Cert.plain L.p).plus P).plus (times discV3 Q)).quot M), flg))
      | .cert _, _, _ => .error .typeError
    else .ok none

/-- `p1 * coeff0, c1 * coeff0, c2 * coeff0` (sextic_symmetric.py 1694). -/
def Lifted.scale (L : Lifted K) (w : K) : Lifted K := ⟨L.p.map fun t => (t.1 * w, t.2), L.c1 * w, L.c2 * w, L.m0, L.m1⟩

/-- `_F` for the solvers of type 1 after the call (sextic_symmetric.py 1690-1716). -/
def wrapLift (L : Lifted K) (co ker t rem : K) (r : Option K) : QRes K :=
  let L' := L.scale co
  match remRegular t rem r L.m0 L.m1 with
  | .error e => .error e
  | .ok R =>
    match mergeRem L' (.cert R.1) R.2.1 R.2.2 ker with
    | .error e => .error e
    | .ok (some (s, true)) => .ok (some (s, true))
    | .ok o =>
      match remSos t rem r L.m0 L.m1 with
      | none => .ok o
      | some S =>
        match mergeRem L' S.1 S.2.1 S.2.2 ker with
        | .error e => .error e
        | .ok (some (s, true)) => .ok (some (s, true))
        | .ok o' => .ok (o.orElse fun _ => o')

/-- `_F` for the solvers of type 0 (sextic_symmetric.py 1672-1681). -/
def wrapFlat (F : QRes K) (co t rem : K) (r : Option K) : QRes K :=
  match F with
  | .error e => .error e
  | .ok none => .ok none
  | .ok (some (.nan, flg)) => .ok (some (.nan, flg))
  | .ok (some (.cert C, flg)) => .ok (some (.cert (((C.smul co).add (t / 4) axV3).add (rem / 2) fun a b c => sd3 a b c * remV r a b c), flg))

/-! ### The bound that is tight on the border -/

/-- `det1` (sextic_symmetric.py 1751). -/
def bDet1 (s p m : K) : K := -2 * m ^ 3 + (s + 7) * m ^ 2 - 4 * (s + 1) * m + p ^ 2 + 4 * (s - 1)

/-- `det2` (sextic_symmetric.py 1752). -/
def bDet2 (s p m : K) : K := 4 * m ^ 3 - (4 * s + 7) * m ^ 2 + ((s + 4) ^ 2 + 2 * p - 20) * m + (p - 2) ^ 2 - 2 * s ^ 2

/-- `denom` (sextic_symmetric.py 1753). -/
def bDenom (s p m : K) : K := (m + p - 2) ^ 2 * (s - 2 * m - 1)

/-- `phi` (sextic_symmetric.py 1754). -/
def bPhi (s p m : K) : K := -p ^ 2 * bDet2 s p m / (m - 2) / bDenom s p m - m

/-- `final_coeff` (sextic_symmetric.py 1755). -/
def bFinal (s p m : K) : K := bDet1 s p m * bDet2 s p m / (m - 2) ^ 2 / bDenom s p m

/-- `w` (sextic_symmetric.py 1756). -/
def bW (s p m : K) : K := (m ^ 3 - (s + 1) * m ^ 2 + (s + p - 3) * m + (p - 1) ^ 2 + 2 * s + 1) / (m - 2)

/-- `ker_coeff` of `_compute_params` (sextic_symmetric.py 1757). -/
def bKer (x y s p m : K) : K := -(bW s p m * (x - 1) ^ 2 + (x ^ 2 - x * y + y ^ 2 - y))

/-- The coefficient of the second sum (sextic_symmetric.py 1761, 1818). -/
def bPsi (s p m : K) : K := bPhi s p m - (m - 2) * (s - 2 * m) / (m + p - 2)

/-- `_validate_params` (sextic_symmetric.py 1759-1761).  The numbers are not finite when a denominator vanishes. -/
def bValid (s p m : K) : Except PyErr Bool :=
  if m = 2 ∨ bDenom s p m = 0 then .error .typeError else .ok (decide (-1 ≤ bPhi s p m ∧ (m - 2) * (s - 2 * m) / (m + p - 2) ≤ bPhi s p m))

/-- `g` of `_solve_border` (sextic_symmetric.py 1810-1814, 1816). -/
def bG (s p m : K) : Val3 K := fun a b c =>
  let l1 := (-m ^ 2 + (p + 1) * m - p * (s + 1) + 2) / (m + p - 2)
  let l2 := ((1 - 2 * p) * m ^ 2 + (p * (s + 1) - 1) * m + p - 2) / (m + p - 2)
  let l3 := (2 * (p + s) * m ^ 2 - (p * (s - 1) + (s + 2) ^ 2 - 2) * m + (p - 2) ^ 2 + 2 * s ^ 2) / (m + p - 2)
  let l4 := ((2 * p - 1) * m - p * (s + 1) + 2) / (m + p - 2)
  (a ^ 2 - m * a * b + b ^ 2) * (a + b) + l1 * c * (a ^ 2 + b ^ 2) + l2 * c ^ 2 * (a + b) + l3 * a * b * c + l4 * c ^ 3

/-- `h` of `_solve_border` (sextic_symmetric.py 1815, 1816). -/
def bH (s p m : K) : Val3 K := fun a b c => a ^ 2 - m * a * b + b ^ 2 + (p + s - 1 - m) * c ^ 2 - (s - m) * c * (a + b)

/-- `_solve_border` with `with_tail = False` and `with_frac = False`, times `k` (sextic_symmetric.py 1805-1824). -/
def bSol (k s p m : K) : List (K × Val3 K) :=
  [(k / 2, cyc3 fun a b c => (a - b) ^ 2 * bG s p m a b c ^ 2), (k * bPsi s p m, cyc3 fun a b c => a * b * (a - b) ^ 2 * bH s p m a b c ^ 2)]

/-- `_solve_degen` (sextic_symmetric.py 1765-1779). -/
def bDegen (x y u ker : K) : QRes K :=
  let extra := x ^ 2 - x * y + y ^ 2 - y - (x - 1) ^ 2 * (3 * u - 5) + ker
  if extra < 0 then .ok none
  else
    let r := (x - 1) ^ 2
    match quadratic 1 (-u / 4) with
    | none => .error .typeError
    | some M => .ok (some (.cert (((Cert.plain [
        (r / 4, fun a b c => cyc3 (fun a b c => a * (a - b) * (a - c) * (2 * a - u * b - u * c)) a b c ^ 2),
        (r * (1 - u / 4), cyc3 fun a b c => a * b * (a - b) ^ 2 * ((a - b) ^ 2 + (2 - u) * (a + b) * c - (3 - u) * c ^ 2) ^ 2),
        (r * (1 - u / 4) / 2, cyc3 fun a b c => a ^ 2 * (b - c) ^ 2 * ((b + c - a) * (b + c - (u + 1) * a) - u * (a - c) * (a - b)) ^ 2)]).quot M).add extra discV3), false))

/-- The loop over the roots (sextic_symmetric.py 1783-1794): the first root that passes.  The test of the denominators (1784) uses the symbol `m` and is only true for `root == 2`.
A root that is not rational is taken as a number of the field. -/
def axPick (x y s p ker : K) : List (BRoot K) → Except PyErr (Option (BRoot K))
  | [] => .ok none
  | .rat m :: l =>
    if m = 2 then .ok none
    else
      match bValid s p m with
      | .error e => .error e
      | .ok v => if v = true ∧ bKer x y s p m ≤ ker then .ok (some (.rat m)) else axPick x y s p ker l
  | .irr m :: l =>
    match bValid s p m with
    | .error e => .error e
    | .ok v => if v = true ∧ bKer x y s p m ≤ ker then .ok (some (.irr m)) else axPick x y s p ker l

/-- The weights of the combination (sextic_symmetric.py 1850-1852). -/
def bWeights (s p m1 m2 : K) : K × K :=
  let w1 := bFinal s p m1 * (2 - m1)
  let w2 := bFinal s p m2 * (2 - m2)
  if bFinal s p m1 ≠ 0 then (-w2 / (w1 - w2), w1 / (w1 - w2)) else (1, 0)

/-- The combination of two solutions (sextic_symmetric.py 1852-1871), `none` when its tests fail. -/
def bCombine (x y s p ker m1 m2 : K) : Except PyErr (Option (QSol K × Bool)) :=
  let W := bWeights s p m1 m2
  let phiw := bPhi s p m1 * W.1 + bPhi s p m2 * W.2
  let k1 := bKer x y s p m1 * W.1 + bKer x y s p m2 * W.2
  let k2 := bPhi s p m1 * (ker - bKer x y s p m1) * W.1 + bPhi s p m2 * (ker - bKer x y s p m2) * W.2
  let fw := bFinal s p m1 * W.1 + bFinal s p m2 * W.2
  let tmp := k2 + fw * p ^ 2 * (x - 1) ^ 2
  if -1 ≤ phiw ∧ k1 ≤ ker ∧ 0 ≤ ker - k1 + tmp then
    match quadratic (ker - k1) tmp, quadratic 1 phiw with
    | some Q, some M => .ok (some (.cert (((Cert.plain (bSol (W.1 * (x - 1) ^ 2) s p m1 ++ bSol (W.2 * (x - 1) ^ 2) s p m2)).plus (times discV3 Q)).quot M), false))
    | _, _ => .error .typeError
  else .ok none

/-- The loop over the roundings (sextic_symmetric.py 1836-1873). -/
def bRound (x y s p ker : K) : List (K × K) → QRes K
  | [] => .ok none
  | (m1, m2) :: l =>
    if m1 ≤ 2 ∧ 2 ≤ m2 then bRound x y s p ker l
    else
      match bValid s p m1 with
      | .error e => .error e
      | .ok false => bRound x y s p ker l
      | .ok true =>
        match bValid s p m2 with
        | .error e => .error e
        | .ok false => bRound x y s p ker l
        | .ok true =>
          if (bFinal s p m1 < 0 ∧ bFinal s p m2 < 0) ∨ (0 < bFinal s p m1 ∧ 0 < bFinal s p m2) then bRound x y s p ker l
          else
            match bCombine x y s p ker m1 m2 with
            | .error e => .error e
            | .ok (some S) => .ok (some S)
            | .ok none => bRound x y s p ker l

/-- `_F_tighter_bound_border` (sextic_symmetric.py 1718-1873).  For `x == 1` the numbers `suv` and `puv` are not finite and their comparison raises. -/
def qBorder (X : QuadExt K) (x y ker : K) : QRes K :=
  if x = 1 then .error .typeError
  else
    let s := (2 - 2 * y) / (x - 1)
    let p := (2 * x + y - 2) / (x - 1)
    if p = 0 ∧ s ≤ 4 then bDegen x y s ker
    else
      match axPick x y s p ker (X.roots s p) with
      | .error e => .error e
      | .ok none => .ok none
      | .ok (some (.rat m)) =>
        match quadratic 1 (bPhi s p m) with
        | none => .error .typeError
        | some M => .ok (some (.cert (((Cert.plain (bSol ((x - 1) ^ 2) s p m)).quot M).add (ker - bKer x y s p m) discV3), false))
      | .ok (some (.irr m)) => bRound x y s p ker (X.intervals s p m)

/-! ### The solver -/

/-- The loop of `solve` (sextic_symmetric.py 1873-1884) over the results of the solvers; a later solver is not called after `flg == 0`. -/
def qLoop : Option (QSol K) → List (Unit → QRes K) → Except PyErr (Option (QSol K))
  | acc, [] => .ok acc
  | acc, F :: l =>
    match F () with
    | .error e => .error e
    | .ok none => qLoop acc l
    | .ok (some (s, true)) => .ok (some s)
    | .ok (some (s, false)) => qLoop (acc.orElse fun _ => some s) l

/-- `_sextic_sym_axis.solve` (sextic_symmetric.py 1846-1884).  For `coeff0 == 0` the quotient `ker_coeff/coeff0` is not finite and the search for `z` fails. -/
def qSolve (X : QuadExt K) (co x y ker t rem : K) (r : Option K) : Except PyErr (Option (QSol K)) :=
  if co = 0 then .error .typeError
  else
    match X.findZ x y (ker / co) with
    | .error e => .error e
    | .ok z =>
      let lift (L : Option (Lifted K)) : QRes K := match L with | none => .ok none | some L => wrapLift L co ker t rem r
      let lift' (L : Except PyErr (Lifted K)) : QRes K := match L with | .error e => .error e | .ok L => wrapLift L co ker t rem r
      qLoop none [fun _ => wrapFlat (qSquare x y (ker / co)) co t rem r, fun _ => wrapFlat (qTrivial x y (ker / co)) co t rem r,
        fun _ => wrapLift (qRegular x y) co ker t rem r, fun _ => lift' (qSos2 false x y), fun _ => lift' (qSos2 true x y),
        fun _ => lift (qAlternative x y z), fun _ => lift (qAlternative x y (-x - 1)), fun _ => wrapFlat (qBorder X x y (ker / co)) co t rem r]

/-- `poly.subs({b:1,c:1})` (sextic_symmetric.py 1401): the coefficients of `f(a,1,1)` in ascending order. -/
def Sextic.axisPoly (f : Sextic K) : UPoly K :=
  [2 * f.c600 + f.c510 + f.c501 + f.c420 + f.c402 + f.c330, f.c510 + f.c501 + 2 * f.c411 + f.c321 + f.c312, f.c420 + f.c402 + f.c321 + f.c312 + f.c222,
    2 * f.c330 + f.c321 + f.c312, f.c420 + f.c402 + f.c411, f.c510 + f.c501, f.c600]

/-- `ker_coeff` (sextic_symmetric.py 1411-1417). -/
def quadKer (f : Sextic K) (t co x y rem : K) (r : Option K) : K :=
  let k := f.c420 - (-(3 / 4) * t + co * (3 * x ^ 2 - 2 * x * y - 2 * x + y ^ 2))
  match r with
  | none => k - rem
  | some r => k - rem * (r ^ 2 - 2 * r + 3)

/-- `_sos_struct_sextic_symmetric_quadratic_form` (sextic_symmetric.py 1338-1424).  With `nan` for `x` and `y` a comparison raises (1455). -/
def sxQuad (X : QuadExt K) (f : Sextic K) : Except PyErr (Option (QSol K)) :=
  let d1 := divOne f.axisPoly
  let d2 := divOne d1.1
  if d1.2 = 0 ∧ d2.2 = 0 then
    match restructure X.prover d2.1 with
    | .error e => .error e
    | .ok none => .ok none
    | .ok (some .nan) => .error .typeError
    | .ok (some (.ok t co x y rem r)) => qSolve X co x y (quadKer f t co x y rem r) t rem r
  else .ok none

end Verif.Ternary
