import Verif.Model.SexticSmall

/-!
# Ternary nonic solver, and the octic solver

Model of `triples/core/structsos/ternary/nonic.py`, of `triples/core/structsos/ternary/octic.py` and of `inverse_substitution`
(`triples/core/structsos/ternary/utils.py` 40-80).  Conventions as in `TernaryQuartic`: `radsimp`, `together`, `expand`, `as_coeff_Mul` do not change a value.
-/

namespace Verif.Ternary

open Verif Verif.Acute

variable {K : Type*} [Field K] [LinearOrder K]

/-- The coefficients of a cyclic polynomial of degree nine; `coeff((4,5,0))` is `c504`, `coeff((3,6,0))` is `c603`, `coeff((2,7,0))` is `c702`, `coeff((1,8,0))` is
`c801`, `coeff((2,6,1))` is `c612`, `coeff((3,5,1))` is `c513`, `coeff((3,4,2))` is `c423`. -/
structure Nonic (K : Type*) where
  c900 : K
  c810 : K
  c801 : K
  c720 : K
  c711 : K
  c702 : K
  c630 : K
  c621 : K
  c612 : K
  c603 : K
  c540 : K
  c531 : K
  c522 : K
  c513 : K
  c504 : K
  c441 : K
  c432 : K
  c423 : K
  c333 : K

/-- The numbers that the solver reads. -/
def Nonic.ofCoeff (c : Coeff K) : Nonic K :=
  ⟨c.call [9, 0, 0], c.call [8, 1, 0], c.call [1, 8, 0], c.call [7, 2, 0], c.call [7, 1, 1], c.call [2, 7, 0], c.call [6, 3, 0], c.call [6, 2, 1], c.call [2, 6, 1],
    c.call [3, 6, 0], c.call [5, 4, 0], c.call [5, 3, 1], c.call [5, 2, 2], c.call [3, 5, 1], c.call [4, 5, 0], c.call [4, 4, 1], c.call [4, 3, 2], c.call [3, 4, 2],
    c.call [3, 3, 3]⟩

/-- `coeff.as_poly()` (coeff.py 137-148), rebuilt from the coefficients. -/
def Nonic.terms (f : Nonic K) : List (List ℕ × K) :=
  cycT [([9, 0, 0], f.c900), ([8, 1, 0], f.c810), ([8, 0, 1], f.c801), ([7, 2, 0], f.c720), ([7, 1, 1], f.c711), ([7, 0, 2], f.c702), ([6, 3, 0], f.c630),
    ([6, 2, 1], f.c621), ([6, 1, 2], f.c612), ([6, 0, 3], f.c603), ([5, 4, 0], f.c540), ([5, 3, 1], f.c531), ([5, 2, 2], f.c522), ([5, 1, 3], f.c513),
    ([5, 0, 4], f.c504), ([4, 4, 1], f.c441), ([4, 3, 2], f.c432), ([4, 2, 3], f.c423)] ++ [([3, 3, 3], f.c333)]

/-- The value of the polynomial. -/
def Nonic.poly (f : Nonic K) : Val3 K := fun a b c =>
  cyc3 (fun a b c => f.c900 * a ^ 9 + f.c810 * (a ^ 8 * b) + f.c801 * (a ^ 8 * c) + f.c720 * (a ^ 7 * b ^ 2) + f.c711 * (a ^ 7 * b * c) + f.c702 * (a ^ 7 * c ^ 2) +
    f.c630 * (a ^ 6 * b ^ 3) + f.c621 * (a ^ 6 * b ^ 2 * c) + f.c612 * (a ^ 6 * b * c ^ 2) + f.c603 * (a ^ 6 * c ^ 3) + f.c540 * (a ^ 5 * b ^ 4) +
    f.c531 * (a ^ 5 * b ^ 3 * c) + f.c522 * (a ^ 5 * b ^ 2 * c ^ 2) + f.c513 * (a ^ 5 * b * c ^ 3) + f.c504 * (a ^ 5 * c ^ 4) + f.c441 * (a ^ 4 * b ^ 4 * c) +
    f.c432 * (a ^ 4 * b ^ 3 * c ^ 2) + f.c423 * (a ^ 4 * b ^ 2 * c ^ 3)) a b c + f.c333 * (a ^ 3 * b ^ 3 * c ^ 3)

/-- `coeff.poly111()` (coeff.py 182-186). -/
def Nonic.poly111 (f : Nonic K) : K :=
  3 * (f.c900 + f.c810 + f.c801 + f.c720 + f.c711 + f.c702 + f.c630 + f.c621 + f.c612 + f.c603 + f.c540 + f.c531 + f.c522 + f.c513 + f.c504 + f.c441 + f.c432 + f.c423) + f.c333

/-- `coeff.reflect()` (coeff.py 117-129) on the coefficients of a cyclic polynomial. -/
def Nonic.reflect (f : Nonic K) : Nonic K :=
  ⟨f.c900, f.c801, f.c810, f.c702, f.c711, f.c720, f.c603, f.c612, f.c621, f.c630, f.c504, f.c513, f.c522, f.c531, f.c540, f.c441, f.c423, f.c432, f.c333⟩

/-- Calls of the solver to other files, and the roots and approximations of its searches. -/
structure NonicExt (K : Type*) extends NumDen K where
  /-- `coeff.is_rational`. -/
  rational : Bool
  /-- `_structural_sos_3vars_cyclic` (nonic.py 240, 270, 281). -/
  solve : List (List ℕ × K) → Except PyErr (Option (Cert K))
  /-- The roots for `x` of `_sos_struct_nonic_symmetric_tree` (nonic.py 114). -/
  treeX : Nonic K → List (Cand K)
  /-- The roots for `r` of `_sos_struct_nonic_hexagon_symmetric` (nonic.py 224). -/
  hexagonR : Nonic K → List (Cand K)
  /-- The roots for `z` of `_sos_struct_nonic_hexagram_symmetric` (nonic.py 319). -/
  hexagramZ : Nonic K → List (Cand K)
  /-- The roots for `z` of `_sos_struct_nonic_gear` (nonic.py 462). -/
  gearZ : Nonic K → List (Cand K)
  /-- `sp.sqrt(t)` if it is a rational number (nonic.py 412-413). -/
  sqrtR : K → Option K

/-! ### The symmetric tree -/

/-- `CyclicSum(a*(a*b - c**2)**2 * (a*c - b**2)**2)` (nonic.py 129, 186). -/
def treeT : Val3 K := cyc3 fun a b c => a * (a * b - c ^ 2) ^ 2 * (a * c - b ^ 2) ^ 2

/-- `_compute_tree_coeffs(x)` (nonic.py 82-86): `(c6_, c33_, c411_)`. -/
def treeCoeffs (w c6 c33 c411 x : K) : K × K × K :=
  (c6 - (-3 * x ^ 2 + 3 * x - 3), c33 - (-3 * w - 6 * x ^ 2 + 6 * x + 3), c411 - (-3 * w + 18 * x ^ 2 - 18 * x))

/-- `_check_valid_x(x)` (nonic.py 88-103). -/
def treeValid (w c6 c33 c411 x : K) : Bool :=
  let (k6, k33, k411) := treeCoeffs w c6 c33 c411 x
  if k6 < 0 then false
  else if k6 = 0 ∧ 0 ≤ k33 ∧ 0 ≤ k411 then true
  else if 0 < k6 then
    let u := k33 / k6
    let v := k411 / k6
    if 2 ≤ u ∧ -6 ≤ v then true
    else if -1 ≤ u then
      let det := 27 * u ^ 2 + 27 * u * v + 54 * u + v ^ 3 + 18 * v ^ 2 + 54 * v
      decide ((-6 ≤ v ∧ det ≤ 0) ∨ (v < -6 ∧ 0 ≤ det))
    else false
  else false

/-- `_get_func_x(x)` (nonic.py 118-123). -/
def treeFunc (N : NumDen K) (x : K) : K × Val3 K :=
  if x = 2 then (2, fun a b c => sumA a b c ^ 2 * cyc3 (fun a b c => a ^ 2 - b * c) a b c ^ 2)
  else (1 / (N.nd x).2, fun a b c => cyc3 (fun a b c => (N.nd x).2 * a ^ 2 + (N.nd x).1 * b * c) a b c * cyc3 (fun a b c => (a - b) ^ 2 * (a + b - x * c) ^ 2) a b c)

/-- `_sos_struct_nonic_symmetric_tree` (nonic.py 50-145). -/
def nonicTree (X : NonicExt K) (f : Nonic K) : Except PyErr (Option (Cert K)) :=
  let c0 := f.c900
  if c0 ≤ 0 then .ok none
  else
    let w := f.c630 / c0
    let c6 := f.c711 / c0
    let c33 := f.c441 / c0
    let c411 := f.c522 / c0
    if w < -1 then .ok none
    else if X.rational = false then .ok none
    else
      match rationalizeFunc (fun x => -x ^ 3 + 3 * x - 1 + w) 1 (fun x => .ok (treeValid w c6 c33 c411 x)) (X.treeX f) with
      | .error e => .error e
      | .ok none => .ok none
      | .ok (some x) =>
        let poly111 := 3 * c0 * (1 + 2 * w + c6 + c33 + c411) + f.c333
        if poly111 < 0 then .ok none
        else
          let k := treeCoeffs w c6 c33 c411 x
          let k6 := k.1 * c0
          let k33 := k.2.1 * c0
          let k411 := k.2.2 * c0
          match sexticTree X.toNumDen ⟨k6, 0, 0, 0, k411, 0, k33, 0, 0, (-k6 - k33 - k411) * 3 + poly111⟩ with
          | .error e => .error e
          | .ok none => .ok none
          | .ok (some T) =>
            .ok (some (((times prodA T).add (c0 / 4 * (treeFunc X.toNumDen x).1)
              (fun a b c => sumA a b c * cyc3 (fun a b _ => (a - b) ^ 2) a b c * (treeFunc X.toNumDen x).2 a b c)).add (c0 * (-x ^ 3 + 3 * x - 1 + w)) treeT))

/-! ### The symmetric hexagon -/

/-- `CyclicProduct(a) * CyclicProduct((a-b)**2)`. -/
def abcDisc : Val3 K := fun a b c => prodA a b c * cycp3 (fun a b _ => (a - b) ^ 2) a b c

/-- `_compute_hexagon_coeffs(r)` (nonic.py 199-206): `(c33_, c411_, c321_)`. -/
def hexagonCoeffs (c42 c33 c411 c321 r : K) : K × K × K :=
  (c33 - (-12 * r - 2 * c42), c411 - (-12 * r - 2 * c42), c321 - (9 * r ^ 2 + 18 * r + 2 * c42))

/-- `_check_valid_r(r)` (nonic.py 208-217), for rational numbers, where the tolerance is zero. -/
def hexagonValid (c42 c33 c411 c321 r : K) : Bool :=
  let (k33, k411, k321) := hexagonCoeffs c42 c33 c411 c321 r
  if c42 + 6 * r + 3 < 0 then false
  else if k33 < 0 ∨ k411 < 0 then false
  else decide (0 ≤ k33 + k411 + k321 ∨ 0 ≤ k33 * k411 - (k33 + k411 + k321) ^ 2)

/-- `rest_poly` (nonic.py 236): the difference, written out. -/
def hexagonRest (f : Nonic K) (r : K) : Nonic K :=
  let c0 := f.c630
  let k := c0 * (f.c531 / c0 + 6 * r + 3)
  { f with
    c630 := 0
    c603 := f.c603 - c0
    c531 := f.c531 - (c0 * (-6 * r - 3) + k)
    c513 := f.c513 - (c0 * (-6 * r - 3) + k)
    c441 := f.c441 - (c0 * 6 - 2 * k)
    c522 := f.c522 - (c0 * 6 - 2 * k)
    c432 := f.c432 - (c0 * (9 * r ^ 2 + 6 * r - 6) + 2 * k)
    c423 := f.c423 - (c0 * (9 * r ^ 2 + 6 * r - 6) + 2 * k)
    c333 := f.c333 - (c0 * (-54 * r ^ 2 + 12) - 6 * k) }

/-- All coefficients are zero. -/
def Nonic.isZero (f : Nonic K) : Bool :=
  [f.c900, f.c810, f.c801, f.c720, f.c711, f.c702, f.c630, f.c621, f.c612, f.c603, f.c540, f.c531, f.c522, f.c513, f.c504, f.c441, f.c432, f.c423, f.c333].all fun x => decide (x = 0)

/-- The search of `_sos_struct_nonic_hexagon_symmetric` (nonic.py 197-243). -/
def hexagonSearch (X : NonicExt K) (f : Nonic K) : Except PyErr (Option (Cert K)) :=
  let c0 := f.c630
  let c42 := f.c531 / c0
  let c33 := f.c441 / c0
  let c411 := f.c522 / c0
  let c321 := f.c432 / c0
  if X.rational = false then .ok none
  else
    match rationalizeFunc (fun r => let (k33, k411, k321) := hexagonCoeffs c42 c33 c411 c321 r; k33 * k411 - (k33 + k411 + k321) ^ 2) 1
        (fun r => .ok (hexagonValid c42 c33 c411 c321 r)) (X.hexagonR f) with
    | .error e => .error e
    | .ok none => .ok none
    | .ok (some r) =>
      match amgm (2, 0, 1) (1, 1, 1), amgm (2, 1, 0) (1, 1, 1) with
      | some A, some B =>
        let S := (((times (fun a b c => cyc3 (fun a b c => a * b * (b - r * c)) a b c ^ 2) A).smul c0).plus
          ((times (fun a b c => cyc3 (fun a b c => a * c * (c - r * b)) a b c ^ 2) B).smul c0)).add (c0 * (c42 + 6 * r + 3)) abcDisc
        let g := hexagonRest f r
        if g.isZero then .ok (some S)
        else (X.solve g.terms).map fun s => s.map fun R => S.plus R
      | _, _ => .error .typeError

/-- `_sos_struct_nonic_hexagon_symmetric` (nonic.py 147-243). -/
def nonicHexagon (X : NonicExt K) (f : Nonic K) : Except PyErr (Option (Cert K)) :=
  let c0 := f.c630
  if c0 ≤ 0 then .ok none
  else
    let c42 := f.c531 / c0
    let k33 := f.c441 / c0 + 3 + 2 * c42
    let k411 := f.c522 / c0 + 3 + 2 * c42
    let k321 := f.c432 / c0 - 2 * c42
    if 0 ≤ c42 ∧ 0 ≤ k33 ∧ 0 ≤ k411 ∧ (0 ≤ k33 + k411 + k321 ∨ 0 ≤ k33 * k411 - (k33 + k411 + k321) ^ 2) then
      match hexSym X.toNumDen ⟨0, 0, 0, 0, k411 * c0, 0, k33 * c0, k321 * c0, k321 * c0, (-(k411 * c0) - k33 * c0 - k321 * c0 * 2) * 3 + f.poly111⟩ with
      | .error e => .error e
      | .ok (some H) => .ok (some (((times prodA H).add c0 treeT).add (c0 * c42) abcDisc))
      | .ok none => hexagonSearch X f
    else hexagonSearch X f

/-! ### The symmetric hexagram -/

/-- `inverse_substitution(solution, factor_degree = k)` (ternary/utils.py 40-80); the extraction of common factors does not change a value. -/
def Cert.inv (k : ℕ) (C : Cert K) : Cert K :=
  ⟨C.terms.map fun t => (t.1, fun a b c => t.2 (b * c) (c * a) (a * b)), fun a b c => C.den (b * c) (c * a) (a * b) * prodA a b c ^ k⟩

/-- `coeff.as_poly().div(a*b*c)[0]` (nonic.py 270): the terms divisible by `abc`, divided. -/
def Nonic.overAbc (f : Nonic K) : Sextic K := ⟨f.c711, f.c621, f.c612, f.c531, f.c522, f.c513, f.c441, f.c432, f.c423, f.c333⟩

/-- `poly2` (nonic.py 276-280). -/
def hexagramPoly2 (f : Nonic K) : Sextic K := ⟨0, f.c540, f.c540, f.c531, f.c441, f.c531, f.c522, f.c432, f.c432, f.c333⟩

/-- `_compute_hexagram_coeffs(z)` (nonic.py 286-295): `(w, c4_, c5_, c6_)`. -/
def hexagramCoeffs (f : Nonic K) (z : K) : K × K × K × K :=
  let w := f.c531 + 4 * (f.c540 + f.c621) + 6 * z
  (w, f.c441 - (-2 * w + 6 * f.c621 + 8 * z), f.c522 - (-2 * w + 6 * f.c540 + 8 * z), f.c432 - 2 * w)

/-- `_compute_hexagram_discriminant(z)` (nonic.py 298-314), for rational numbers, where the tolerance is zero. -/
def hexagramDisc (f : Nonic K) (z : K) : Bool :=
  let (w, k4, k5, k6) := hexagramCoeffs f z
  if w < 0 ∨ k4 < 0 ∨ k5 < 0 then false
  else if k4 = 0 then decide (0 ≤ k5 + k6)
  else if k5 = 0 then decide (0 ≤ k4 + k6)
  else decide ((k4 + k5 + k6) ^ 2 ≤ k4 * k5 ∨ 0 ≤ k4 + k5 + k6)

/-- `3*a**4*b**2 - 4*a**4*b*c + 3*a**4*c**2 - 4*a**3*b**3 + 2*a**2*b**2*c**2` (nonic.py 351). -/
def hexagramN : Val3 K := fun a b c => 3 * a ^ 4 * b ^ 2 - 4 * a ^ 4 * b * c + 3 * a ^ 4 * c ^ 2 - 4 * a ^ 3 * b ^ 3 + 2 * a ^ 2 * b ^ 2 * c ^ 2

/-- `multiplier` (nonic.py 354). -/
def hexagramM : Val3 K := cyc3 fun a b _ => a * b * (a - b) ^ 4

/-- The answer of `_sos_struct_nonic_hexagram_symmetric` once `z` and the hexagram are known (nonic.py 333-378).  The content of `p1` and `p2` is not extracted. -/
def hexagramAnswer (f : Nonic K) (z : K) (H : Cert K) : Option (Cert K) :=
  let w := (hexagramCoeffs f z).1
  let ratio := z / f.c621
  let k := f.c621 * ratio ^ 2
  if 4 * f.c621 * ratio ≤ w then
    some ((((times prodA H).add (f.c540 - k) (cyc3 fun a b c => c ^ 5 * (a - b) ^ 4)).add (w - 4 * f.c621 * ratio) abcDisc).add f.c621
      (cyc3 fun a b c => c * (a - b) ^ 4 * (a * b - ratio * c ^ 2) ^ 2))
  else if 0 ≤ w then
    some ((⟨[
      (f.c621, fun a b c => prodA a b c * cyc3 (fun a b c => a * b * (a - b) ^ 4 - ratio * hexagramN a b c) a b c ^ 2),
      (f.c540 - k, fun a b c => hexagramM a b c * cyc3 (fun a b c => c ^ 5 * (a - b) ^ 4) a b c),
      (1, fun a b c => cycp3 (fun a b _ => (a - b) ^ 2) a b c * (w * prodA a b c * hexagramM a b c +
        k * cycp3 (fun a b _ => (a - b) ^ 2) a b c * sumA a b c * cyc3 (fun a b _ => a * b) a b c +
        k / 4 * prodA a b c * cyc3 (fun a b _ => (a - b) ^ 2) a b c * cyc3 (fun a b c => a ^ 2 * (b - c) ^ 2) a b c))], hexagramM⟩ : Cert K).plus (times prodA H))
  else none

/-- `_sos_struct_nonic_hexagram_symmetric` (nonic.py 246-378). -/
def nonicHexagram (X : NonicExt K) (f : Nonic K) : Except PyErr (Option (Cert K)) :=
  let c1 := f.c540
  let c2 := f.c621
  if c1 < 0 ∨ c2 < 0 then .ok none
  else if c1 = 0 then (X.solve f.overAbc.terms).map fun s => s.map (times prodA)
  else if c2 = 0 then (X.solve (hexagramPoly2 f).terms).map fun s => s.map (Cert.inv 1)
  else
    match rationalizeFunc (fun z => z ^ 2 - c1 * c2) (-1) (fun z => .ok (decide (0 ≤ z) && decide (z ^ 2 ≤ c1 * c2) && hexagramDisc f z)) (X.hexagramZ f) with
    | .error e => .error e
    | .ok none => .ok none
    | .ok (some z) =>
      let (w, k4, k5, k6) := hexagramCoeffs f z
      match hexSym X.toNumDen ⟨0, 0, 0, 0, k5, 0, k4, k6, k6, f.c333 + 6 * w + 12 * z⟩ with
      | .error e => .error e
      | .ok none => .ok none
      | .ok (some H) => .ok (hexagramAnswer f z H)

/-! ### The gear -/

/-- What `_compute_params(z)` returns when `x` is a number (nonic.py 399-421). -/
structure Vertex (K : Type*) where
  u : K
  v : K
  x : K
  c41 : K
  c33 : K
  c32 : K

/-- `_compute_params(z)` (nonic.py 399-421) for the coefficients divided by `c1`; `none` when `x` is `nan`, which includes `z = 0`. -/
def gearParams (X : NonicExt K) (f : Nonic K) (z : K) : Option (Vertex K) :=
  let c1 := f.c504
  let w := f.c621 / c1 - z ^ 2
  let c41 := f.c522 / c1 + 3 * w
  let c32 := f.c432 / c1 + 4 * w
  let c23 := f.c423 / c1 - 6 * w
  if z = 0 then none
  else
    let v := f.c513 / c1 / 2 - z
    let u := 1 - f.c531 / c1 / 2 / z
    let frac0 := -(-3 * u ^ 2 - 2 * u * z + 6 * u + 3 * v ^ 2 + 6 * v * z - 2 * v - (c32 - c23) + 2 * z ^ 2 - 2)
    let frac1 := 6 * (u + v + z - 1)
    let x := if frac1 = 0 then if frac0 ≠ 0 then none else some (match X.sqrtR (-u - v + 1) with | some s => 1 - v + s | none => 1 - v) else some (frac0 / frac1)
    x.map fun x => ⟨u, v, x, c41 - (2 * u * z + v ^ 2 + 2 * v * z - 2 * x * z + z ^ 2), f.c441 / c1 - (u ^ 2 - 2 * u - 2 * v - 2 * x + 1),
      c32 - (-2 * u ^ 2 - 2 * u * v + 2 * u * x - 2 * u * z + 4 * u + v ^ 2 + 4 * v * x + 2 * v * z + x ^ 2 + 4 * x * z - 2 * x - 2)⟩

/-- `_check_valid_weight` (nonic.py 425-434) for a number. -/
def gearCheck (p q : Vertex K) (w : K) : Bool :=
  if ¬ (0 ≤ w ∧ w ≤ 1) then false
  else
    let c41 := w * p.c41 + (1 - w) * q.c41
    let c33 := w * p.c33 + (1 - w) * q.c33
    let c32 := w * p.c32 + (1 - w) * q.c32
    if c41 < 0 ∨ c33 < 0 then false
    else decide (0 ≤ c41 + c33 + c32 ∨ (c41 + c33 + c32) ^ 2 ≤ c41 * c33)

/-- The candidates of `_search_valid_weight` (nonic.py 436-457) as fractions: `0/0` is `nan`, which is not valid, and another number over zero is `zoo`, which cannot be
compared (427). -/
def gearSearch (p q : Vertex K) : List (K × K) → Except PyErr (Option K)
  | [] => .ok none
  | (m, d) :: l =>
    if d = 0 then if m = 0 then gearSearch p q l else .error .typeError
    else if gearCheck p q (m / d) then .ok (some (m / d)) else gearSearch p q l

/-- The candidates of `_search_valid_weight` (nonic.py 441, 447-448). -/
def gearWeights (p q : Vertex K) : List (K × K) :=
  let g := p.c41 + p.c33 + p.c32
  let h := q.c41 + q.c33 + q.c32
  [(0, 1), (1, 1), (q.c41, q.c41 - p.c41), (q.c33, q.c33 - p.c33),
    (2 * g * h - 2 * h ^ 2 - p.c41 * q.c33 - q.c41 * p.c33 + 2 * p.c33 * q.c33,
      2 * (-g ^ 2 + 2 * g * h - h ^ 2 + p.c41 * q.c41 - p.c41 * q.c33 - q.c41 * p.c33 + p.c33 * q.c33))]

/-- `_compute_params` at `z` and `-z`, and `_search_valid_weight` (nonic.py 463-465, 472-474). -/
def gearVertices (X : NonicExt K) (f : Nonic K) (z : K) : Except PyErr (Option (Vertex K × Vertex K × K)) :=
  match gearParams X f z, gearParams X f (-z) with
  | some p, some q => (gearSearch p q (gearWeights p q)).map fun r => r.map fun w => (p, q, w)
  | _, _ => .ok none

/-- The expression squared (nonic.py 482). -/
def gearKer (z : K) (p : Vertex K) : Val3 K := fun a b c =>
  b * (z * (a ^ 2 - b ^ 2) + p.x * (a * b - a * c) + p.u * (b * c - a * b)) + a ^ 2 * c - b ^ 2 * c + p.v * (a ^ 2 * b - a * b * c)

/-- `_sos_struct_nonic_gear` (nonic.py 381-503) when `c540 = c612 = 0`. -/
def gearCore (X : NonicExt K) (f : Nonic K) : Except PyErr (Option (Cert K)) :=
  let c1 := f.c504
  if c1 = 0 ∨ f.c621 = 0 then .ok none
  else if c1 < 0 ∨ f.c621 / c1 < 0 then .ok none
  else
    match rationalizeFunc (fun z => z ^ 2 - f.c621 / c1) (-1) (fun z => if ¬ (0 ≤ z ∧ z ^ 2 ≤ f.c621 / c1) then .ok false else (gearVertices X f z).map Option.isSome)
        (X.gearZ f) with
    | .error e => .error e
    | .ok none => .ok none
    | .ok (some z) =>
      match gearVertices X f z with
      | .error e => .error e
      | .ok none => .error .typeError
      | .ok (some (p, q, w)) =>
        let c41 := w * p.c41 + (1 - w) * q.c41
        let c33 := w * p.c33 + (1 - w) * q.c33
        let c32 := w * p.c32 + (1 - w) * q.c32
        match hexSym X.toNumDen ⟨0, 0, 0, 0, c41, 0, c33, c32, c32, (-c41 - c33 - c32 * 2) * 3 + f.poly111 / c1⟩ with
        | .error e => .error e
        | .ok none => .ok none
        | .ok (some H) =>
          .ok (some (((((times prodA H).smul c1).add ((f.c621 / c1 - z ^ 2) * c1) (cyc3 fun a b c => a * b ^ 2 * c ^ 2 * (a - b) ^ 4)).add ((1 - w) * c1)
            (cyc3 fun a b c => a * c ^ 2 * gearKer (-z) q a b c ^ 2)).add (w * c1) (cyc3 fun a b c => a * c ^ 2 * gearKer z p a b c ^ 2)))

/-- `_sos_struct_nonic_gear` (nonic.py 381-503).  The reflected polynomial meets the first test, so the recursion has depth one. -/
def nonicGear (X : NonicExt K) (f : Nonic K) : Except PyErr (Option (Cert K)) :=
  if ¬ (f.c540 = 0 ∧ f.c612 = 0) then
    if ¬ (f.reflect.c540 = 0 ∧ f.reflect.c612 = 0) then .error (.custom "RecursionError")
    else (gearCore X f.reflect).map fun r => r.map Cert.reflect
  else gearCore X f

/-! ### The dispatch -/

/-- `sos_struct_nonic` (nonic.py 11-47). -/
def nonicSolve (X : NonicExt K) (f : Nonic K) : Except PyErr (Option (Cert K)) :=
  let inner := decide (f.c900 = 0 ∧ f.c810 = 0 ∧ f.c720 = 0 ∧ f.c702 = 0 ∧ f.c711 = 0)
  let small := inner && decide (f.c630 = 0 ∧ f.c603 = 0 ∧ f.c801 = 0)
  if small && decide (f.c540 = f.c504 ∧ f.c621 = f.c612 ∧ f.c531 = f.c513 ∧ f.c432 = f.c423) then nonicHexagram X f
  else if small && decide ((f.c540 = 0 ∧ f.c612 = 0) ∨ (f.c504 = 0 ∧ f.c621 = 0)) then nonicGear X f
  else if inner && decide (f.c621 = 0 ∧ f.c612 = 0 ∧ f.c540 = 0 ∧ f.c504 = 0) && decide (f.c603 = f.c630 ∧ f.c531 = f.c513 ∧ f.c432 = f.c423) then nonicHexagon X f
  else if decide (f.c810 = 0 ∧ f.c720 = 0 ∧ f.c540 = 0 ∧ f.c504 = 0 ∧ f.c801 = 0 ∧ f.c702 = 0 ∧ f.c621 = 0 ∧ f.c612 = 0 ∧ f.c531 = 0 ∧ f.c513 = 0 ∧ f.c432 = 0 ∧ f.c423 = 0) &&
      decide (0 < f.c900 ∧ f.c630 = f.c603) then nonicTree X f
  else .ok none

/-! ### Octics -/

/-- The coefficients of a cyclic polynomial of degree eight; `coeff((3,5,0))` is `c503` and `coeff((2,5,1))` is `c512`, `coeff((2,6,0))` is `c602`. -/
structure Octic (K : Type*) where
  c800 : K
  c710 : K
  c701 : K
  c620 : K
  c611 : K
  c602 : K
  c530 : K
  c521 : K
  c512 : K
  c503 : K
  c440 : K
  c431 : K
  c422 : K
  c413 : K
  c332 : K

/-- The value of the polynomial. -/
def Octic.poly (f : Octic K) : Val3 K :=
  cyc3 fun a b c => f.c800 * a ^ 8 + f.c710 * (a ^ 7 * b) + f.c701 * (a ^ 7 * c) + f.c620 * (a ^ 6 * b ^ 2) + f.c611 * (a ^ 6 * b * c) + f.c602 * (a ^ 6 * c ^ 2) +
    f.c530 * (a ^ 5 * b ^ 3) + f.c521 * (a ^ 5 * b ^ 2 * c) + f.c512 * (a ^ 5 * b * c ^ 2) + f.c503 * (a ^ 5 * c ^ 3) + f.c440 * (a ^ 4 * b ^ 4) +
    f.c431 * (a ^ 4 * b ^ 3 * c) + f.c422 * (a ^ 4 * b ^ 2 * c ^ 2) + f.c413 * (a ^ 4 * b * c ^ 3) + f.c332 * (a ^ 3 * b ^ 3 * c ^ 2)

/-- The numbers in the coefficient table. -/
def Octic.ofCoeff (c : Coeff K) : Octic K :=
  ⟨c.call [8, 0, 0], c.call [7, 1, 0], c.call [7, 0, 1], c.call [6, 2, 0], c.call [6, 1, 1], c.call [6, 0, 2], c.call [5, 3, 0], c.call [5, 2, 1], c.call [5, 1, 2],
    c.call [5, 0, 3], c.call [4, 4, 0], c.call [4, 3, 1], c.call [4, 2, 2], c.call [4, 1, 3], c.call [3, 3, 2]⟩

/-- `poly2` (octic.py 24-26).  The numbers that it reads are, in the order of the source, those of `b^3c^5`, `ab^2c^5`, `a^2bc^5`, `a^3c^5`, `a^3b^3c^2`, `b^4c^4`,
`ab^3c^4`, `a^2b^2c^4`, `a^3bc^4`. -/
def octicPoly2 (f : Octic K) : Septic K :=
  ⟨0, 0, 0, f.c503, f.c440, f.c530, f.c512, f.c413, f.c431, f.c521, f.c422, f.c332⟩

/-- Calls of `sos_struct_octic` to other files. -/
structure OcticExt (K : Type*) where
  /-- `sos_struct_octic_symmetric` (octic.py 11). -/
  symm : Octic K → Except PyErr (Option (Cert K))
  /-- `coeff.is_rational`. -/
  rational : Bool
  /-- `_structural_sos_3vars_cyclic` (octic.py 27). -/
  solve : List (List ℕ × K) → Except PyErr (Option (Cert K))

/-- `sos_struct_octic` (octic.py 9-33). -/
def octicSolve (X : OcticExt K) (f : Octic K) : Except PyErr (Option (Cert K)) :=
  match X.symm f with
  | .error e => .error e
  | .ok (some C) => .ok (some C)
  | .ok none =>
    if X.rational = false then .ok none
    else if f.c800 ≠ 0 ∨ f.c710 ≠ 0 ∨ f.c701 ≠ 0 then .ok none
    else if f.c620 = 0 ∧ f.c611 = 0 ∧ f.c602 = 0 then (X.solve (octicPoly2 f).terms).map fun s => s.map (Cert.inv 2)
    else .ok none

end Verif.Ternary
