import Verif.Model.TernaryCubic
import Verif.Model.Congruence
import Verif.Model.StructUtils
import Mathlib.Algebra.Order.Field.Basic

/-!
# Acyclic ternary quadratics and cubics

Model of `sos_struct_acyclic_quadratic` (triples/core/structsos/ternary/quadratic.py 22-124) and of the acyclic half of
`triples/core/structsos/ternary/cubic.py` (267-552).  Conventions as in `Verif.Model.TernaryQuartic`.
-/

namespace Verif.Ternary

open Verif

variable {K : Type*} [Field K] [LinearOrder K]

/-! ### Quadratics -/

/-- The coefficients of `a^2, ab, ac, b^2, bc, c^2` (quadratic.py 62). -/
structure Quad (K : Type*) where
  c00 : K
  c01 : K
  c02 : K
  c11 : K
  c12 : K
  c22 : K

/-- The numbers read by the solver (quadratic.py 62). -/
def Quad.ofCoeff (c : Coeff K) : Quad K := ⟨c.call [2, 0, 0], c.call [1, 1, 0], c.call [1, 0, 1], c.call [0, 2, 0], c.call [0, 1, 1], c.call [0, 0, 2]⟩

/-- `quad_form(c01, c02, c12)` (quadratic.py 66-72). -/
def quadForm3 (f : Quad K) (c01 c02 c12 : K) (i j : ℕ) : K :=
  (([[f.c00, c01 / 2, c02 / 2], [c01 / 2, f.c11, c12 / 2], [c02 / 2, c12 / 2, f.c22]] : List (List K)).getD i []).getD j 0

/-- `solve_psd(M)` (quadratic.py 74-85). -/
def solvePsd (M : ℕ → ℕ → K) : Except PyErr (Option (Cert K)) :=
  (congruence 3 M).map fun r => r.map fun US =>
    .plain [(US.2 0, fun a b c => (US.1 0 0 * a + US.1 0 1 * b + US.1 0 2 * c) ^ 2), (US.2 1, fun _ b c => (US.1 1 1 * b + US.1 1 2 * c) ^ 2),
      (US.2 2, fun _ _ c => (US.1 2 2 * c) ^ 2)]

/-- `solve_nonnegative(M)` (quadratic.py 87-89). -/
def solveNonneg (M : ℕ → ℕ → K) : Option (Cert K) :=
  if (List.range 3).all (fun i => (List.range 3).all fun j => decide (0 ≤ M i j)) = true then
    some (.plain [(M 0 0, fun a _ _ => a ^ 2), (M 1 1, fun _ b _ => b ^ 2), (M 2 2, fun _ _ c => c ^ 2), (M 0 1 * 2, fun a b _ => a * b),
      (M 0 2 * 2, fun a _ c => a * c), (M 1 2 * 2, fun _ b c => b * c)])
  else none

/-- `psd[i, j] = psd[j, i] = v`. -/
def setSym (M : ℕ → ℕ → K) (i j : ℕ) (v : K) (r c : ℕ) : K := if (r = i ∧ c = j) ∨ (r = j ∧ c = i) then v else M r c

/-- The final loop (quadratic.py 115-124). -/
def acyclicQuadLoop (M : ℕ → ℕ → K) : List ℕ → (ℕ → ℕ → K) → Except PyErr (Option (Cert K))
  | [], _ => .ok none
  | i :: is, psd =>
    let j := (i + 1) % 3
    let k := (i + 2) % 3
    if 0 ≤ psd i j then
      let psd' := setSym psd i j (psd j k * psd k i / psd k k)
      let s2 := solveNonneg fun r c => M r c - psd' r c
      (solvePsd psd').bind fun s1 =>
        match s1, s2 with
        | some C1, some C2 => .ok (some (C1.plus C2))
        | _, _ => acyclicQuadLoop M is psd'
    else acyclicQuadLoop M is psd

/-- `sos_struct_acyclic_quadratic` (quadratic.py 22-124).  `solution + None` (line 107) would raise `TypeError`. -/
def acyclicQuadratic (f : Quad K) : Except PyErr (Option (Cert K)) :=
  if f.c00 < 0 ∨ f.c11 < 0 ∨ f.c22 < 0 then .ok none
  else
    let M := quadForm3 f f.c01 f.c02 f.c12
    (solvePsd M).bind fun s =>
      match s with
      | some C => .ok (some C)
      | none =>
        if 0 ≤ f.c01 ∧ 0 ≤ f.c02 ∧ 0 ≤ f.c12 then .ok (solveNonneg M)
        else if ([f.c01, f.c02, f.c12].filter fun x => decide (0 ≤ x)).length = 2 then
          let psd := quadForm3 f (min f.c01 0) (min f.c02 0) (min f.c12 0)
          (solvePsd psd).bind fun s =>
            match s with
            | none => .ok none
            | some C =>
              match solveNonneg fun r c => M r c - psd r c with
              | some D => .ok (some (C.plus D))
              | none => .error .typeError
        else if f.c00 = 0 ∨ f.c11 = 0 ∨ f.c22 = 0 then .ok none
        else acyclicQuadLoop M [0, 1, 2] M

/-! ### Cubics without cubes -/

/-- The coefficients of an arbitrary ternary cubic. -/
structure Hexagon (K : Type*) where
  c120 : K
  c102 : K
  c012 : K
  c210 : K
  c201 : K
  c021 : K
  c111 : K
  cubes : K × K × K

/-- The choice of one `z` (cubic.py 328-337): `sq` is `sqrt`, `isRat` the test for `sp.Rational`, `zs` the numbers tried by `rationalize_func`. -/
def hexagonZ (sq : K → K) (isRat : K → Bool) (zs : List K) (gap x y : K) : Option K :=
  let z0 := -2 * sq (x * y)
  if isRat z0 = true then some z0 else zs.find? fun z => decide (z0 ≤ z ∧ z ≤ 0) && decide (z - z0 ≤ gap / 3)

/-- `quadratic_weighting(x, z, y, a=b0, b=c0) * a0`: `None * a0` raises `TypeError`. -/
def weightingTerm (x z y : K) (sel : Val3 K × Val3 K × Val3 K) : Except PyErr (List (K × Val3 K)) :=
  match quadraticWeighting x z y with
  | none => .error .typeError
  | some l => .ok (l.map fun w => (w.1, fun a b c => (w.2.1 * sel.2.1 a b c + w.2.2 * sel.2.2 a b c) ^ 2 * sel.1 a b c))

/-- `_sos_struct_acyclic_cubic_hexagon` (cubic.py 299-342). -/
def hexagon (sq : K → K) (isRat : K → Bool) (zs : List K) (f : Hexagon K) : Except PyErr (Option (Cert K)) :=
  if f.cubes.1 ≠ 0 ∨ f.cubes.2.1 ≠ 0 ∨ f.cubes.2.2 ≠ 0 then .ok none
  else if f.c120 < 0 ∨ f.c102 < 0 ∨ f.c012 < 0 ∨ f.c210 < 0 ∨ f.c201 < 0 ∨ f.c021 < 0 then .ok none
  else
    let gap := f.c111 / 2 + (sq (f.c120 * f.c102) + sq (f.c012 * f.c210) + sq (f.c201 * f.c021))
    if 0 ≤ gap then
      match hexagonZ sq isRat zs gap f.c120 f.c102, hexagonZ sq isRat zs gap f.c012 f.c210, hexagonZ sq isRat zs gap f.c201 f.c021 with
      | some z1, some z2, some z3 =>
        (weightingTerm f.c120 z1 f.c102 (fun a _ _ => a, fun _ b _ => b, fun _ _ c => c)).bind fun l1 =>
        (weightingTerm f.c012 z2 f.c210 (fun _ b _ => b, fun _ _ c => c, fun a _ _ => a)).bind fun l2 =>
        (weightingTerm f.c201 z3 f.c021 (fun _ _ c => c, fun a _ _ => a, fun _ b _ => b)).bind fun l3 =>
          .ok (some (.plain (l1 ++ l2 ++ l3 ++ [(f.c111 - (z1 + z2 + z3), fun a b c => a * b * c)])))
      | _, _, _ => .ok none
    else .ok none

/-! ### Cubics symmetric in two variables -/

/-- The coefficients of `c^3, a c^2, a^2 c, a^3, a^2 b, abc` (cubic.py 388). -/
structure SymCubic (K : Type*) where
  x0 : K
  x1 : K
  x2 : K
  x3 : K
  x4 : K
  x5 : K

/-- The case `x0 == 0` (cubic.py 404-443); `sq` is `sqrt`. -/
def symCubicZero (sq : K → K) (f : SymCubic K) : Except PyErr (Option (Cert K)) :=
  if f.x1 < 0 ∨ f.x3 < 0 then .ok none
  else if f.x3 = 0 then
    if 0 ≤ f.x4 ∧ 0 ≤ f.x2 ∧ 0 ≤ 4 * sq (f.x4 * f.x1) + 2 * f.x2 + f.x5 then
      (weightingTerm f.x4 (f.x5 / 2 + f.x2) f.x1 (fun _ b _ => b, fun a _ _ => a, fun _ _ c => c)).bind fun l1 =>
      (weightingTerm f.x4 (f.x5 / 2 + f.x2) f.x1 (fun a _ _ => a, fun _ b _ => b, fun _ _ c => c)).bind fun l2 =>
        .ok (some (.plain ((f.x2, fun a b c => c * (a - b) ^ 2) :: (l1 ++ l2))))
    else .ok none
  else if f.x2 < 0 ∧ 4 * f.x1 * f.x3 < f.x2 ^ 2 then .ok none
  else
    let x40 := -(16 * f.x1 * f.x3 - 4 * f.x2 ^ 2 - 4 * f.x2 * f.x5 - f.x5 ^ 2) / (16 * f.x1)
    let r := if f.x2 ^ 2 ≤ 4 * f.x1 * f.x3 then f.x2 / f.x3 / 2 else 0
    let ker := f.x1 - f.x3 * r ^ 2
    if 0 < f.x1 ∧ x40 ≤ f.x4 then
      let s := (-2 * f.x2 - f.x5) / (4 * f.x1)
      let w := 1 + r * s
      .ok (some (.plain [(f.x3, fun a b c => a * (a + r * c - w * b) ^ 2), (f.x3, fun a b c => b * (b + r * c - w * a) ^ 2),
        (f.x4 - x40, fun a b _ => a * b * (a + b)), (f.x2 - 2 * r * f.x3, fun a b c => c * (a - b) ^ 2),
        (ker, fun a b c => a * (-s * b + c) ^ 2), (ker, fun a b c => b * (-s * a + c) ^ 2)]))
    else if 0 ≤ 2 * f.x2 + f.x5 ∧ 0 ≤ f.x3 + f.x4 then
      .ok (some (.plain [(f.x3, fun a b c => a * (a - b + r * c) ^ 2), (f.x3, fun a b c => b * (b - a + r * c) ^ 2),
        (f.x3 + f.x4, fun a b _ => a * b * (a + b)), (f.x2 - 2 * r * f.x3, fun a b c => c * (a - b) ^ 2), (2 * f.x2 + f.x5, fun a b c => a * b * c),
        (ker, fun a b c => c ^ 2 * (a + b))]))
    else .ok none

/-- `_determine_tz` (cubic.py 447-476): `tg` is the root of the gcd if that has degree one, `ts` the numbers tried by `rationalize_func`. -/
def determineTZ (tg : Option K) (ts : List K) (f : SymCubic K) : Option (K × K) :=
  let eqt1 := fun t : K => 3 * f.x0 * t ^ 2 + 2 * f.x1 * t + f.x2
  let eqt2 := fun t : K => -2 * f.x0 * t ^ 3 - f.x1 * t ^ 2 + f.x3
  let valid := fun t : K => decide (0 ≤ f.x1 / f.x0 + 2 * t) && decide (0 ≤ eqt2 t)
  let t1 : Option K :=
    if 0 ≤ f.x2 ∧ valid 0 = true then some 0
    else if 0 ≤ eqt1 (-f.x1 / f.x0 / 2) ∧ 0 ≤ eqt2 (-f.x1 / f.x0 / 2) then some (-f.x1 / f.x0 / 2)
    else tg.filter fun t => decide (0 ≤ f.x1 / f.x0 + 2 * t)
  let t2 := match t1 with
    | some t => some t
    | none => ts.find? valid
  t2.map fun t => (t, f.x1 / f.x0 + 2 * t)

/-- A value of `w`, possibly `sp.oo`. -/
inductive WVal (K : Type*) where
  | oo
  | fin (w : K)

/-- `_determine_w` (cubic.py 478-510): `wg` is the root of the gcd if that has degree one, `ws` the numbers tried by `rationalize_func`. -/
def determineW (wg : Option K) (ws : List K) (x0 x4 x5 t z : K) : Option (WVal K) :=
  let w0 := 2 * (5 * t ^ 2 - 2 * t * z + 2 * z ^ 2) / 3
  let y0 := 4 * (-2 * t + z) ^ 3 / 27
  if 2 * t ≤ z ∧ y0 - t ^ 2 * z ≤ x4 / x0 ∧ w0 - 3 * (z - 2 * t) ^ 2 ≤ x5 / x0 then some .oo
  else
    let eqw1 := fun w : K => (x5 / x0 - w0) * w ^ 2 + 3 * (-2 * t * w + w * z - 3) ^ 2
    let eqw2 := fun w : K => (x4 / x0 + t ^ 2 * z - y0) * w ^ 3 + 3 * (-2 * t * w + w * z - 3) ^ 2
    let eqw3 := fun w : K => -8 * t * w + 4 * w * z - 9
    let valid := fun w : K => decide (w ≠ 0) && decide (0 ≤ eqw3 w * w) && decide (0 ≤ eqw2 w * w)
    if z ≠ 2 * t ∧ 0 ≤ eqw1 (9 / (z - 2 * t) / 4) ∧ valid (9 / (z - 2 * t) / 4) = true then some (.fin (9 / (z - 2 * t) / 4))
    else if 0 ≤ eqw1 1 ∧ valid 1 = true then some (.fin 1)
    else
      match wg.filter valid with
      | some w => some (.fin w)
      | none => (ws.find? valid).map .fin

/-- The numerator of `_solve_tzw` over `a + b` (cubic.py 512-521) as weighted values. -/
def solveTZW (t z : K) (w : WVal K) : List (K × Val3 K) :=
  let s := match w with
    | .oo => (z - 2 * t) / 3
    | .fin w => (-2 * t * w + w * z - 9) / (3 * w)
  let k := match w with
    | .oo => (16 * z - 32 * t) / 3
    | .fin w => (-8 * t * w + 4 * w * z - 9) * 4 / (3 * w)
  [(z, fun a b c => (t * a + t * b - c) ^ 2 * (a - b) ^ 2), (k, fun a b c => a * b * (s / 2 * (a + b) - c) ^ 2),
    (1, fun a b c => c * (a * (t * a + (s - t) * b - c) ^ 2 + b * (t * b + (s - t) * a - c) ^ 2))]

/-- `_sos_struct_acyclic_cubic_symmetric` (cubic.py 345-552) after the order of the symbols is fixed. -/
def symCubic (sq : K → K) (tg : Option K) (ts : List K) (wg : Option K) (ws : List K) (f : SymCubic K) : Except PyErr (Option (Cert K)) :=
  if f.x0 < 0 then .ok none
  else if f.x0 = 0 then symCubicZero sq f
  else
    match determineTZ tg ts f with
    | none => .ok none
    | some (t, z) =>
      let y0 := f.x3 - f.x0 * t ^ 2 * z
      let y1 := f.x2 - f.x0 * (t ^ 2 - 2 * t * z)
      let x42 := f.x4 + y0
      let x52 := f.x5 + 2 * y1
      match determineW wg ws f.x0 x42 x52 t z with
      | none => .ok none
      | some w =>
        let w0 := 2 * (5 * t ^ 2 - 2 * t * z + 2 * z ^ 2) / 3
        let v0 := 4 * (-2 * t + z) ^ 3 / 27
        let y2 := match w with
          | .oo => x42 - f.x0 * (-t ^ 2 * z + v0)
          | .fin w => x42 - f.x0 * (-t ^ 2 * z + v0 + -3 * (-2 * t * w + w * z - 3) ^ 2 / w ^ 3)
        let y3 := match w with
          | .oo => x52 - f.x0 * (w0 - 3 * (z - 2 * t) ^ 2)
          | .fin w => x52 - f.x0 * (w0 + w * (-3 * (-2 * t * w + w * z - 3) ^ 2 / w ^ 3))
        if 0 ≤ y0 ∧ 0 ≤ y1 ∧ 0 ≤ y2 ∧ 0 ≤ y3 then
          .ok (some ⟨[(1, fun a b c => (y0 * (a + b) + y1 * c) * (a - b) ^ 2 * (a + b)), (1, fun a b c => (y2 * (a + b) + y3 * c) * (a * b) * (a + b))] ++
            (solveTZW t z w).map fun v => (f.x0 * v.1, v.2), fun a b _ => a + b⟩)
        else .ok none

/-- The value of a solution after renaming the symbols: role `a` is played by the symbol at place `k`, the other roles follow cyclically. -/
def rotVal : ℕ → Val3 K → Val3 K
  | 0, f => f
  | 1, f => fun a b c => f b c a
  | _, f => fun a b c => f c a b

/-- Renaming the symbols of a solution. -/
def Cert.rot (k : ℕ) (C : Cert K) : Cert K := ⟨C.terms.map fun t => (t.1, rotVal k t.2), rotVal k C.den⟩

/-- The choice of the symmetric pair (cubic.py 386-395): a later match overrides an earlier one.  The result is the renaming and the six numbers. -/
def symCubicSelect (c : Coeff K) : Option (ℕ × SymCubic K) :=
  let eq := fun u v : List ℕ => decide (c.call u = c.call v)
  if eq [0, 0, 3] [3, 0, 0] && eq [1, 0, 2] [2, 0, 1] && eq [0, 1, 2] [2, 1, 0] && eq [0, 2, 1] [1, 2, 0] then
    some (2, ⟨c.call [0, 3, 0], c.call [0, 2, 1], c.call [0, 1, 2], c.call [0, 0, 3], c.call [1, 0, 2], c.call [1, 1, 1]⟩)
  else if eq [0, 3, 0] [0, 0, 3] && eq [0, 2, 1] [0, 1, 2] && eq [1, 2, 0] [1, 0, 2] && eq [2, 1, 0] [2, 0, 1] then
    some (1, ⟨c.call [3, 0, 0], c.call [2, 1, 0], c.call [1, 2, 0], c.call [0, 3, 0], c.call [0, 2, 1], c.call [1, 1, 1]⟩)
  else if eq [3, 0, 0] [0, 3, 0] && eq [2, 1, 0] [1, 2, 0] && eq [2, 0, 1] [0, 2, 1] && eq [1, 0, 2] [0, 1, 2] then
    some (0, ⟨c.call [0, 0, 3], c.call [1, 0, 2], c.call [2, 0, 1], c.call [3, 0, 0], c.call [2, 1, 0], c.call [1, 1, 1]⟩)
  else none

/-- The numbers read by the hexagon solver (cubic.py 310-316). -/
def Hexagon.ofCoeff (c : Coeff K) : Hexagon K := ⟨c.call [1, 2, 0], c.call [1, 0, 2], c.call [0, 1, 2], c.call [2, 1, 0], c.call [2, 0, 1], c.call [0, 2, 1],
  c.call [1, 1, 1], (c.call [3, 0, 0], c.call [0, 3, 0], c.call [0, 0, 3])⟩

/-- `sos_struct_acyclic_cubic` (cubic.py 276-296). -/
def acyclicCubic (sq : K → K) (isRat : K → Bool) (tg : Option K) (ts : List K) (wg : Option K) (ws zs : List K) (c : Coeff K) : Except PyErr (Option (Cert K)) :=
  let first : Except PyErr (Option (Cert K)) :=
    match symCubicSelect c with
    | none => .ok none
    | some (k, f) => (symCubic sq tg ts wg ws f).map fun r => r.map (Cert.rot k)
  first.bind fun r =>
    match r with
    | some C => .ok (some C)
    | none => hexagon sq isRat zs (Hexagon.ofCoeff c)

end Verif.Ternary
