import Verif.Model.Acute

/-!
# Ternary septic solver

Model of `triples/core/structsos/ternary/septic.py`.  As in `TernaryQuartic`, a solution is a list of weights and expressions over a denominator, and
`radsimp`, `together`, `as_coeff_Mul` do not change a value.  Root finders and searches only choose candidates, so the candidates are parameters.
-/

namespace Verif.Ternary

open Verif Verif.TermsPoly Verif.Acute

variable {K : Type*} [Field K] [LinearOrder K]

/-- The coefficients of a cyclic polynomial of degree seven; `coeff((3,4,0))` is `c403`, `coeff((2,5,0))` is `c502`, `coeff((2,4,1))` is `c412`. -/
structure Septic (K : Type*) where
  c700 : K
  c610 : K
  c601 : K
  c520 : K
  c511 : K
  c502 : K
  c430 : K
  c421 : K
  c412 : K
  c403 : K
  c331 : K
  c322 : K

/-- The numbers that the solver reads (septic.py 16-24 and below). -/
def Septic.ofCoeff (c : Coeff K) : Septic K :=
  ⟨c.call [7, 0, 0], c.call [6, 1, 0], c.call [6, 0, 1], c.call [5, 2, 0], c.call [5, 1, 1], c.call [2, 5, 0], c.call [4, 3, 0], c.call [4, 2, 1],
    c.call [2, 4, 1], c.call [3, 4, 0], c.call [3, 3, 1], c.call [3, 2, 2]⟩

/-- `coeff.as_poly()` (coeff.py 137-148), rebuilt from the twelve coefficients; theorem `septic_ofCoeff` shows that the value is the same. -/
def Septic.terms (f : Septic K) : List (List ℕ × K) :=
  cycT [([7, 0, 0], f.c700), ([6, 1, 0], f.c610), ([6, 0, 1], f.c601), ([5, 2, 0], f.c520), ([5, 1, 1], f.c511), ([5, 0, 2], f.c502), ([4, 3, 0], f.c430),
    ([4, 2, 1], f.c421), ([4, 1, 2], f.c412), ([4, 0, 3], f.c403), ([3, 3, 1], f.c331), ([3, 2, 2], f.c322)]

/-- `coeff.poly111()` (coeff.py 182-186): the sum of all coefficients. -/
def Septic.poly111 (f : Septic K) : K :=
  3 * (f.c700 + f.c610 + f.c601 + f.c520 + f.c511 + f.c502 + f.c430 + f.c421 + f.c412 + f.c403 + f.c331 + f.c322)

/-- `coeff.reflect()` (coeff.py 117-129): exchange the first two variables, on the twelve coefficients of a cyclic polynomial. -/
def Septic.reflect (f : Septic K) : Septic K :=
  ⟨f.c700, f.c601, f.c610, f.c502, f.c511, f.c520, f.c403, f.c412, f.c421, f.c430, f.c331, f.c322⟩

/-- `reflect_expression(solution)` (ternary/utils.py 21-37). -/
def Cert.reflect (C : Cert K) : Cert K := ⟨C.terms.map fun t => (t.1, fun a b c => t.2 a c b), fun a b c => C.den a c b⟩

/-- The candidate for `z` in `_sos_struct_septic_hexagon` (septic.py 384-398). -/
inductive ZCand (K : Type*)
  /-- no real root: `min([])` raises `ValueError` -/
  | noRoot
  /-- an exact root -/
  | exact (z : K)
  /-- a floating point root; the approximate first test (440) and the rational approximations (442) -/
  | float (first : Bool) (zs : List K)

/-- Calls of the solver to other files, and the outcomes of its searches. -/
structure SepticExt (K : Type*) where
  /-- `sos_struct_quartic` (septic.py 60). -/
  quart : Quartic K → Except PyErr (Option (Cert K))
  /-- `_structural_sos_3vars_cyclic` (septic.py 218, 581; ternary/utils.py 96). -/
  solve : List (List ℕ × K) → Except PyErr (Option (Cert K))
  /-- `sp.div` (septic.py 216). -/
  div : List (List ℕ × K) → List (List ℕ × K) → List (List ℕ × K) × List (List ℕ × K)
  /-- `sos_struct_septic_symmetric` (septic.py 25). -/
  symm : Septic K → Except PyErr (Option (Cert K))
  /-- `coeff.is_rational`. -/
  rational : Bool
  /-- The approximations of `(u, v)` tried in `_sos_struct_septic_star` (septic.py 118-153). -/
  starUV : Septic K → List (K × K)
  /-- `(sqrt(p), sqrt(q))` for the numerator and denominator of a fraction if both are squares (septic.py 169-184, 475-492). -/
  sqrtND : K → Option (K × K)
  /-- `optimize_discriminant` in `_sos_struct_septic_star` (septic.py 186-205).  The test `q != 0` (188) reads a `q` that was reassigned; it only steers this search. -/
  starOpt : Septic K → Option (K × K)
  /-- `z` of `_sos_struct_septic_hexagon` (septic.py 378-398, 440-442). -/
  hexZ : Septic K → ZCand K
  /-- The candidates `(w, z)` (septic.py 488-557). -/
  hexWZ : Septic K → List (K × K)
  /-- `optimize_discriminant` in `_sos_struct_septic_hexagon` (septic.py 561-574). -/
  hexOpt : Septic K → K × K → Option (K × K)
  /-- `max(1, int((a / b)**0.5))` (rationalize.py 247-250). -/
  isqrt : K → K → K

/-- `CyclicProduct(a)`. -/
def abcV : Val3 K := fun a b c => a * b * c

/-- `(a*b*c).as_poly(a,b,c)` (septic.py 216). -/
def abcT : List (List ℕ × K) := [([1, 1, 1], 1)]

/-- `w * p` for a polynomial. -/
def scaleT (w : K) (p : List (List ℕ × K)) : List (List ℕ × K) := p.map fun t => (t.1, w * t.2)

/-- `_fast_solve_quartic` (septic.py 33-63); `rem` is already a number.  The first branch ignores `mul_abc`, which no caller sets to false. -/
def fastQuartic (X : SepticExt K) (m p n q rem : K) : Except PyErr (Option (Cert K)) :=
  if rem < 0 then .ok none
  else
    let det := 3 * m * (m + n) - (p ^ 2 + p * q + q ^ 2)
    if 0 < m ∧ 0 ≤ det then
      .ok (some (times abcV (.plain [
        (m / 2, cyc3 fun a b c => (a ^ 2 - b ^ 2 + (p + 2 * q) / 3 / m * (a * c - a * b) - (q + 2 * p) / 3 / m * (b * c - a * b)) ^ 2),
        (det / 6 / m, cyc3 fun a b c => a ^ 2 * (b - c) ^ 2), (rem, cyc3 fun a b c => a ^ 2 * b * c)])))
    else (X.quart ⟨m, p, n, q, rem - m - p - n - q⟩).map fun r => r.map (times abcV)

/-- One `z` of `square_perturbation` (rationalize.py 253-257). -/
def pertStep (r : K) (i : ℕ) (z : K) : K := if 0 < i ∨ z = 1 then (z + r / z) / 2 else z

/-- The `t` yielded by `square_perturbation(a, b, times)` (rationalize.py 243-266) from the step `i` on, for `b < a`; the other case exchanges them.  For
`a = b` SymPy divides by zero; callers exclude it. -/
def pertLoop (a b : K) : ℕ → ℕ → K → List K
  | 0, _, _ => []
  | n + 1, i, z =>
    let z := pertStep (a / b) i z
    let t := (a - z * z * b) / (1 - z * z)
    if t < 0 ∨ b < t then pertLoop a b n (i + 1) z else t :: pertLoop a b n (i + 1) z

/-- `square_perturbation(a, b, times = 4)` (rationalize.py 243-266). -/
def squarePerturbation (isqrt : K → K → K) (a b : K) : List K := if b < a then pertLoop a b 4 0 (isqrt a b) else pertLoop b a 4 0 (isqrt b a)

/-- `try_perturbations` (ternary/utils.py 83-99): subtract `t * perturbation`, solve the rest, add it back. -/
def tryPert (rec : List (List ℕ × K) → Except PyErr (Option (Cert K))) (poly pertT : List (List ℕ × K)) (pertV : Val3 K) :
    List K → Except PyErr (Option (Cert K))
  | [] => .ok none
  | t :: ts =>
    match rec (collect (poly ++ pneg (scaleT t pertT))) with
    | .error e => .error e
    | .ok (some S) => .ok (some (S.add t pertV))
    | .ok none => tryPert rec poly pertT pertV ts

/-- `c*(a-b)**2*(a*b-a*c-b*c)**2` (septic.py 233) as a polynomial. -/
def pertStarT : List (List ℕ × K) :=
  let e : List (List ℕ × K) := [([1, 1, 0], 1), ([1, 0, 1], -1), ([0, 1, 1], -1)]
  cycT (pmul (pmul [([0, 0, 1], 1)] (pmul abT abT)) (pmul e e))

/-- `CyclicSum(c*(a-b)**2*(a*b-a*c-b*c)**2)` (septic.py 233). -/
def pertStarV : Val3 K := cyc3 fun a b c => c * (a - b) ^ 2 * (a * b - a * c - b * c) ^ 2

/-- `CyclicSum(a) * CyclicProduct((a-b)**2)` (septic.py 587) as a polynomial. -/
def pertHexT : List (List ℕ × K) := pmul (cycT [([1, 0, 0], 1)]) discT

/-- `CyclicSum(a) * CyclicProduct((a-b)**2)` (septic.py 587). -/
def pertHexV : Val3 K := fun a b c => cyc3 (fun a _ _ => a) a b c * discV a b c

/-- The loop over the approximations of `(u, v)` (septic.py 150-163).  `None` for the rest raises `TypeError`. -/
def starLoop (X : SepticExt K) (c43 m p n q rem : K) : List (K × K) → Except PyErr (Option (Cert K))
  | [] => .ok none
  | (u, v) :: l =>
    let p' := p - (u ^ 2 - 2 * v)
    let n' := n + 2 * u * v
    let q' := q - (v ^ 2 - 2 * u)
    if 0 ≤ 3 * m * (m + n') - (p' ^ 2 + p' * q' + q' ^ 2) then
      match fastQuartic X (m * c43) (p' * c43) (n' * c43) (q' * c43) (rem / 3) with
      | .error e => .error e
      | .ok none => .error .typeError
      | .ok (some S) =>
        .ok (some (S.add c43 (cyc3 fun a b c => c * (a ^ 2 * c - b ^ 2 * c - u * a ^ 2 * b + v * a * b ^ 2 + (u - v) * a * b * c) ^ 2)))
    else starLoop X c43 m p n q rem l

/-- The expression squared in `_sos_struct_septic_star` (septic.py 208-211). -/
def starExpr (first : Bool) (z u v : K) : Val3 K :=
  if first then fun a b c => a ^ 2 * b + (z - 1 - 2 * v) * a * b * c - z * b * c ^ 2 + (u + v) * a ^ 2 * c + (v - u) * (a * c ^ 2)
  else fun a b c => b * c ^ 2 + (-2 * v - 1) * a * b * c + (u + v) * a ^ 2 * c + (v - u) * a * c ^ 2

/-- The same as a polynomial. -/
def starExprT (first : Bool) (z u v : K) : List (List ℕ × K) :=
  if first then [([2, 1, 0], 1), ([1, 1, 1], z - 1 - 2 * v), ([0, 1, 2], -z), ([2, 0, 1], u + v), ([1, 0, 2], v - u)]
  else [([0, 1, 2], 1), ([1, 1, 1], -2 * v - 1), ([2, 0, 1], u + v), ([1, 0, 2], v - u)]

/-- `_sos_struct_septic_star` (septic.py 66-239). -/
def septicStar (X : SepticExt K) (f : Septic K) : Except PyErr (Option (Cert K)) :=
  if f.c700 ≠ 0 ∨ f.c610 ≠ 0 ∨ f.c601 ≠ 0 ∨ f.c520 ≠ 0 ∨ f.c502 ≠ 0 then .ok none
  else if f.c430 < 0 ∨ f.c403 < 0 ∨ f.c511 < 0 then .ok none
  else if f.poly111 < 0 then .ok none
  else if f.c430 = 0 ∧ f.c403 = 0 then fastQuartic X f.c511 f.c421 f.c331 f.c412 (f.poly111 / 3)
  else if X.rational = false then .ok none
  else if f.c430 = f.c403 then
    starLoop X f.c430 (f.c511 / f.c430) (f.c421 / f.c430) (f.c331 / f.c430) (f.c412 / f.c430) f.poly111 (X.starUV f)
  else
    match (if f.c430 = 0 then some (1, 0) else X.sqrtND (f.c403 / f.c430)) with
    | some (sp, sq) =>
      let t := if f.c430 = 0 then f.c403 else f.c430
      let z := if f.c430 = 0 then 0 else sp / sq
      match X.starOpt f with
      | none => .ok none
      | some (u, v) =>
        let e := starExprT (decide (f.c430 ≠ 0)) z u v
        let poly := (X.div (collect (f.terms ++ pneg (scaleT t (cycT (pmul [([0, 1, 0], 1)] (pmul e e)))))) abcT).1
        (X.solve poly).map fun r => r.map fun S =>
          (times abcV S).add t (cyc3 fun a b c => b * starExpr (decide (f.c430 ≠ 0)) z u v a b c ^ 2)
    | none =>
      if 0 < f.c403 ∧ 0 < f.c430 then tryPert X.solve f.terms pertStarT pertStarV (squarePerturbation X.isqrt f.c403 f.c430)
      else .ok none

/-- `_sos_struct_septic_biased` (septic.py 281-314) when `s(a5b2)` and `s(a4b3)` are absent. -/
def biasedCore (f : Septic K) : Option (Cert K) :=
  let k := f.c403
  if f.c403 = f.c502 ∧ f.c403 ≠ 0 then
    let m := f.c511 / k
    let p := f.c421 / k + 2
    let n := f.c331 / k
    let q := f.c412 / k
    if 0 < m then
      let det := m * (-3 * m ^ 2 - 3 * m * n - 7 * m - 4 * n + p ^ 2 + p * q - p + q ^ 2 - 2 * q - 3) + p ^ 2
      if det ≤ 0 then
        let x := -(6 * m + p + 2 * q + 6) / (3 * m + 4)
        let n2 := n - (x ^ 2 + 4 * x + 3)
        let q2 := q + (2 * x + 3)
        let u := -(p + 2 * q2) / 3 / m
        let v := -(2 * p + q2) / 3 / m
        some ⟨[(k, cyc3 fun a b c => a * c * (a ^ 2 * c - a * b ^ 2 * (x + 2) + a * b * c + b ^ 2 * c * (x + 1) - b * c ^ 2) ^ 2),
          (1 / 2 * k, cyc3 fun a b c =>
            (a ^ 3 * c - a ^ 2 * b ^ 2 - a ^ 2 * b * c * (x + 1) - a * b ^ 3 + a * b ^ 2 * c * (x + 2) - a * b * c ^ 2 + b ^ 2 * c ^ 2) ^ 2),
          (m / 2 * k, fun a b c => cyc3 (fun a b c => (a ^ 2 - b ^ 2 + (u - v) * a * b - u * a * c + v * b * c) ^ 2) a b c * sumA a b c * abcV a b c),
          ((3 * (m + n2) - (p ^ 2 + q2 ^ 2 + p * q2) / m) / 6 * k, fun a b c => cyc3 (fun a b c => a ^ 2 * (b - c) ^ 2) a b c * sumA a b c * abcV a b c),
          ((m + p + n + q + f.c322 / k) * k, fun a b c => sumA a b c ^ 2 * cycp3 (fun a _ _ => a ^ 2) a b c)], sumA⟩
      else none
    else none
  else none

/-- `_sos_struct_septic_biased` (septic.py 242-321).  The reflection recurses for ever if both orientations have border terms; the caller excludes it. -/
def septicBiased (X : SepticExt K) (f : Septic K) : Except PyErr (Option (Cert K)) :=
  if X.rational = false then .ok none
  else if f.c520 ≠ 0 ∨ f.c430 ≠ 0 then
    if f.c502 ≠ 0 ∨ f.c403 ≠ 0 then .error (.custom "RecursionError") else .ok ((biasedCore f.reflect).map Cert.reflect)
  else .ok (biasedCore f)

/-- `det` (septic.py 382, 429). -/
def hexDet (p q z : K) : K :=
  64 * p ^ 3 - 16 * p ^ 2 * q ^ 2 + 8 * p * q * z ^ 2 + 32 * p * q * z - 256 * p * q + 64 * q ^ 3 - z ^ 4 - 24 * z ^ 3 - 192 * z ^ 2 - 512 * z

/-- The denominator of `denom` (septic.py 410, 453). -/
def hexD (p q z : K) : K := 8 * (2 * p + 2 * q + (z + 8)) * (3 * (p - q) ^ 2 + (z + 8 - p - q) ^ 2)

/-- `_compute_mpnq` without `det` (septic.py 407-423). -/
def hexMPNQ (k p q m0 p0 n0 q0 z : K) : K × K × K × K :=
  let w := z + 8
  let g := w ^ 2 - 4 * p * q
  let u := 4 * (2 * p ^ 2 - q * w)
  let v := 4 * (2 * q ^ 2 - p * w)
  let denom := 1 / hexD p q z
  let t1 := 4 * denom * k
  let t2 := (1 - g ^ 2 * denom) * k * 4
  (m0 - (2 * k - t1 * g ^ 2 - t2), p0 - ((p + z + 1) * k - t1 * g * (u - 2 * v) + 2 * t2),
    n0 - (-(z + 2) * k - t1 * (u ^ 2 - u * v + v ^ 2 - g ^ 2) - 3 * t2), q0 - ((q + z + 1) * k - t1 * g * (v - 2 * u) + 2 * t2))

/-- `_verify` (septic.py 425-437).  Division by zero gives `zoo` in SymPy, and the comparison raises `TypeError`. -/
def hexVerify (k p q m0 p0 n0 q0 : K) (check : Bool) (z : K) : Except PyErr Bool :=
  if p = q ∧ z + 8 = p + q then .ok false
  else if check = true ∧ hexDet p q z < 0 then .ok false
  else if hexD p q z = 0 then .error .typeError
  else
    match hexMPNQ k p q m0 p0 n0 q0 z with
    | (m1, p1, n1, q1) =>
      .ok (decide (0 < m1 ∧ 0 ≤ 3 * m1 * (m1 + n1) - (p1 ^ 2 + p1 * q1 + q1 ^ 2)) ||
        decide (m1 = 0 ∧ 0 ≤ p1 ∧ 0 ≤ q1 ∧ (0 ≤ n1 ∨ n1 ^ 2 ≤ 4 * p1 * q1)))

/-- The loop over the rational approximations of `z` (septic.py 442-447). -/
def hexFind (k p q m0 p0 n0 q0 : K) : List K → Except PyErr (Option K)
  | [] => .ok none
  | z :: zs =>
    match hexVerify k p q m0 p0 n0 q0 true z with
    | .error e => .error e
    | .ok true => .ok (some z)
    | .ok false => hexFind k p q m0 p0 n0 q0 zs

/-- The answer built from `z` (septic.py 449-465). -/
def hexAnswer (X : SepticExt K) (f : Septic K) (k p q z : K) : Except PyErr (Option (Cert K)) :=
  match hexMPNQ k p q f.c511 f.c421 f.c331 f.c412 z with
  | (m1, p1, n1, q1) =>
    let w := z + 8
    let g := w ^ 2 - 4 * p * q
    let u := 4 * (2 * p ^ 2 - q * w)
    let v := 4 * (2 * q ^ 2 - p * w)
    let denom := 1 / hexD p q z
    let F : Val3 K := fun a b c => g * (a ^ 2 - b ^ 2) + u * (a * b - a * c) + v * (b * c - a * b)
    (fastQuartic X m1 p1 n1 q1 (f.poly111 / 3)).map fun r => r.map fun S =>
      (S.add (denom * k) (cyc3 fun a b c => c * (a * F b c a + b * F c a b) ^ 2)).add ((1 - g ^ 2 * denom) * k)
        (cyc3 fun a b c => a * (b - c) ^ 2 * (a ^ 2 - 2 * a * b - 2 * a * c + 3 * b * c) ^ 2)

/-- The expression squared in `_sos_struct_septic_hexagon` (septic.py 577). -/
def hexExpr (u v r s z w : K) : Val3 K := fun a b c =>
  u * (a ^ 2 * b - a * b * c) - v * (a ^ 2 * c - a * b * c) + r * (b * c ^ 2 - a * b * c) + s * (b ^ 2 * c - a * b * c) + z * (a * c ^ 2 - a * b * c) +
    w * (a * b ^ 2 - a * b * c)

/-- The same as a polynomial. -/
def hexExprT (u v r s z w : K) : List (List ℕ × K) :=
  [([2, 1, 0], u), ([2, 0, 1], -v), ([0, 1, 2], r), ([0, 2, 1], s), ([1, 0, 2], z), ([1, 2, 0], w), ([1, 1, 1], -u + v - r - s - z - w)]

/-- The loop over the candidates `(w, z)` (septic.py 560-584): the first one with a result decides. -/
def hexLoop (X : SepticExt K) (f : Septic K) (t u v : K) : List (K × K) → Except PyErr (Option (Cert K))
  | [] => .ok none
  | (w, z) :: l =>
    match X.hexOpt f (w, z) with
    | none => hexLoop X f t u v l
    | some (r, s) =>
      let e := hexExprT u v r s z w
      (X.solve (collect (f.terms ++ pneg (scaleT t (cycT (pmul [([1, 0, 0], 1)] (pmul e e))))))).map fun r' => r'.map fun S =>
        S.add t (cyc3 fun a b c => a * hexExpr u v r s z w a b c ^ 2)

/-- The last part of `_sos_struct_septic_hexagon` (septic.py 468-593). -/
def hexRest (X : SepticExt K) (f : Septic K) : Except PyErr (Option (Cert K)) :=
  if X.rational = false then .ok none
  else
    match (if f.c520 = 0 then some (1, 0) else X.sqrtND (f.c502 / f.c520)) with
    | some (v, u) =>
      let t := if f.c520 = 0 then f.c502 else f.c520 / u ^ 2
      if t < 0 then .ok none else hexLoop X f t u v (X.hexWZ f)
    | none =>
      if 0 < f.c502 / f.c520 then tryPert X.solve f.terms pertHexT pertHexV (squarePerturbation X.isqrt f.c502 f.c520)
      else .ok none

/-- `_sos_struct_septic_hexagon` (septic.py 324-593). -/
def septicHexagon (X : SepticExt K) (f : Septic K) : Except PyErr (Option (Cert K)) :=
  if f.c700 ≠ 0 ∨ f.c610 ≠ 0 ∨ f.c601 ≠ 0 then .ok none
  else
    match (if (f.c520 = 0 ∧ f.c430 = 0) ∨ (f.c403 = 0 ∧ f.c502 = 0) then septicBiased X f else .ok none) with
    | .error e => .error e
    | .ok (some C) => .ok (some C)
    | .ok none =>
      if f.c511 < 0 ∧ f.c520 * f.c502 * 4 < f.c511 ^ 2 then .ok none
      else if f.c520 = f.c502 then
        if f.c520 = 0 then septicStar X f
        else
          let k := f.c520
          let p := f.c430 / k
          let q := f.c403 / k
          let z : Except PyErr (Option (Option K)) := match X.hexZ f with
            | .noRoot => .error .valueError
            | .exact z => (hexVerify k p q f.c511 f.c421 f.c331 f.c412 false z).map fun b => if b then some (some z) else some none
            | .float first zs => if first then (hexFind k p q f.c511 f.c421 f.c331 f.c412 zs).map fun r => r.map some else .ok (some none)
          match z with
          | .error e => .error e
          | .ok none => .ok none
          | .ok (some none) => hexRest X f
          | .ok (some (some z)) =>
            match hexAnswer X f k p q z with
            | .error e => .error e
            | .ok (some C) => .ok (some C)
            | .ok none => hexRest X f
      else hexRest X f

/-- `sos_struct_septic` (septic.py 15-27). -/
def septicSolve (X : SepticExt K) (f : Septic K) : Except PyErr (Option (Cert K)) :=
  if f.c700 = 0 ∧ f.c610 = 0 ∧ f.c601 = 0 then
    if f.c520 = 0 ∧ f.c502 = 0 then septicStar X f else septicHexagon X f
  else if f.c610 = f.c601 ∧ f.c520 = f.c502 ∧ f.c430 = f.c403 ∧ f.c421 = f.c412 then X.symm f
  else .ok none

end Verif.Ternary
