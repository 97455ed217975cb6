import Verif.Model.CycVal
import Verif.Model.StructUtils
import Verif.Model.Congruence
import Verif.Model.Coeff
import Mathlib.Algebra.Order.Field.Basic

/-!
# Ternary quartic solvers

Model of `triples/core/structsos/ternary/quartic.py`.  A solution is a list of weights with the values of the attached expressions, and a common
denominator.  `radsimp`, `together` and `as_coeff_Mul` rewrite without changing a value and are the identity here.  Root finders, approximations and
rationalisation only choose candidates, so the candidates are parameters.
-/

namespace Verif.Ternary

open Verif

variable {K : Type*} [Field K] [LinearOrder K]

/-- The value of an expression in `a, b, c`. -/
abbrev Val3 (K : Type*) := K → K → K → K

/-- A solution `(w1*e1 + w2*e2 + ...) / den`, the shape built by `sum_y_exprs` (structsos/utils.py 91-99). -/
structure Cert (K : Type*) where
  terms : List (K × Val3 K)
  den : Val3 K

/-- A solution without denominator. -/
def Cert.plain [One K] (l : List (K × Val3 K)) : Cert K := ⟨l, fun _ _ _ => 1⟩

/-- `solution + w * expr`: the new term is brought to the common denominator. -/
def Cert.add (C : Cert K) (w : K) (e : Val3 K) : Cert K := ⟨(w, fun a b c => e a b c * C.den a b c) :: C.terms, C.den⟩

/-- The coefficients of `a^4, a^3 b, a^2 b^2, a b^3, a^2 b c` of a cyclic quartic. -/
structure Quartic (K : Type*) where
  m : K
  p : K
  n : K
  q : K
  r : K

/-- `m, p, n, q, r = coeff((4,0,0)), ...` (quartic.py 92). -/
def Quartic.ofCoeff (c : Coeff K) : Quartic K := ⟨c.call [4, 0, 0], c.call [3, 1, 0], c.call [2, 2, 0], c.call [1, 3, 0], c.call [2, 1, 1]⟩

/-- `_sos_struct_quartic_degenerate` (quartic.py 237-278). -/
def quarticDegenerate (f : Quartic K) : Option (Cert K) :=
  if f.m = 0 ∧ f.p = 0 ∧ f.q = 0 ∧ 0 ≤ f.n ∧ 0 ≤ f.n + f.r ∧ f.r ≤ 2 * f.n then
    let w1 := (2 * f.n - f.r) / 3
    let w2 := f.n - w1
    some (.plain [(w1 / 2, cyc3 fun a b c => a ^ 2 * (b - c) ^ 2), (w2, fun a b c => cyc3 (fun a b _ => a * b) a b c ^ 2)])
  else if f.m = 0 ∧ 0 ≤ f.p ∧ 0 ≤ f.q ∧ 0 ≤ f.p + f.n + f.q + f.r ∧ (0 ≤ f.n ∨ f.n ^ 2 ≤ 4 * f.p * f.q) then
    let rem : K × Val3 K := (f.p + f.n + f.q + f.r, cyc3 fun a b c => a ^ 2 * b * c)
    if 0 ≤ f.n then
      some (.plain [(1, cyc3 fun a b c => a * (b - c) ^ 2 * ((f.n / 2) * a + f.q * b + f.p * c)), rem])
    else
      (quadraticWeighting f.p f.n f.q).map fun l =>
        .plain ((l.map fun w => (w.1, cyc3 fun a b c => b * c * (w.2.1 * (a - b) + w.2.2 * (a - c)) ^ 2)) ++ [rem])
  else none

/-- `_sos_struct_quartic_core` (quartic.py 68-110). -/
def quarticCore (f : Quartic K) : Option (Cert K) :=
  if f.m = 0 then quarticDegenerate f
  else
    let rem := (f.m + f.n + f.p + f.q + f.r) / 3
    let n2 := f.n - rem
    let det := 3 * f.m * (f.m + n2) - (f.p ^ 2 + f.p * f.q + f.q ^ 2)
    if f.m < 0 ∨ det < 0 ∨ rem < 0 then none
    else
      let c1 := (f.p + 2 * f.q) / f.m / 3
      let c2 := (f.p - f.q) / f.m / 3
      let c3 := -(2 * f.p + f.q) / f.m / 3
      some (.plain [(f.m / 2, cyc3 fun a b c => (a ^ 2 - b ^ 2 + c1 * a * c + c2 * a * b + c3 * b * c) ^ 2),
        (det / 6 / f.m, cyc3 fun a b c => a ^ 2 * (b - c) ^ 2), (rem, fun a b c => cyc3 (fun a b _ => a * b) a b c ^ 2)])

/-- `_sos_struct_quartic_quadratic_border` (quartic.py 113-148); `irr` says that `sqrt(t^2 + 4)` is not a SymPy rational. -/
def quarticBorder (irr : K → Bool) (f : Quartic K) : Option (Cert K) :=
  let t := f.q / 2 / f.m
  if f.p = -f.q ∧ f.n = (t ^ 2 - 2) * f.m then
    if irr t = true then
      let y3 := f.r + f.m + f.p + f.n + f.q
      if 0 ≤ y3 then
        some ⟨[(f.m, cyc3 fun a b c => a * (b ^ 2 + c ^ 2 - a ^ 2 - b * c + t * a * b - t * a * c) ^ 2),
          ((t ^ 2 + 3) / 2 * f.m, fun a b c => cyc3 (fun _ b c => (b - c) ^ 2) a b c * cycp3 (fun a _ _ => a) a b c),
          (y3, fun a b c => cyc3 (fun a _ _ => a) a b c ^ 2 * cycp3 (fun a _ _ => a) a b c)], cyc3 fun a _ _ => a⟩
      else none
    else none
  else none

/-- `_sos_struct_quartic_biased` (quartic.py 151-234).  `rational` is `coeff.is_rational`; `u` is the number found by the gcd or by `rationalize_func`, if
any (201-217). -/
def quarticBiased (irr : K → Bool) (rational : Bool) (u : Option K) (f : Quartic K) : Option (Cert K) :=
  let rem := f.m + f.n + f.p + f.q + f.r
  let rest : Option (Cert K) :=
    match u with
    | none => none
    | some u =>
      let p := f.p / f.m
      let q := f.q / f.m
      let sym := ((2 * q + p) * u + 6) * u + 2 * p + q
      let y := sym / (2 * (u ^ 2 * (u ^ 2 + 1) + 1)) * f.m
      if 0 ≤ y then
        (quarticCore ⟨f.m - y * 0, f.p - y * 1, f.n - y * (-2 * u), f.q - y * u ^ 2, f.r - y * (2 * u - u ^ 2 - 1) - rem⟩).map fun C =>
          (C.add rem (cyc3 fun a b c => a ^ 2 * b * c)).add y (cyc3 fun a b c => a * b * (a - u * b + (u - 1) * c) ^ 2)
      else none
  if rational = true ∧ f.p = -f.q then
    match quarticBorder irr f with
    | some C => some C
    | none => rest
  else rest

/-- The loop over the candidates `w` (quartic.py 386-402). -/
def quarticRealLoop (f : Quartic K) (s : K) (eq : K → K) : List K → Option (Cert K)
  | [] => none
  | w :: ws =>
    if ¬ (0 < eq w * (w - 1)) ∧ 0 ≤ 9 * (1 - w) ^ 2 - s then
      let z := s / (1 - w) ^ 2 / 9 * f.m
      match quarticCore ⟨f.m - z * 1, f.p - z * (-2 * w), f.n - z * (w ^ 2 + 2), f.q - z * (-2 * w), f.r - z * (2 * w * (w - 1))⟩ with
      | some C => some (C.add z fun a b c => cyc3 (fun a b _ => a ^ 2 - w * a * b) a b c ^ 2)
      | none => quarticRealLoop f s eq ws
    else quarticRealLoop f s eq ws

/-- `_sos_struct_quartic_uncentered_real` (quartic.py 281-406); `approx` rounds a candidate (`nsimplify`, 382-383).  `sign(x) * sign(y) <= 0` is `x * y <= 0`. -/
def quarticReal (approx : K → K) (f : Quartic K) : Option (Cert K) :=
  if f.m = 0 then
    if f.p = 0 ∧ f.q = 0 ∧ 0 ≤ f.n ∧ 0 ≤ f.n + f.r ∧ f.r ≤ 2 * f.n then quarticDegenerate f else none
  else if f.m < 0 then none
  else
    let p := f.p / f.m
    let n := f.n / f.m
    let q := f.q / f.m
    let r := f.r / f.m
    let s := 3 * (1 + p + n + q + r)
    if s < 0 then none
    else
      let a3 := -27 * n + 9 * p ^ 2 + 9 * p * q + 9 * q ^ 2 + 3 * s - 27
      let a2 := 81 * n - 27 * p ^ 2 - 27 * p * q + 6 * p * s - 27 * q ^ 2 + 6 * q * s - 3 * s + 81
      let a1 := 3 * n * s - 81 * n + 27 * p ^ 2 + 27 * p * q - 6 * p * s + 27 * q ^ 2 - 6 * q * s + s ^ 2 + 12 * s - 81
      let a0 := -3 * n * s + 27 * n - 9 * p ^ 2 - 9 * p * q - 9 * q ^ 2 + s ^ 2 - 12 * s + 27
      if a3 ≤ 0 ∨ s = 0 then quarticCore f
      else
        let denom := 3 * a1 * a3 - a2 ^ 2
        let w1 := -(9 * a0 * a3 - a1 * a2) / 2 / denom
        let w2 := (9 * a0 * a3 ^ 2 - 4 * a1 * a2 * a3 + a2 ^ 3) / a3 / denom
        quarticRealLoop f s (fun w => a3 * w ^ 3 + a2 * w ^ 2 + a1 * w + a0)
          (if denom = 0 then [-a2 / (3 * a3)] else [approx w1, approx w2, w1, w2])

/-- The loop over the tight values `x` (quartic.py 529-554). -/
def quarticTightLoop (approx : K → K) (f : Quartic K) : List K → Option (Cert K)
  | [] => none
  | x :: xs =>
    if x < f.r / f.m then
      match quarticReal approx ⟨f.m, f.p, f.n, f.q, x * f.m⟩ with
      | some C => some (C.add ((f.r / f.m - x) * f.m) (cyc3 fun a b c => a ^ 2 * b * c))
      | none => quarticTightLoop approx f xs
    else quarticTightLoop approx f xs

/-- `_sos_struct_quartic_uncentered` (quartic.py 409-556), which is `sos_struct_quartic` (14-39).  `u` is the number used by the biased case, `xs` the
candidates for the coefficient of `a^2 b c` (460-551).  `None + expr` raises `TypeError`. -/
def quarticSolve (irr : K → Bool) (rational : Bool) (approx : K → K) (u : Option K) (xs : List K) (f : Quartic K) : Except PyErr (Option (Cert K)) :=
  match quarticReal approx f with
  | some C => .ok (some C)
  | none =>
    let rem := f.m + f.p + f.n + f.q + f.r
    if ¬ (0 ≤ f.m ∧ 0 ≤ rem) then .ok none
    else if f.m = 0 then .ok (quarticDegenerate f)
    else if 0 ≤ 3 * f.m * (f.m + f.n) - (f.p ^ 2 + f.p * f.q + f.q ^ 2) then
      match quarticCore ⟨f.m, f.p, f.n, f.q, -(f.m + f.p + f.n + f.q)⟩ with
      | some C => .ok (some (C.add rem (cyc3 fun a b c => a ^ 2 * b * c)))
      | none => .error .typeError
    else if 0 ≤ 2 * f.p + f.q ∨ 0 ≤ 2 * f.q + f.p ∨ (2 * f.p + f.q) * (2 * f.q + f.p) - 9 * f.m ^ 2 ≤ 0 then .ok (quarticBiased irr rational u f)
    else .ok (quarticTightLoop approx f xs)

/-- The coefficients of a quartic symmetric in the first two variables of the chosen order (quartic.py 644). -/
structure SymQuartic (K : Type*) where
  c400 : K
  c310 : K
  c220 : K
  c301 : K
  c211 : K
  c202 : K
  c103 : K
  c112 : K
  c004 : K

/-- `M1` of `_get_quad_forms` (quartic.py 653-660). -/
def symM1 (f : SymQuartic K) (r00 r01 r11 l : K) (i j : ℕ) : K :=
  let rows : List (List K) := [
    [f.c004, f.c103 / 2, f.c112 / 2 + f.c202 - 2 * l, f.c202 / 2 - l / 2 - r11 / 2],
    [f.c103 / 2, l, f.c211 / 2 + f.c301 / 2, f.c301 / 2 - r01],
    [f.c112 / 2 + f.c202 - 2 * l, f.c211 / 2 + f.c301 / 2, f.c220 + 2 * f.c310 + 2 * f.c400, f.c310 / 2 + 2 * f.c400 - 2 * r00],
    [f.c202 / 2 - l / 2 - r11 / 2, f.c301 / 2 - r01, f.c310 / 2 + 2 * f.c400 - 2 * r00, f.c400 - r00]]
  (rows.getD i []).getD j 0

/-- `M2` (quartic.py 661). -/
def symM2 (r00 r01 r11 : K) (i j : ℕ) : K := (([[r00, r01], [r01, r11]] : List (List K)).getD i []).getD j 0

/-- The basis `[c^2, c*a+c*b, a*b, a^2-2*a*b+b^2]` (quartic.py 676). -/
def symV1 (a b c : K) (i : ℕ) : K := [c ^ 2, c * a + c * b, a * b, a ^ 2 - 2 * a * b + b ^ 2].getD i 0

/-- The basis `[a+b, c]` (quartic.py 677). -/
def symV2 (a b c : K) (i : ℕ) : K := [a + b, c].getD i 0

/-- The linear form `U[k, :] * vec`. -/
def rowForm (n : ℕ) (U : ℕ → ℕ → K) (k : ℕ) (v : ℕ → K) : K := ((List.range n).map fun i => U k i * v i).sum

/-- `_get_solution` (quartic.py 664-685).  The final substitution rewrites perfect squares into fourth powers. -/
def symSolution (f : SymQuartic K) (r00 r01 r11 l : K) : Except PyErr (Option (Cert K)) :=
  (congruence 4 (symM1 f r00 r01 r11 l)).bind fun r1 => (congruence 2 (symM2 r00 r01 r11)).map fun r2 =>
    match r1, r2 with
    | some (U1, S1), some (U2, S2) => some (.plain (((List.range 4).map fun k => (S1 k, fun a b c => rowForm 4 U1 k (symV1 a b c) ^ 2)) ++
        (List.range 2).map fun k => (S2 k, fun a b c => (a - b) ^ 2 * rowForm 2 U2 k (symV2 a b c) ^ 2)))
    | _, _ => none

/-- `_sos_struct_acyclic_quartic_symmetric` (quartic.py 574-798) after the order of the symbols is fixed: the first of the candidates
`(r00, r01, r11, l)` found by the searches that gives a solution. -/
def symQuartic (f : SymQuartic K) : List (K × K × K × K) → Except PyErr (Option (Cert K))
  | [] => .ok none
  | x :: xs => (symSolution f x.1 x.2.1 x.2.2.1 x.2.2.2).bind fun r =>
    match r with
    | some C => .ok (some C)
    | none => symQuartic f xs

end Verif.Ternary
