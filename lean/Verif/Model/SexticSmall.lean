import Verif.Model.SepticSymmetric

/-!
# Two solvers of sparse symmetric sextics, and `rationalize_func`

Model of `_sos_struct_sextic_hexagram_symmetric` and `_sos_struct_sextic_tree` (`triples/core/structsos/ternary/sextic_symmetric.py` 413-649) and of
`rationalize_func` (`triples/core/structsos/utils.py` 102-160).  Conventions as in `TernaryQuartic`: `radsimp`, `together` and `expand` do not change a value.
A quotient by zero is `zoo`, or `nan` for a zero numerator; comparing either raises `TypeError`.
-/

namespace Verif.Ternary

open Verif Verif.Acute

variable {K : Type*} [Field K] [LinearOrder K]

/-- The coefficients of a cyclic polynomial of degree six; `coeff((2,3,1))` is `c312`, `coeff((2,4,0))` is `c402`, `coeff((1,5,0))` is `c501`. -/
structure Sextic (K : Type*) where
  c600 : K
  c510 : K
  c501 : K
  c420 : K
  c411 : K
  c402 : K
  c330 : K
  c321 : K
  c312 : K
  c222 : K

/-- The numbers of a cyclic sextic in the coefficient table. -/
def Sextic.ofCoeff (c : Coeff K) : Sextic K :=
  ⟨c.call [6, 0, 0], c.call [5, 1, 0], c.call [1, 5, 0], c.call [4, 2, 0], c.call [4, 1, 1], c.call [2, 4, 0], c.call [3, 3, 0], c.call [3, 2, 1], c.call [2, 3, 1], c.call [2, 2, 2]⟩

/-- The value of the polynomial. -/
def Sextic.poly (f : Sextic K) : Val3 K := fun a b c =>
  f.c600 * (a ^ 6 + b ^ 6 + c ^ 6) + f.c510 * (a ^ 5 * b + b ^ 5 * c + c ^ 5 * a) + f.c501 * (a ^ 5 * c + b ^ 5 * a + c ^ 5 * b) +
    f.c420 * (a ^ 4 * b ^ 2 + b ^ 4 * c ^ 2 + c ^ 4 * a ^ 2) + f.c411 * (a ^ 4 * b * c + b ^ 4 * c * a + c ^ 4 * a * b) +
    f.c402 * (a ^ 4 * c ^ 2 + b ^ 4 * a ^ 2 + c ^ 4 * b ^ 2) + f.c330 * (a ^ 3 * b ^ 3 + b ^ 3 * c ^ 3 + c ^ 3 * a ^ 3) +
    f.c321 * (a ^ 3 * b ^ 2 * c + b ^ 3 * c ^ 2 * a + c ^ 3 * a ^ 2 * b) + f.c312 * (a ^ 3 * b * c ^ 2 + b ^ 3 * c * a ^ 2 + c ^ 3 * a * b ^ 2) + f.c222 * (a ^ 2 * b ^ 2 * c ^ 2)

/-- The polynomial as a list of terms. -/
def Sextic.terms (f : Sextic K) : List (List ℕ × K) :=
  cycT [([6, 0, 0], f.c600), ([5, 1, 0], f.c510), ([5, 0, 1], f.c501), ([4, 2, 0], f.c420), ([4, 1, 1], f.c411), ([4, 0, 2], f.c402), ([3, 3, 0], f.c330),
    ([3, 2, 1], f.c321), ([3, 1, 2], f.c312)] ++ [([2, 2, 2], f.c222)]

/-- `t.as_numer_denom()` and the approximations of the searches. -/
structure NumDen (K : Type*) where
  /-- `t.as_numer_denom()`. -/
  nd : K → K × K

/-- The last case of `_sos_struct_sextic_hexagram_symmetric` (sextic_symmetric.py 510-552). -/
def hexLast (f : Sextic K) : Option (Cert K) :=
  if f.c330 ≠ 0 then
    let x := f.c411 / f.c330
    let y := -f.c321 / f.c330
    let z := f.c222 / f.c330
    let z0 := x ^ 2 + x * y + y ^ 2 / 3 - y + (y + 3) ^ 3 / (27 * x)
    if 0 < x ∧ 0 ≤ 3 * x + y + 3 ∧ z0 ≤ z then
      let ker := 324 * x * (27 * x ^ 3 + 27 * x ^ 2 * y + 81 * x ^ 2 + 9 * x * y ^ 2 - 189 * x * y + 81 * x + y ^ 3 + 9 * y ^ 2 + 27 * y + 27)
      if 0 < ker then
        let w1 := -(9 * x ^ 2 + 6 * x * y - 306 * x + y ^ 2 + 6 * y + 9) / ker
        if 0 < w1 then
          let w2 := 1 / ker
          let phi2 := 36 * x ^ 2 + 15 * x * y - 117 * x + y ^ 2 + 6 * y + 9
          let phi1 := 9 * x ^ 2 + 6 * x * y - 117 * x + y ^ 2 + 15 * y + 36
          let mult : Val3 K := fun a b c => sumA a b c * cyc3 (fun a b _ => a * b) a b c
          some ⟨[
            (w1 * f.c330, cyc3 fun a b c => c * ((-9 * x ^ 2 - 3 * x * y + 18 * x) * a ^ 3 * b + (-9 * x ^ 2 + 9 * x + y ^ 2 - 9) * a ^ 2 * b ^ 2 +
              (9 * x ^ 2 + 3 * x * y - 3 * y - 9) * a ^ 2 * b * c + (-18 * x + 3 * y + 9) * a ^ 2 * c ^ 2 + (-9 * x ^ 2 - 3 * x * y + 18 * x) * a * b ^ 3 +
              (9 * x ^ 2 + 3 * x * y - 3 * y - 9) * a * b ^ 2 * c + (9 * x ^ 2 - 9 * x - y ^ 2 + 9) * a * b * c ^ 2 + (-18 * x + 3 * y + 9) * b ^ 2 * c ^ 2) ^ 2),
            (w2 * f.c330, cyc3 fun a b c => c * (-3 * phi1 * x * a ^ 3 * b + (-3 * phi1 * x + phi1 * y + 3 * phi1 - 3 * phi2) * a ^ 2 * b ^ 2 +
              (-3 * phi1 * x + phi1 * y + 3 * phi1 + 3 * phi2 * x + phi2 * y - 3 * phi2) * a ^ 2 * b * c + -3 * phi2 * a ^ 2 * c ^ 2 + -3 * phi1 * x * a * b ^ 3 +
              (-3 * phi1 * x + phi1 * y + 3 * phi1 + 3 * phi2 * x + phi2 * y - 3 * phi2) * a * b ^ 2 * c + (-3 * phi1 * x + 3 * phi2 * x + phi2 * y - 3 * phi2) * a * b * c ^ 2 +
              -3 * phi2 * b ^ 2 * c ^ 2) ^ 2),
            ((z - z0) * f.c330, fun a b c => mult a b c * cycp3 (fun a _ _ => a ^ 2) a b c)], mult⟩
        else none
      else none
    else none
  else none

/-- The second case of `_sos_struct_sextic_hexagram_symmetric` (sextic_symmetric.py 465-506), and what follows.  For `x + y + 1 = 0` the number `u` (474) is `zoo`, the
weights of `u` are zero and the last weight is negative, since the first case did not apply; if also `y + 1 = 0`, it is `nan` and the comparison (495) raises. -/
def hexMid (N : NumDen K) (f : Sextic K) : Except PyErr (Option (Cert K)) :=
  if f.c411 ≠ 0 then
    let x := f.c330 / f.c411
    let y := f.c321 / f.c411
    if (1 + x + y) ^ 2 ≤ x then
      if x + y + 1 = 0 then if y + 1 = 0 then .error .typeError else .ok (hexLast f)
      else
        let u := (y + 1) / (x + y + 1)
        let w2 := x / (u - 1) ^ 2
        let w1 := 1 - w2
        let r := (N.nd u).2
        let w3 := ((f.c330 + f.c411 + f.c321 * 2) + f.c222 / 3) / f.c411 * 3
        if 0 ≤ w1 / 2 ∧ 0 ≤ w1 ∧ 0 ≤ w2 / r ^ 2 / 2 ∧ 0 ≤ w2 / r ^ 2 ∧ 0 ≤ w3 then
          .ok (some ⟨[
            (w1 / 2 * f.c411, fun a b c => cyc3 (fun a b c => (b - c) ^ 2 * (b + c - a) ^ 2) a b c * prodA a b c),
            (w1 * f.c411, fun a b c => cyc3 (fun _ b c => b * c * (b - c) ^ 2) a b c * prodA a b c),
            (w2 / r ^ 2 / 2 * f.c411, fun a b c => cyc3 (fun a b c => (b - c) ^ 2 * (r * b + r * c - r * u * a) ^ 2) a b c * prodA a b c),
            (w2 / r ^ 2 * f.c411, cyc3 fun a b c => a * (b - c) ^ 2 * (r * (1 - u) * a * b + r * (1 - u) * a * c + r * u * b * c) ^ 2),
            (w3 * f.c411, fun a b c => sumA a b c * cycp3 (fun a _ _ => a ^ 2) a b c)], sumA⟩)
        else .ok (hexLast f)
    else .ok (hexLast f)
  else .ok (hexLast f)

/-- `_sos_struct_sextic_hexagram_symmetric` (sextic_symmetric.py 413-552).  It reads `c330`, `c411`, `c321`, `c222`. -/
def hexSym (N : NumDen K) (f : Sextic K) : Except PyErr (Option (Cert K)) :=
  if f.c330 < 0 ∨ f.c411 < 0 then .ok none
  else
    let x := min f.c330 f.c411
    let y3 := f.c321 + x + f.c330 + f.c411
    let y4 := (f.c330 + f.c411 + f.c321 * 2) * 3 + f.c222
    if 0 ≤ x ∧ 0 ≤ f.c330 - x ∧ 0 ≤ f.c411 - x ∧ 0 ≤ y3 ∧ 0 ≤ y4 then
      match schurinv 6, schur 3 with
      | some I, some S =>
        .ok (some ((((I.smul (f.c330 - x)).plus ((times prodA S).smul (f.c411 - x))).add x (cyc3 fun a b c => a * b * (a - c) ^ 2 * (b - c) ^ 2)).add y3
          (fun a b c => cyc3 (fun a b c => a * (b - c) ^ 2) a b c * prodA a b c) |>.add y4 (cycp3 fun a _ _ => a ^ 2)))
      | _, _ => .error .typeError
    else hexMid N f

/-- `_sos_struct_sextic_tree._solve_point` (sextic_symmetric.py 599-604). -/
def treePoint (N : NumDen K) (t : K) : Except PyErr (Cert K) :=
  if t = 2 ∨ t = -1 then .ok (.plain [(1 / 2, fun a b c => sumA a b c ^ 2 * cyc3 (fun _ b c => (b - c) ^ 4) a b c)])
  else
    let q := (N.nd t).1
    let p := (N.nd t).2
    match quadratic p q with
    | none => .error .typeError
    | some Q => .ok ((times (cyc3 fun a b c => (a - b) ^ 2 * (p * a + p * b - q * c) ^ 2) Q).smul (1 / (2 * p ^ 3)))

/-- `_sos_struct_sextic_tree._solve_regular` (sextic_symmetric.py 606-617). -/
def treeRegular (N : NumDen K) (f : Sextic K) (u v rem t : K) : Except PyErr (Option (Cert K)) :=
  let s1 := u - (t ^ 3 - 3 * t)
  let s2 := v + 3 * t * (t - 1)
  if -1 ≤ t ∧ 0 ≤ s1 ∧ 0 ≤ s2 then
    (treePoint N t).map fun C => some (((C.smul f.c600).add (f.c600 * s1 / 2) fun a b c => cyc3 (fun a b _ => a * b) a b c * cyc3 (fun a b c => a ^ 2 * (b - c) ^ 2) a b c).add
      (f.c600 * s2 / 2) (fun a b c => sumA a b c * cyc3 (fun a b _ => (a - b) ^ 2) a b c * prodA a b c) |>.add rem (cycp3 fun a _ _ => a ^ 2))
  else .ok none

/-- The loop over the candidates (sextic_symmetric.py 644-647). -/
def treeLoop (N : NumDen K) (f : Sextic K) (u v rem : K) : List K → Except PyErr (Option (Cert K))
  | [] => .ok none
  | t :: ts =>
    match treeRegular N f u v rem t with
    | .error e => .error e
    | .ok (some C) => .ok (some C)
    | .ok none => treeLoop N f u v rem ts

/-- `_sos_struct_sextic_tree` (sextic_symmetric.py 555-649).  It reads `c600`, `c330`, `c411`, `c222`.  For `u + v + 4 = 0` the weight (629) is `zoo` or `nan` and the
comparison (632) raises; for `c600 = 0` and a negative coefficient the quotient (593) is not a number and the comparison (594) raises. -/
def sexticTree (N : NumDen K) (f : Sextic K) : Except PyErr (Option (Cert K)) :=
  let rem := f.c222 + (f.c600 + f.c411 + f.c330) * 3
  if rem < 0 ∨ f.c600 < 0 then .ok none
  else if f.c600 = 0 ∧ 0 ≤ f.c330 ∧ 0 ≤ f.c411 then
    .ok (some (.plain [
      (f.c330 / 2, fun a b c => cyc3 (fun a b _ => a * b) a b c * cyc3 (fun a b c => a ^ 2 * (b - c) ^ 2) a b c),
      (f.c411 / 2, fun a b c => prodA a b c * cyc3 (fun a b _ => (a - b) ^ 2) a b c * sumA a b c),
      (rem, cycp3 fun a _ _ => a ^ 2)]))
  else if f.c600 = 0 then .error .typeError
  else
    let u := f.c330 / f.c600
    let v := f.c411 / f.c600
    if u < -2 then .ok none
    else if v ≠ -6 ∧ u ≠ 2 then
      let t := -(3 * u + v) / (v + 6)
      let cands := if t ≤ 2 then [2, 1, 1 - t] else [2, 1]
      if -1 ≤ t then
        if u + v + 4 = 0 then .error .typeError
        else
          let w1 := (27 * u ^ 2 + 27 * u * v + 54 * u + v ^ 3 + 18 * v ^ 2 + 54 * v) / (27 * (u - 2) * (u + v + 4))
          let w2 := 1 - w1
          if 0 ≤ w1 ∧ w1 ≤ 1 then
            match treePoint N 2, treePoint N t with
            | .ok C, .ok D => .ok (some (((C.smul (f.c600 * w1)).plus (D.smul (f.c600 * w2))).add rem (cycp3 fun a _ _ => a ^ 2)))
            | .error e, _ => .error e
            | _, .error e => .error e
          else treeLoop N f u v rem cands
      else treeLoop N f u v rem cands
    else treeLoop N f u v rem [2, 1]

/-! ### `rationalize_func` -/

/-- A root found by `nroots` (utils.py 134): a rational number, or an approximation with the outcome of `validation_initial` and the numbers that
`rationalize_bound` yields. -/
inductive Cand (K : Type*)
  | exact (t : K)
  | approx (initial : Bool) (ts : List K)

/-- The inner loop of `rationalize_func` (utils.py 158-160). -/
def rfBound (poly : K → K) (direction : K) (validation : K → Except PyErr Bool) : List K → Except PyErr (Option K)
  | [] => .ok none
  | t :: ts =>
    if 0 ≤ poly t * direction then
      match validation t with
      | .error e => .error e
      | .ok true => .ok (some t)
      | .ok false => rfBound poly direction validation ts
    else rfBound poly direction validation ts

/-- `rationalize_func` (utils.py 102-160) for a polynomial, with the roots and approximations as a parameter. -/
def rationalizeFunc (poly : K → K) (direction : K) (validation : K → Except PyErr Bool) : List (Cand K) → Except PyErr (Option K)
  | [] => .ok none
  | .exact t :: cs =>
    match validation t with
    | .error e => .error e
    | .ok true => .ok (some t)
    | .ok false => rationalizeFunc poly direction validation cs
  | .approx initial ts :: cs =>
    if initial then
      match rfBound poly direction validation ts with
      | .error e => .error e
      | .ok (some t) => .ok (some t)
      | .ok none => rationalizeFunc poly direction validation cs
    else rationalizeFunc poly direction validation cs

end Verif.Ternary
