import Verif.Model.SymSOS

/-!
# Model of the symmetric change of variables for four variables

`_symmetric_real_4vars` (triples/core/symsos/symmetric.py 261-356).  Polynomials are lists of terms; the generators are
`p, q, r, s`, then `x, y, z, ker1, ker2`, then `x, y, z, w`.
-/

namespace Verif.SymSOS

open Verif TermsPoly MonoMgr Shared

variable {K : Type*} [Field K] [LinearOrder K]

/-- `f(A, B, ...)` for `Poly` objects in `n` new generators. -/
def compN (n : ℕ) (A : List (Terms K)) (f : Terms K) : Terms K :=
  collect (f.flatMap fun t => pmul (pconst n t.2) (pprod n (List.zipWith (ppow n) A t.1)))

/-- `degree` (symmetric.py 266): the weighted degree of the leading term. -/
def fourDegree (f : Terms K) : ℕ :=
  match f with
  | [] => 0
  | t :: _ => t.1.getD 0 0 + 2 * t.1.getD 1 0 + 3 * t.1.getD 2 0 + 4 * t.1.getD 3 0

/-- The arguments of `poly_pqr` in `poly_shifted` (symmetric.py 267). -/
def shiftArgs : List (Terms K) :=
  [[([1, 0, 0, 0], 1)], [([2, 0, 0, 0], 3 / 8), ([0, 1, 0, 0], 1)],
    [([3, 0, 0, 0], 1 / 16), ([1, 1, 0, 0], 1 / 2), ([0, 0, 1, 0], 1)],
    [([4, 0, 0, 0], 1 / 256), ([2, 1, 0, 0], 1 / 16), ([1, 0, 1, 0], 1 / 4), ([0, 0, 0, 1], 1)]]

/-- `poly_shifted` (symmetric.py 267). -/
def shifted (f : Terms K) : Terms K := compN 4 shiftArgs f

/-- `poly_shifted(r*q**2*p, q, r, q**2*s)` (symmetric.py 270): the arguments are monomials, so only the exponents change. -/
def dehom (f : Terms K) : Terms K :=
  f.map fun t => ([t.1.getD 0 0, 2 * t.1.getD 0 0 + t.1.getD 1 0 + 2 * t.1.getD 3 0, t.1.getD 0 0 + t.1.getD 2 0, t.1.getD 3 0], t.2)

/-- `q^3 -> q, r^2 -> r` (symmetric.py 274).  The dictionary has no repeated keys (`foldExp_keys`). -/
def foldExp (f : Terms K) : Terms K :=
  f.map fun t => ([t.1.getD 0 0, t.1.getD 1 0 / 3, t.1.getD 2 0 / 2, t.1.getD 3 0], t.2)

/-- The arguments of the homogenised polynomial (symmetric.py 289-297) in `x, y, z, ker1, ker2`, multiplied out. -/
def numArgs : List (Terms K) :=
  [[([1, 0, 0, 2, 0], 4096)], [([0, 1, 0, 0, 2], -1)], [([0, 3, 1, 0, 1], 8)],
    [([0, 3, 1, 1, 0], -144), ([0, 1, 1, 2, 0], 16)], [([0, 1, 0, 1, 1], 64)]]

/-- `_min_degree` (symmetric.py 298). -/
def minDegree (i : ℕ) (p : Terms K) : ℕ :=
  match p with
  | [] => 0
  | t :: l => (l.map fun t => t.1.getD i 0).foldl min (t.1.getD i 0)

/-- The division by the common powers (symmetric.py 300-303). -/
def divMins (p : Terms K) : Terms K :=
  p.map fun t => ([t.1.getD 0 0 - minDegree 0 p, t.1.getD 1 0 - minDegree 1 p, t.1.getD 2 0 - minDegree 2 p,
    t.1.getD 3 0 - minDegree 3 p, t.1.getD 4 0 - minDegree 4 p], t.2)

/-- `ker1 = w + (y-z)**2` and `ker2` in `x, y, z, w` (symmetric.py 311), with `x, y, z`. -/
def kerArgs : List (Terms K) :=
  [[([1, 0, 0, 0], 1)], [([0, 1, 0, 0], 1)], [([0, 0, 1, 0], 1)],
    [([0, 0, 0, 1], 1), ([0, 2, 0, 0], 1), ([0, 1, 1, 0], -2), ([0, 0, 2, 0], 1)],
    [([0, 1, 0, 1], 8), ([0, 0, 1, 1], 1), ([0, 3, 0, 0], 8), ([0, 2, 1, 0], 12), ([0, 1, 2, 0], 6), ([0, 0, 3, 0], 1)]]

/-- The denominator (symmetric.py 313-352): a number and the exponents of `S[a]*S[(a-b)**2]`, `x`, `y`, `z`, `w`, `ker1`, of the
discriminant (with the opposite sign) and of `-q2_`. -/
structure Den4 (K : Type*) where
  c : K
  rd : ℤ
  xd : ℤ
  yd : ℤ
  zd : ℤ
  wd : ℤ
  kd : ℤ
  dd : ℤ
  qd : ℤ

/-- `_symmetric_real_4vars` with `return_poly` (symmetric.py 261-356).  `content` is the first component of `primitive()`; for the
zero polynomial it is zero and `1/inv_denominator` is `zoo`: no answer here. -/
def transFour (dm : Terms K → Terms K × Terms K) (vanish : Terms K → Bool) (content : Terms K → K) (n : ℕ) (f : Terms K) :
    Option (Terms K × Den4 K) :=
  let d := fourDegree f
  let fo := foldExp (dehom (shifted f))
  let h := totalDegree 4 fo
  let num := compN 5 numArgs (homogenizeNew 4 fo)
  let m (i : ℕ) : ℤ := minDegree i num
  let num4 := compN 4 kerArgs (divMins num)
  let u := if content num4 < 0 then -content num4 else content num4
  if num4 = [] then none
  else
    (extractFactor dm vanish n (pmul (pconst 4 u⁻¹) num4)).map fun e =>
      let qd : ℤ := -((2 * d % 3 : ℕ) : ℤ)
      let rd : ℤ := -((d % 2 : ℕ) : ℤ)
      let k : ℤ := h - m 4
      (if qd % 2 = 1 then pneg e.2 else e.2,
        { c := u⁻¹ * ((192 : K) ^ rd)⁻¹ * (2 : K) ^ (6 * (h : ℤ) - 4 * k), rd := rd, xd := 0 - m 0 - rd, yd := h - m 1 + 2 * k + rd,
          zd := 0 - m 2 + k, wd := k, kd := h - m 3 - (e.1 : ℤ), dd := k, qd := qd })

end Verif.SymSOS
