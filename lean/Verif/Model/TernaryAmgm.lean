import Verif.Model.TernaryCubic
import Verif.Model.Congruence
import Mathlib.Algebra.Order.Field.Basic
import Mathlib.Algebra.Order.Ring.Rat

/-!
# The AM-GM solver for sparse ternary polynomials

Model of `CoeffMonom`, `AMGM3` and `_sos_struct_sparse_amgm` (triples/core/structsos/ternary/sparse.py 57-414).  An expression is its value as a function of
`a, b, c`; the exponents are integers, so values are meant at points with nonzero coordinates.
-/

namespace Verif.Ternary

open Verif

/-! ### CoeffMonom -/

/-- A `CoeffMonom` (sparse.py 57-61). -/
structure Mon where
  x : ℤ
  y : ℤ
  z : ℤ
deriving DecidableEq

namespace Mon

/-- `degree` (sparse.py 66-67). -/
def degree (m : Mon) : ℤ := m.x + m.y + m.z
/-- `norm` (sparse.py 68-69). -/
def norm (m : Mon) : ℕ := m.x.natAbs + m.y.natAbs + m.z.natAbs
/-- `__sub__` (sparse.py 76-77). -/
def sub (m n : Mon) : Mon := ⟨m.x - n.x, m.y - n.y, m.z - n.z⟩
/-- `__floordiv__` by a number (sparse.py 84-86). -/
def fdiv (m : Mon) (k : ℤ) : Mon := ⟨m.x.fdiv k, m.y.fdiv k, m.z.fdiv k⟩
/-- `dot` (sparse.py 98-99). -/
def dot (m n : Mon) : ℤ := m.x * n.x + m.y * n.y + m.z * n.z
/-- `next` (sparse.py 114-116). -/
def next (m : Mon) : Mon := ⟨m.y, m.z, m.x⟩
/-- `cycle` (sparse.py 111-113). -/
def cycle (m : Mon) : List Mon := [m, m.next, m.next.next]
/-- The order of tuples. -/
def ge (m n : Mon) : Bool := decide (n.x < m.x ∨ (n.x = m.x ∧ (n.y < m.y ∨ (n.y = m.y ∧ n.z ≤ m.z))))
/-- `std` (sparse.py 95-97). -/
def std (m : Mon) : Mon :=
  let n := if m.ge m.next then m else m.next
  if n.ge m.next.next then n else m.next.next
/-- `is_center` (sparse.py 117-119). -/
def isCenter (m : Mon) : Bool := decide (m.x = m.y ∧ m.y = m.z)
/-- `is_collinear` (sparse.py 120-123). -/
def collinear (p1 p2 p3 : Mon) : Bool := decide (p1.x * (p2.y - p3.y) + p2.x * (p3.y - p1.y) + p3.x * (p1.y - p2.y) = 0)
/-- `integer_intersection` (sparse.py 124-132). -/
def intersection (p1 p2 p3 p4 : Mon) : Option Mon :=
  let det := p1.x * p3.y - p1.x * p4.y - p1.y * p3.x + p1.y * p4.x - p2.x * p3.y + p2.x * p4.y + p2.y * p3.x - p2.y * p4.x
  let p50 := p1.x * p2.y * p3.x - p1.x * p2.y * p4.x - p1.x * p3.x * p4.y + p1.x * p3.y * p4.x - p1.y * p2.x * p3.x + p1.y * p2.x * p4.x + p2.x * p3.x * p4.y - p2.x * p3.y * p4.x
  let p51 := p1.x * p2.y * p3.y - p1.x * p2.y * p4.y - p1.y * p2.x * p3.y + p1.y * p2.x * p4.y - p1.y * p3.x * p4.y + p1.y * p3.y * p4.x + p2.y * p3.x * p4.y - p2.y * p3.y * p4.x
  if det = 0 ∨ p50.fmod det ≠ 0 ∨ p51.fmod det ≠ 0 then none
  else some ⟨p50.fdiv det, p51.fdiv det, p1.degree - p50.fdiv det - p51.fdiv det⟩
/-- The values of `weight` (sparse.py 140-149).  `assert_equal_degree` is called with one argument only and so never fails; a vanishing determinant gives `0`
here and `zoo` or `nan` in SymPy. -/
def weights (self p : Mon) : List ℚ :=
  let u := self.x; let v := self.y; let w := self.z
  if self.isCenter && p.isCenter then [1]
  else
    let det : ℚ := ((3 * u * v * w - (u ^ 3 + v ^ 3 + w ^ 3) : ℤ) : ℚ)
    [((p.x * (v * w - u ^ 2) + p.y * (w * u - v ^ 2) + p.z * (u * v - w ^ 2) : ℤ) : ℚ) / det,
     ((p.x * (w * u - v ^ 2) + p.y * (u * v - w ^ 2) + p.z * (v * w - u ^ 2) : ℤ) : ℚ) / det,
     ((p.x * (u * v - w ^ 2) + p.y * (v * w - u ^ 2) + p.z * (w * u - v ^ 2) : ℤ) : ℚ) / det]
/-- `__rshift__` (sparse.py 158-162). -/
def incl (self other : Mon) : Bool := if self.isCenter then other.isCenter else (self.weights other).all fun q => decide (0 ≤ q)
/-- `is_circumscribing` (sparse.py 150-157). -/
def circumscribing (self other : Mon) : Except PyErr (Option Mon) :=
  if other.degree ≠ self.degree then .error .valueError else .ok (other.cycle.find? fun p => collinear self p self.next)

end Mon

variable {K : Type*} [Field K] [LinearOrder K]

/-- `as_monom` (sparse.py 109-110). -/
def monZ (m : Mon) : Val3 K := fun a b c => a ^ m.x * b ^ m.y * c ^ m.z

/-! ### Division of polynomials in one variable (SymPy's `divmod` by a monic polynomial, on lists of coefficients from the top) -/

/-- `rest - c * g`, aligned at the top. -/
def subLead (c : K) : List K → List K → List K
  | r, [] => r
  | [], _ => []
  | x :: xs, g :: gs => (x - c * g) :: subLead c xs gs

/-- The division loop; `gt` are the coefficients of the divisor after the leading one. -/
def divDesc (gt : List K) : ℕ → List K → List K × List K
  | 0, f => ([], f)
  | _ + 1, [] => ([], [])
  | n + 1, c :: rest => (c :: (divDesc gt n (subLead c rest gt)).1, (divDesc gt n (subLead c rest gt)).2)

/-- The value of a polynomial given by its coefficients from the top. -/
def evD : List K → K → K
  | [], _ => 0
  | c :: l, x => c * x ^ l.length + evD l x

/-- The coefficients from degree `n` down. -/
def descList (n : ℕ) (f : ℕ → K) : List K := (List.range (n + 1)).reverse.map f

/-- `f1` (sparse.py 232). -/
def amgmF1 (d1 d2 k : ℕ) : K := (if k = d1 + d2 then (d1 : K) else 0) + (if k = d1 then -((d1 : K) + d2) else 0) + (if k = 0 then (d2 : K) else 0)

/-- `f2` (sparse.py 242). -/
def amgmF2 (d1 d2 k : ℕ) : K :=
  amgmF1 d1 d2 k - ((if k = d1 + 1 then ((d1 : K) + d2) / 2 else 0) + (if k = d1 then -((d1 : K) + d2) else 0) + (if k = d1 - 1 then ((d1 : K) + d2) / 2 else 0))

/-- `f1sol` as a function of `x` (sparse.py 235-245); `none` if the remainder is not zero. -/
def amgmKernel (d1 d2 : ℕ) : Option (K → K) :=
  if (d1 + d2) % 2 = 1 then
    let dm := divDesc [-2, 1] (d1 + d2 + 1 - 2) (descList (d1 + d2) (amgmF1 (K := K) d1 d2))
    if dm.2.all (fun r => decide (r = 0)) then some fun x => evD dm.1 x * (x - 1) ^ 2 else none
  else
    let dm := divDesc [0, -2, 0, 1] (d1 + d2 + 1 - 4) (descList (d1 + d2) (amgmF2 (K := K) d1 d2))
    if dm.2.all (fun r => decide (r = 0)) then
      some fun x => evD dm.1 x * (x ^ 2 - 1) ^ 2 + ((d1 : K) + d2) / 2 * (x - 1) ^ 2 * x ^ (d1 - 1)
    else none

/-! ### AMGM3 -/

/-- `local_ineq` (sparse.py 207-249). -/
def localIneq (m1 p m2 : Mon) : Option (Val3 K × ℕ × ℕ) :=
  let v1 := p.sub m1
  let v2 := m2.sub p
  if 0 < v1.dot v2 then
    let g := Nat.gcd v1.norm v2.norm
    let d1 := v1.norm / g
    let d2 := v2.norm / g
    (amgmKernel (K := K) d1 d2).map fun f => (cyc3 fun a b c => monZ m1 a b c * f (monZ (v2.fdiv d2) a b c), d2, d1)
  else none

/-- `_solve_circumscribing` (sparse.py 251-266). -/
def solveCirc (m1 m2 : Mon) : Except PyErr (Option (Val3 K)) :=
  (m1.circumscribing m2).bind fun p =>
    match p.bind fun p => localIneq (K := K) m1 p m1.next with
    | some s => .ok (some fun a b c => s.1 a b c / ((s.2.1 : K) + s.2.2))
    | none =>
      (m2.circumscribing m1).bind fun p =>
        match p.bind fun p => localIneq (K := K) p m2 m2.next with
        | some s => .ok (some fun a b c => s.1 a b c / s.2.1)
        | none =>
          match p.bind fun p => localIneq (K := K) p m2.next m2 with
          | some s => .ok (some fun a b c => s.1 a b c / s.2.1)
          | none => .ok none

/-- `sol1 = (0, 1, 1)` or `local_ineq(m1, v, v2)`, as `sol1[0]/sol1[1]` (sparse.py 286-290, 312-316). -/
def centerFirst (m1 v v2 : Mon) : Option (Val3 K) :=
  if m1 = v then some fun _ _ _ => 0 else (localIneq (K := K) m1 v v2).map fun s => fun a b c => s.1 a b c / s.2.1

/-- `_solve_center` (sparse.py 268-321). -/
def solveCenter (m1 m2 : Mon) : Option (Val3 K) :=
  if m2.isCenter = false then none
  else
    let d := m2.x
    let m1 := m1.std
    if m1.y < d ∧ m1.z < d then
      let r := if m1.y ≤ m1.z then m1.z else m1.y
      let v : Mon := ⟨3 * d - 2 * r, r, r⟩
      let v2 : Mon := if m1.y ≤ m1.z then ⟨r, 3 * d - 2 * r, r⟩ else ⟨r, r, 3 * d - 2 * r⟩
      (centerFirst (K := K) m1 v v2).map fun s => fun a b c =>
        s a b c + cycp3 (fun a _ _ => a ^ r) a b c * cyc3 (fun a _ _ => a ^ (d - r)) a b c * cyc3 (fun a b _ => (a ^ (d - r) - b ^ (d - r)) ^ 2) a b c / 2
    else if m1.y = d then
      let r := m1.z
      let s := d - r
      some fun a b c => cycp3 (fun a _ _ => a ^ r) a b c * cyc3 (fun a b c => a ^ s * (a ^ s + 2 * c ^ s) * (b ^ s - c ^ s) ^ 2) a b c / (2 * cyc3 (fun a _ _ => a ^ s) a b c)
    else if m1.z = d then
      let r := m1.y
      let s := d - r
      some fun a b c => cycp3 (fun a _ _ => a ^ r) a b c * cyc3 (fun a b c => a ^ s * (a ^ s + 2 * b ^ s) * (b ^ s - c ^ s) ^ 2) a b c / (2 * cyc3 (fun a _ _ => a ^ s) a b c)
    else
      let r := if d < m1.y then m1.y else m1.z
      let v : Mon := ⟨r, r, 3 * d - 2 * r⟩
      let v2 : Mon := if d < m1.y then ⟨3 * d - 2 * r, r, r⟩ else ⟨r, 3 * d - 2 * r, r⟩
      let s := r - d
      (centerFirst (K := K) m1 v v2).map fun e => fun a b c =>
        e a b c + cycp3 (fun a _ _ => a ^ (3 * d - 2 * r)) a b c * cyc3 (fun a b _ => a ^ s * b ^ s) a b c * cyc3 (fun a b c => a ^ (2 * s) * (b ^ s - c ^ s) ^ 2) a b c / 2

/-- A loop whose body may return. -/
def firstReturn {α β : Type*} (step : α → Except PyErr (Option β)) : List α → Except PyErr (Option β)
  | [] => .ok none
  | x :: xs => (step x).bind fun r =>
    match r with
    | none => firstReturn step xs
    | some v => .ok (some v)

/-- The body of the first loop (sparse.py 328-335). -/
def spiralA (m1 p1 : Mon) : Except PyErr (Option (Option (Val3 K))) :=
  match Mon.intersection m1 p1 m1.next m1.next.next with
  | none => .ok none
  | some p =>
    if 0 < (m1.sub p1).dot (p1.sub p) then
      (solveCirc (K := K) m1 p).bind fun s2 =>
        match localIneq (K := K) m1 p1 p, s2 with
        | some s1, some e => .ok (some (some fun a b c => s1.1 a b c / ((s1.2.1 : K) + s1.2.2) + e a b c * s1.2.2 / ((s1.2.1 : K) + s1.2.2)))
        | _, _ => .ok none
    else .ok none

/-- The body of the second loop (sparse.py 338-362); `merge_cyc_sums` has the value of the sum.  `sol1[0]` raises `TypeError` if `sol1` is `None`. -/
def spiralB (m1 : Mon) (pp : Mon × Mon) : Except PyErr (Option (Option (Val3 K))) :=
  match Mon.intersection m1 pp.1 m1.next pp.2 with
  | none => .ok none
  | some p =>
    if 0 < (m1.sub pp.1).dot (pp.1.sub p) then
      if p.isCenter then
        match solveCenter (K := K) m1 p with
        | none => .ok (some none)
        | some e =>
          match localIneq (K := K) m1 pp.1 p with
          | some s1 => .ok (some (some fun a b c => s1.1 a b c / ((s1.2.1 : K) + s1.2.2) + e a b c * s1.2.2 / ((s1.2.1 : K) + s1.2.2)))
          | none => .error .typeError
      else
        (solveCirc (K := K) m1 p).bind fun s2 =>
          match localIneq (K := K) m1 pp.1 p, s2 with
          | some s1, some e => .ok (some (some fun a b c => (s1.1 a b c + e a b c * s1.2.2) / ((s1.2.1 : K) + s1.2.2)))
          | _, _ => .ok none
    else
      (solveCirc (K := K) m1 p).bind fun s1 =>
      (solveCirc (K := K) p pp.1).bind fun s2 =>
        match s1, s2 with
        | some e1, some e2 => .ok (some (some fun a b c => e1 a b c + e2 a b c))
        | _, _ => .ok none

/-- The body of the third loop (sparse.py 364-373). -/
def spiralC (m1 : Mon) (pp : Mon × Mon) : Except PyErr (Option (Option (Val3 K))) :=
  match Mon.intersection m1 m1.next pp.1 pp.2 with
  | none => .ok none
  | some p =>
    if 0 < (m1.sub p).dot (p.sub m1.next) then
      (solveCirc (K := K) p pp.1).bind fun s2 =>
        match localIneq (K := K) m1 p m1.next, s2 with
        | some s1, some e => .ok (some (some fun a b c => s1.1 a b c / ((s1.2.1 : K) + s1.2.2) + e a b c))
        | _, _ => .ok none
    else .ok none

/-- `_solve_spiral1` (sparse.py 323-373). -/
def solveSpiral1 (m1 m2 : Mon) : Except PyErr (Option (Val3 K)) :=
  let n := m2.next
  let o := n.next
  (firstReturn (spiralA (K := K) m1) m2.cycle).bind fun r =>
    match r with
    | some v => .ok v
    | none =>
      (firstReturn (spiralB (K := K) m1) [(m2, n), (m2, o), (n, m2), (n, o), (o, m2), (o, n)]).bind fun r =>
        match r with
        | some v => .ok v
        | none =>
          (firstReturn (spiralC (K := K) m1) [(m2, n), (m2, o), (n, o)]).bind fun r =>
            match r with
            | some v => .ok v
            | none => .ok none

/-- The intermediate monomial of `_solve_spiral2` (sparse.py 377-382). -/
def spiralMid (m1 m2 : Mon) : Mon :=
  let m1 := m1.std
  let d := min m2.x (min m2.y m2.z)
  if m1.z < m1.y then ⟨m1.x + m1.z - d, m1.y, d⟩ else ⟨m1.x + m1.y - d, d, m1.z⟩

/-- `_solve` (sparse.py 190-198) together with `_solve_spiral2` (sparse.py 375-387); `fuel` bounds the depth of the recursion, whose end is an error. -/
def amgmSolve : ℕ → Mon → Mon → Except PyErr (Option (Val3 K))
  | 0, _, _ => .error (.custom "RecursionError")
  | fuel + 1, m1, m2 =>
    match solveCenter (K := K) m1 m2 with
    | some e => .ok (some e)
    | none =>
      (solveCirc (K := K) m1 m2).bind fun r =>
        match r with
        | some e => .ok (some e)
        | none =>
          (solveSpiral1 (K := K) m1 m2).bind fun r =>
            match r with
            | some e => .ok (some e)
            | none =>
              let v := spiralMid m1 m2
              if 0 ≤ v.x ∧ v ≠ m2 ∧ m1.std.incl v = true ∧ v.incl m2 = true then
                (amgmSolve fuel m1.std v).bind fun s1 =>
                (amgmSolve fuel v m2).bind fun s2 =>
                  match s1, s2 with
                  | some e1, some e2 => .ok (some fun a b c => e1 a b c + e2 a b c)
                  | _, _ => .ok none
              else .ok none

/-- `AMGM3.solve` (sparse.py 172-188). -/
def amgm3 (fuel : ℕ) (c1 : K) (m1 : Mon) (c2 : K) (m2 : Mon) : Except PyErr (Option (Val3 K)) :=
  if 0 ≤ c1 ∧ 0 ≤ c2 then .ok (some fun a b c => c1 * cyc3 (monZ m1) a b c + c2 * cyc3 (monZ m2) a b c)
  else if c1 < 0 ∧ c2 < 0 then .ok none
  else if 0 ≤ c1 + c2 then
    if 0 ≤ c2 ∧ m2.incl m1 = true then
      (amgmSolve fuel m2 m1).bind fun r => .ok (r.map fun e => fun a b c => c2 * e a b c + (c2 + c1) * cyc3 (monZ m1) a b c)
    else if 0 ≤ c1 ∧ m1.incl m2 = true then
      (amgmSolve fuel m1 m2).bind fun r => .ok (r.map fun e => fun a b c => c1 * e a b c + (c1 + c2) * cyc3 (monZ m2) a b c)
    else .ok none
  else .ok none

/-! ### The sparse solver -/

/-- A key of the dictionary as a `CoeffMonom`. -/
def Mon.ofKey (k : List ℕ) : Mon := ⟨k.getD 0 0, k.getD 1 0, k.getD 2 0⟩

/-- A `CoeffMonom` as a key. -/
def Mon.key (m : Mon) : List ℕ := [m.x.toNat, m.y.toNat, m.z.toNat]

/-- `set(CoeffMonom(*m).std() for m in coeff.coeffs.keys())` (sparse.py 405); the order of the set is not specified. -/
def monomClasses (co : Coeff K) : List Mon := (co.coeffs.map fun kv => (Mon.ofKey kv.1).std).dedup

/-- `getv` (sparse.py 411-413). -/
def getv (co : Coeff K) (m : Mon) : K := if m.isCenter then co.call m.key / 3 else co.call m.key

/-- `_sos_struct_sparse_amgm` (sparse.py 388-416); `order` puts the elements of the set in the order in which `list` delivers them. -/
def sparseAmgm (fuel : ℕ) (order : List Mon → List Mon) (co : Coeff K) : Except PyErr (Option (Val3 K)) :=
  if 6 < co.coeffs.length then .ok none
  else
    let l := order (monomClasses co)
    let l := if l.length = 1 then l ++ [⟨co.degree, 0, 0⟩] else l
    match l with
    | [m, n] => amgm3 fuel (getv co m) m (getv co n) n
    | _ => .ok none

end Verif.Ternary
