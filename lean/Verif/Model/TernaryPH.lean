import Verif.Model.TernaryCubic
import Verif.Model.Coeff
import Verif.Basic.Terms
import Mathlib.Algebra.Order.Field.Basic
import Mathlib.Algebra.Order.Ring.Rat

/-!
# The structures `Pnrms` and `Hnmr` of the heuristic ternary solver

Model of triples/core/structsos/ternary/sparse.py 423-434 (`_acc_dict`) and 483-652.  Exponents are natural numbers, except the first of `Hnmr`; an expression is
its value as a function of `a, b, c`.
-/

namespace Verif.Ternary

open Verif

variable {K : Type*} [Field K] [LinearOrder K]

/-- The terms of `Pnrms.coeff` (sparse.py 490-500). -/
def pRaw (n r m s : ℕ) (v : K) : List (List ℕ × K) := [
    ([r + s, m + n, 0], v), ([r + s, 0, m + n], v), ([m + n, r + s, 0], v), ([m + n, 0, r + s], v),
    ([0, r + s, m + n], v), ([0, m + n, r + s], v), ([m + r, n + s, 0], -v), ([m + r, 0, n + s], -v),
    ([n + s, m + r, 0], -v), ([n + s, 0, m + r], -v), ([0, m + r, n + s], -v), ([0, n + s, m + r], -v),
    ([r, m, n + s], v), ([r, n + s, m], v), ([s, n, m + r], v), ([s, m + r, n], v),
    ([m, r, n + s], v), ([m, n + s, r], v), ([n, s, m + r], v), ([n, m + r, s], v),
    ([m + r, s, n], v), ([m + r, n, s], v), ([n + s, r, m], v), ([n + s, m, r], v),
    ([r, s, m + n], -v), ([r, m + n, s], -v), ([s, r, m + n], -v), ([s, m + n, r], -v),
    ([m, n, r + s], -v), ([m, r + s, n], -v), ([n, m, r + s], -v), ([n, r + s, m], -v),
    ([r + s, m, n], -v), ([r + s, n, m], -v), ([m + n, r, s], -v), ([m + n, s, r], -v)]

/-- `Pnrms.coeff` (sparse.py 488-501); `collect` is `_acc_dict` (sparse.py 423-434). -/
def pCoeff (n r m s : ℕ) (v : K) : Coeff K := Coeff.ofDict (TermsPoly.collect (pRaw n r m s v))

/-- The table of `Pnrms._half_side` (sparse.py 527-551). -/
def halfTable : ℕ → ℕ → Option (Val3 K)
  | 2, 1 => some fun _ _ _ => 1
  | 3, 1 => some fun a b c => cyc3 (fun a _ _ => a) a b c
  | 4, 1 => some fun a b c => cyc3 (fun a b c => a ^ 2 + b * c) a b c
  | 5, 1 => some fun a b c => cycp3 (fun a _ _ => a) a b c + cyc3 (fun a _ _ => a) a b c * cyc3 (fun a _ _ => a ^ 2) a b c
  | 6, 1 => some fun a b c => cyc3 (fun a b c => a ^ 2 * (a + b) * (a + c)) a b c + cyc3 (fun a b _ => a ^ 2 * b ^ 2) a b c
  | 7, 1 => some fun a b c => cyc3 (fun a b c => a ^ 3 * (a + b) * (a + c)) a b c + cyc3 (fun a _ _ => a) a b c * cyc3 (fun a b _ => a ^ 2 * b ^ 2) a b c
  | 8, 1 => some fun a b c => cyc3 (fun a b c => a ^ 2 * (2 * a ^ 2 + b ^ 2 + c ^ 2) * (a + b) * (a + c)) a b c / 2 + cycp3 (fun a b _ => a ^ 2 + b ^ 2) a b c / 2
  | 9, 1 => some fun a b c => cyc3 (fun a b c => a ^ 3 * (2 * a ^ 2 + b ^ 2 + c ^ 2) * (a + b) * (a + c)) a b c / 2
      + cyc3 (fun a _ _ => a) a b c * cycp3 (fun a b _ => a ^ 2 + b ^ 2) a b c / 2
  | 3, 2 => some fun a b c => cyc3 (fun a b _ => a * b) a b c
  | 4, 2 => some fun a b c => cycp3 (fun a b _ => a + b) a b c
  | 5, 2 => some fun a b c => cyc3 (fun a b _ => a * b) a b c * cyc3 (fun a _ _ => a ^ 2) a b c + cyc3 (fun a b c => a ^ 2 * (b + c) ^ 2) a b c / 2
  | 6, 2 => some fun a b c => cycp3 (fun a b _ => a + b) a b c * cyc3 (fun a _ _ => a ^ 2) a b c
  | 7, 2 => some fun a b c => cycp3 (fun a b _ => a + b) a b c * (cycp3 (fun a _ _ => a) a b c + cyc3 (fun a _ _ => a ^ 3) a b c) + cyc3 (fun a b _ => a ^ 3 * b ^ 3) a b c
  | 8, 2 => some fun a b c => cycp3 (fun a b _ => a + b) a b c * cyc3 (fun a b c => a ^ 4 + b ^ 2 * c ^ 2) a b c
  | 4, 3 => some fun a b c => cyc3 (fun a b c => a ^ 2 * (b + c) ^ 2) a b c / 2
  | 5, 3 => some fun a b c => cyc3 (fun a _ _ => a) a b c * cyc3 (fun a b _ => a ^ 2 * b ^ 2) a b c + cyc3 (fun a b _ => (a + b) ^ 2) a b c * cycp3 (fun a _ _ => a) a b c / 2
  | 6, 3 => some fun a b c => cycp3 (fun a b _ => a ^ 2 + a * b + b ^ 2) a b c
  | 7, 3 => some fun a b c => cyc3 (fun a b c => a ^ 3 * (b ^ 2 + b * c + c ^ 2) * (a + b) * (a + c)) a b c + 2 * cyc3 (fun a _ _ => a) a b c * cycp3 (fun a _ _ => a ^ 2) a b c
  | 8, 3 => some fun a b c => cyc3 (fun a b c => a ^ 4 * (b ^ 2 + c ^ 2) * (a + b) * (a + c)) a b c
      + cyc3 (fun a b c => a ^ 2 * b * (a + c)) a b c * cyc3 (fun a b c => a ^ 2 * c * (a + b)) a b c
  | 5, 4 => some fun a b c => cyc3 (fun a b _ => a ^ 2 * b ^ 2) a b c * cyc3 (fun a b _ => a * b) a b c + cycp3 (fun a _ _ => a ^ 2) a b c
  | 6, 4 => some fun a b c => cycp3 (fun a b _ => a + b) a b c * cyc3 (fun a b _ => a ^ 2 * b ^ 2) a b c
  | 7, 4 => some fun a b c => 2 * cycp3 (fun a _ _ => a ^ 2) a b c * cyc3 (fun a _ _ => a ^ 2) a b c
      + cyc3 (fun a b _ => a * b) a b c * (cyc3 (fun a b _ => a ^ 3 * b ^ 3) a b c + cyc3 (fun a _ _ => a ^ 2) a b c * cyc3 (fun a b _ => a ^ 2 * b ^ 2) a b c)
  | 8, 4 => some fun a b c => cycp3 (fun a b _ => a + b) a b c * cycp3 (fun a b _ => a ^ 2 + b ^ 2) a b c
  | 6, 5 => some fun a b c => cyc3 (fun a b c => b ^ 3 * c ^ 3 * (a + b) * (a + c)) a b c + cyc3 (fun a _ _ => a ^ 2) a b c * cycp3 (fun a _ _ => a ^ 2) a b c
  | _, _ => none

/-- `Pnrms._half_side` (sparse.py 518-552). -/
def halfSide (n r : ℕ) : Option (Val3 K) := if n + r ≤ 12 then halfTable n r else none

/-- `Pnrms.as_expr` (sparse.py 503-516). -/
def pExpr (n r m s : ℕ) (v : K) : Val3 K :=
  if n = r ∨ m = s ∨ r = 0 ∨ s = 0 then fun _ _ _ => 0
  else
    match halfSide (K := K) n r, halfSide (K := K) m s with
    | some f1, some f2 => fun a b c => v * (cycp3 (fun a b _ => (a - b) ^ 2) a b c * f1 a b c * f2 a b c)
    | _, _ => fun a b c => v * (cyc3 (fun a b c => a ^ n * (b ^ r - c ^ r)) a b c * cyc3 (fun a b c => a ^ m * (b ^ s - c ^ s)) a b c)

/-- The terms of `Hnmr.coeff` for `n ≥ 0` (sparse.py 572-578). -/
def hRaw (n m r : ℕ) (v : K) : List (List ℕ × K) := [
      ([m, n + 2 * r, 0], v), ([m, 0, n + 2 * r], v), ([n + 2 * r, m, 0], v), ([n + 2 * r, 0, m], v),
      ([0, m, n + 2 * r], v), ([0, n + 2 * r, m], v), ([m + r, n + r, 0], -v), ([m + r, 0, n + r], -v),
      ([n + r, m + r, 0], -v), ([n + r, 0, m + r], -v), ([0, m + r, n + r], -v), ([0, n + r, m + r], -v),
      ([r, n, m + r], v), ([r, m + r, n], v), ([n, r, m + r], v), ([n, m + r, r], v),
      ([m + r, r, n], v), ([m + r, n, r], v), ([r, m, n + r], -v), ([r, n + r, m], -v),
      ([m, r, n + r], -v), ([m, n + r, r], -v), ([n + r, r, m], -v), ([n + r, m, r], -v)]

/-- The terms of `Hnmr.coeff` for the exponent `-n < 0` (sparse.py 582-590). -/
def hRawNeg (n m r : ℕ) (v : K) : List (List ℕ × K) := [
      ([n + r, m + n + r, 0], v), ([n + r, 0, m + n + r], v), ([m + n + r, n + r, 0], v), ([m + n + r, 0, n + r], v),
      ([0, n + r, m + n + r], v), ([0, m + n + r, n + r], v), ([n, 2 * r, m + n], v), ([n, m + n, 2 * r], v),
      ([2 * r, n, m + n], v), ([2 * r, m + n, n], v), ([m + n, n, 2 * r], v), ([m + n, 2 * r, n], v),
      ([r, n, m + n + r], -v), ([r, n + r, m + n], -v), ([r, m + n, n + r], -v), ([r, m + n + r, n], -v),
      ([n, r, m + n + r], -v), ([n, m + n + r, r], -v), ([n + r, r, m + n], -v), ([n + r, m + n, r], -v),
      ([m + n, r, n + r], -v), ([m + n, n + r, r], -v), ([m + n + r, r, n], -v), ([m + n + r, n, r], -v)]

/-- `Hnmr.coeff` (sparse.py 567-592). -/
def hCoeff (n : ℤ) (m r : ℕ) (v : K) : Coeff K :=
  if 0 ≤ n then Coeff.ofDict (TermsPoly.collect (hRaw n.toNat m r v)) else Coeff.ofDict (TermsPoly.collect (hRawNeg (-n).toNat m r v))

/-- The first table of `Hnmr.as_expr` (sparse.py 611-618). -/
def hTable : ℕ → Option (Val3 K)
  | 2 => some fun a b c => cyc3 (fun a b c => a * (b - c) ^ 2 * (b + c - a) ^ 2) a b c
  | 4 => some fun a b c => cyc3 (fun a b c => a * (b - c) ^ 2 * (b + c - a) ^ 4) a b c + 2 * cyc3 (fun a _ _ => a) a b c * cycp3 (fun a b _ => (a - b) ^ 2) a b c
  | 5 => some fun a b c => cyc3 (fun a b c => a * b * (a - b) ^ 2 * (a ^ 2 + b ^ 2 - c ^ 2) ^ 2) a b c
      + cycp3 (fun a b _ => (a - b) ^ 2) a b c * cyc3 (fun a b _ => (a - b) ^ 2) a b c / 2
  | 6 => some fun a b c => cyc3 (fun a b c => a * (b - c) ^ 2 * (b + c - a) ^ 2 * (b ^ 2 + c ^ 2 - a ^ 2) ^ 2) a b c
      + cycp3 (fun a b _ => (a - b) ^ 2) a b c * (3 * cyc3 (fun a b c => a * (b - c) ^ 2) a b c + 22 * cycp3 (fun a _ _ => a) a b c)
  | 7 => some fun a b c => cyc3 (fun a b c => a * b * (a - b) ^ 2 * (a ^ 3 + 2 * a * b * c - 2 * a * c ^ 2 + b ^ 3 - 2 * b * c ^ 2 + c ^ 3) ^ 2) a b c
      + cycp3 (fun a b _ => (a - b) ^ 2) a b c * (cyc3 (fun a b _ => a * b) a b c * cyc3 (fun a _ _ => a ^ 2) a b c + cyc3 (fun a b _ => (a ^ 2 - b ^ 2) ^ 2) a b c / 2)
  | 8 => some fun a b c => cyc3 (fun a b c => a * (b - c) ^ 2 * (b + c - a) ^ 2 * (b ^ 3 + c ^ 3 - a ^ 3) ^ 2) a b c
      + cycp3 (fun a b _ => (a - b) ^ 2) a b c * (cyc3 (fun a b _ => a * b * (a + b)) a b c * cyc3 (fun a _ _ => a) a b c ^ 2
        + cyc3 (fun a b _ => (a - b) ^ 2) a b c * cycp3 (fun a _ _ => a) a b c)
  | _ => none

/-- The second table of `Hnmr.as_expr` (sparse.py 626-630). -/
def hTable2 : ℕ → ℕ → Option (Val3 K)
  | 1, 2 => some fun a b c => cyc3 (fun a _ _ => a) a b c * cycp3 (fun a b _ => (a - b) ^ 2) a b c + cycp3 (fun a _ _ => a) a b c * cyc3 (fun a b _ => (a - b) ^ 2) a b c
  | 3, 2 => some fun a b c => cycp3 (fun a b _ => (a - b) ^ 2) a b c * (cyc3 (fun a _ _ => a) a b c * cyc3 (fun a _ _ => a ^ 2) a b c + cycp3 (fun a b _ => a + b) a b c)
      + cycp3 (fun a _ _ => a) a b c * cyc3 (fun a b c => (a ^ 2 - b ^ 2) ^ 2 * (a + b - c) ^ 2) a b c
  | 5, 2 => some fun a b c => cycp3 (fun a b _ => (a - b) ^ 2) a b c * (cyc3 (fun a _ _ => a) a b c ^ 2 * cyc3 (fun a _ _ => a ^ 3) a b c
        + cyc3 (fun a b _ => a * b) a b c * cycp3 (fun a b _ => a + b) a b c)
      + cycp3 (fun a _ _ => a) a b c * cyc3 (fun a b c => (a ^ 2 - b ^ 2) ^ 2 * (a ^ 2 + b ^ 2 - c ^ 2) ^ 2) a b c
  | _, _ => none

/-- The candidates for `m = r` before the fallback (sparse.py 609-633); `xreplace` raises the symbols to a power. -/
def hTabled (n r : ℕ) : Option (Val3 K) :=
  if n % r = 0 ∧ n / r ≤ 8 then (hTable (K := K) (n / r)).map fun f => fun a b c => f (a ^ r) (b ^ r) (c ^ r)
  else if n = 1 ∧ 2 ≤ r then
    some fun a b c => pExpr (r + 1) 1 r (r - 1) 1 a b c + cycp3 (fun a _ _ => a) a b c * cyc3 (fun a b c => c ^ (r - 2) * (a ^ r - b ^ r) ^ 2) a b c
  else (hTable2 (K := K) (n / Nat.gcd n r) (r / Nat.gcd n r)).map fun f => fun a b c => f (a ^ Nat.gcd n r) (b ^ Nat.gcd n r) (c ^ Nat.gcd n r)

/-- The fallback for `m = r` (sparse.py 634-646). -/
def hFraction (n m r : ℕ) : Val3 K :=
  if m + r ≤ n then fun a b c =>
    (cyc3 (fun a b c => a ^ n * (b ^ m + c ^ m) * (a ^ r - b ^ r) ^ 2 * (a ^ r - c ^ r) ^ 2) a b c + pExpr (2 * r) r n (m + r) 1 a b c) / (cyc3 (fun a b _ => (a ^ r - b ^ r) ^ 2) a b c / 2)
  else fun a b c =>
    ((if r ≤ n then cyc3 (fun a b c => a ^ (n - r) * (b ^ m + c ^ m) * (a ^ r - b ^ r) ^ 2 * (a ^ r - c ^ r) ^ 2) a b c * cycp3 (fun a _ _ => a ^ r) a b c
      else cyc3 (fun a b c => b ^ (r - n) * c ^ (r - n) * (b ^ m + c ^ m) * (a ^ r - b ^ r) ^ 2 * (a ^ r - c ^ r) ^ 2) a b c * cycp3 (fun a _ _ => a ^ n) a b c)
      + pExpr (2 * r) r (n + m + r) (m + r) 1 a b c) / (cyc3 (fun a b c => a ^ (2 * r) * (b ^ r - c ^ r) ^ 2) a b c / 2)

/-- `Hnmr.as_expr` for `n ≥ 0` and `v = 1` without the recursive case (sparse.py 600-607, 609-648). -/
def hFlat (n m r : ℕ) : Val3 K :=
  if n = m then fun a b c => cyc3 (fun a b _ => a ^ n * b ^ n * (a ^ r - b ^ r) ^ 2) a b c
  else if n + r = m then
    if r ≤ n then fun a b c => cyc3 (fun a b _ => a ^ (n - r) * b ^ (n - r) * (a ^ r - b ^ r) ^ 2) a b c * cycp3 (fun a _ _ => a ^ r) a b c
    else fun a b c => cyc3 (fun a b c => c ^ (r - n) * (a ^ r - b ^ r) ^ 2) a b c * cycp3 (fun a _ _ => a ^ n) a b c
  else if m = r then
    match hTabled (K := K) n r with
    | some f => f
    | none => hFraction n m r
  else fun a b c => cyc3 (fun a b c => a ^ n * (b ^ m + c ^ m) * (a ^ r - b ^ r) * (a ^ r - c ^ r)) a b c

/-- `Hnmr.as_expr` for `n ≥ 0` and `v = 1` (sparse.py 599-648).  The recursive call has `m = 0`, which does not recurse again because `r > 0`. -/
def hPos (n m r : ℕ) : Val3 K :=
  if r = 0 then fun _ _ _ => 0
  else if n ≠ m ∧ n + r ≠ m ∧ m = 2 * r ∧ r ≤ n then fun a b c =>
    pExpr (2 * r) r n (m - r) 1 a b c + cycp3 (fun a _ _ => a ^ r) a b c * hFlat (n - r) (m - 2 * r) r a b c
  else hFlat n m r

/-- `Hnmr.as_expr` (sparse.py 594-652). -/
def hExpr (n : ℤ) (m r : ℕ) (v : K) : Val3 K :=
  if r = 0 then fun _ _ _ => 0
  else if 0 ≤ n then fun a b c => v * hPos n.toNat m r a b c
  else if (-n).toNat = r then fun a b c => v * cyc3 (fun a b c => c ^ (m + 2 * r) * (a ^ r - b ^ r) ^ 2) a b c
  else fun a b c => v * cyc3 (fun a b c => b ^ (-n).toNat * c ^ (-n).toNat * (b ^ m + c ^ m) * (a ^ r - b ^ r) * (a ^ r - c ^ r)) a b c

end Verif.Ternary
