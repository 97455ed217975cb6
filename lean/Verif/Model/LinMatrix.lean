import Verif.Model.LinBasis
import Mathlib.Data.Nat.Factorial.Basic
import Mathlib.Algebra.Ring.Defs
import Mathlib.Data.List.Sort

/-!
# Model of triples/core/linsos/basis.py: fast coefficient rows

NumPy integer arrays are lists of natural numbers; the `int32` type of the encodings is not modelled (no overflow), which
is right as long as `(degree+1)^nvars < 2^31`.  Float rows are exact here.
-/

namespace Verif.LinMatrix
open Verif MonoMgr LinBasis

/-- `MonomialManager.base` (monomials.py 144-150). -/
def base (M : MonoMgr) : MonoMgr := { M with elements := [List.range M.nvars] }

/-- `monom @ encoding` with `encoding[i] = (degree+1)**i` (basis.py 527, 706). -/
def encode (degree : ℕ) (m : List ℕ) : ℕ := (m.zipIdx.map fun t => t.1 * (degree + 1) ^ t.2).sum

/-- `a = zeros(max(keys) + 1); a[keys] = vals` (basis.py 533-534, 554-555). -/
def scatter (keys vals : List ℕ) : List ℕ :=
  (keys.zip vals).foldl (fun a kv => a.set kv.1 kv.2) (List.replicate (keys.foldl max 0 + 1) 0)

/-- running maximum (`np.maximum.accumulate`) -/
def cumMax : ℕ → List ℕ → List ℕ
  | _, [] => []
  | c, x :: l => max c x :: cumMax (max c x) l

/-- `np.diff` -/
def diffs : List ℕ → List ℕ
  | x :: y :: l => (y - x) :: diffs (y :: l)
  | _ => []

/-- The array `indices` of one row (basis.py 497-499): `0`, then the positions where a new value starts (else `0`), then `N`. -/
def groupInds (row : List ℕ) : List ℕ :=
  0 :: ((List.range (row.length - 1)).map fun k => if row.getD (k + 1) 0 ≠ row.getD k 0 then k + 1 else 0) ++ [row.length]

/-- `_compute_sym_multiplicity(arr, need_sort=False)` (basis.py 489-506), one row. -/
def symMult (row : List ℕ) : ℕ := ((diffs (cumMax 0 (groupInds row))).map Nat.factorial).prod

/-- The branch taken by `_get_reduced_indices`: SymPy's `is_trivial` / `is_symmetric` (basis.py 539-549). -/
inductive Kind | trivial | symmetric | general
  deriving DecidableEq

/-- `full_to_reduced` of one monomial (basis.py 540, 543, 546). -/
def reduce (M : MonoMgr) : Kind → List ℕ → Option (List ℕ)
  | .trivial, m => some m
  | .symmetric, m => some (m.insertionSort (· ≥ ·))
  | .general, m => M.standardMonom m

/-- `multiplicity` of one reduced monomial (basis.py 541, 544, 547-549). -/
def mult (M : MonoMgr) : Kind → List ℕ → ℕ
  | .trivial, _ => 1
  | .symmetric, m => symMult m
  | .general, m => (M.permute m).countP fun t => decide (t = m)

/-- `_get_reduced_indices` (basis.py 510-556): the table from encodings to indices; `none` is an `IndexError`/`ValueError`. -/
def reducedTable (M : MonoMgr) (kind : Kind) (degree : ℕ) : Option (List ℕ) :=
  let reduced := M.invMonoms degree
  let redInds := scatter (reduced.map (encode degree)) (List.range reduced.length)
  let full := (base M).invMonoms degree
  ((full.mapM fun m => (reduce M kind m).bind fun t => redInds[encode degree t]?)).map fun vals =>
    scatter (full.map (encode degree)) vals

/-- `_count_contribution_of_monoms` (basis.py 559-593), one row. -/
def countRow {K : Type*} [AddMonoid K] (A : List ℕ) (v : List K) (M : ℕ) : List K :=
  (List.range M).map fun m => ((A.zip v).map fun t => if t.1 = m then t.2 else 0).sum

/-- `_get_matrix_of_lifted_degrees` (basis.py 652-725): the row of one exponent vector `power`. -/
def liftedRow {K : Type*} [Semiring K] (M : MonoMgr) (kind : Kind) (poly : List (List ℕ × K)) (power : List ℕ) (degree : ℕ) :
    Option (List K) :=
  let src := (base M).invMonoms (totalDegree M.nvars poly)
  let new := src.map fun m => encode degree m + encode degree power
  let len := (M.invMonoms degree).length
  (reducedTable M kind degree).bind fun table =>
    (new.mapM fun e => table[e]?).map fun inds =>
      List.zipWith (· * ·) (countRow inds ((base M).arraylize poly false) len) ((M.invMonoms degree).map fun m => ((mult M kind m : ℕ) : K))

/-! ### Products of squared differences -/

/-- `power` with its first nonzero entry lowered by one, and that position (basis.py 409-411); `none` is `StopIteration`. -/
def lowerFirst : List ℕ → Option (ℕ × List ℕ)
  | [] => none
  | 0 :: l => (lowerFirst l).map fun r => (r.1 + 1, 0 :: r.2)
  | (p + 1) :: l => some (0, p :: l)

/-- `_compute_power_with_cache` (basis.py 406-415) over a ring of polynomials; the recursion lowers the sum of the powers
(fuel).  Returns the polynomial and the new cache. -/
def computePower {R : Type*} [Mul R] [Inhabited R] (polys : List R) : ℕ → List (List ℕ × R) → List ℕ → Option (R × List (List ℕ × R))
  | 0, _, _ => none
  | fuel + 1, cache, power =>
    match dget cache power with
    | some p => some (p, cache)
    | none => match lowerFirst power with
      | none => none
      | some (i, power') => match computePower polys fuel cache power' with
        | none => none
        | some (p, cache') => some (polys.getD i default * p, dset cache' power (polys.getD i default * p))

/-- `_get_cross_dmps_of_quad_diff` (basis.py 361-427): the list of products for a list of powers, given the squared differences. -/
def crossPolys {R : Type*} [Mul R] [Inhabited R] (polys : List R) (tangent : R) (fuel : ℕ) (powers : List (List ℕ)) : Option (List R) :=
  (powers.foldl (fun (acc : Option (List R × List (List ℕ × R))) power => acc.bind fun a =>
    (computePower polys fuel a.2 power).map fun r => (a.1 ++ [r.1], r.2)) (some ([], [(List.replicate polys.length 0, tangent)]))).map Prod.fst

end Verif.LinMatrix
