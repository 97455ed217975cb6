import Verif.Basic.PyDict
import Mathlib.Order.Basic
import Mathlib.Algebra.Field.Defs

/-!
# Writing a polynomial as text: the terms that are printed

Model of the part of `triples/utils/expression/form.py` that decides which terms are printed and with which coefficients.  The printing of a single coefficient or
monomial is not modelled.
-/

namespace Verif.Form

open Verif

variable {M : Type*} [LinearOrder M]

/-- `ufs_find` of `poly_get_standard_form` (form.py 99-105): the root of `m`, and the dictionary with the path compressed.  The recursion of the code is not
bounded; here the first argument bounds it (see `ufsFind_spec`: the bound used is never reached). -/
def ufsFind : ℕ → List (M × M) → M → M × List (M × M)
  | 0, d, m => (m, d)
  | k + 1, d, m =>
    match dget d m with
    | none => (m, d)
    | some v => if v = m then (m, d) else ((ufsFind k d v).1, dset (ufsFind k d v).2 m (ufsFind k d v).1)

/-- `ufs_find` with a bound that suffices. -/
def find (d : List (M × M)) (m : M) : M × List (M × M) := ufsFind (d.length + 1) d m

/-- One pass of the inner loop (form.py 109-114): the classes of `m1` and `m2` are merged to the maximum. -/
def union (d : List (M × M)) (e : M × M) : List (M × M) :=
  let r1 := find d e.1
  let r2 := find r1.2 e.2
  if r2.1 < r1.1 then dset r2.2 r2.1 r1.1 else dset r2.2 r1.1 r2.1

/-- The pairs in the order in which the loops visit them (form.py 106-108); `gens` are the generators as functions on monomials. -/
def edges (gens : List (M → M)) (monoms : List M) : List (M × M) := monoms.flatMap fun m => gens.map fun p => (m, p m)

/-- `ufs` after the loops (form.py 97-114). -/
def ufs (gens : List (M → M)) (monoms : List M) : List (M × M) := (edges gens monoms).foldl union []

/-- `ufs_size[r]` (form.py 116-118).  The path compression during the loop does not change the keys, nor the roots, so the roots are taken in `d`. -/
def ufsSize (d : List (M × M)) (r : M) : ℕ := ((dkeys d).filter fun m => decide ((find d m).1 = r)).length

/-- `get_order` (form.py 120-123). -/
def getOrder (order : ℕ) (d : List (M × M)) (m : M) : ℕ := order / ufsSize d (find d m).1

/-- The terms printed inside `s(...)` with their coefficients, before sorting (form.py 126-128, 162-166): only monomials that are their own root, each coefficient
divided by the multiplicity. -/
def extracted {K : Type*} [Field K] (gens : List (M → M)) (order : ℕ) (terms : List (M × K)) : List (M × K) :=
  let d := ufs gens (terms.map Prod.fst)
  (terms.filter fun t => decide ((find d t.1).1 = t.1)).map fun t => (t.1, t.2 / (getOrder order d t.1 : K))

/-! ### Factors -/

/-- What `_reduce_factor_list` uses: the permuted factor is looked up, itself and then its negative (form.py 217-223).  `none` if neither is a factor. -/
structure Orbit (F : Type*) (G : Type*) where
  /-- the factor equal to the permuted one up to sign, and whether the sign is `-1` -/
  act : G → F → F × Bool
  /-- `permed_poly.compare(representative) < 0` -/
  less : F → F → Bool

variable {F G : Type*} [DecidableEq F]

/-- The inner loop (form.py 213-228) over the elements of the group: the counts, the sign and the representative; `none` for `break`.  `pow` is `pow_dict`. -/
def orbitLoop (O : Orbit F G) (pow : List (F × ℕ)) (base : F) : List G → List (F × ℕ) → Bool → F → Option (List (F × ℕ) × Bool × F)
  | [], sub, sign, rep => some (sub, sign, rep)
  | g :: gs, sub, sign, rep =>
    let f := (O.act g base).1
    let sign' := xor sign (O.act g base).2
    match dget pow f with
    | none => none
    | some k =>
      let n := (dget sub f).getD 0 + 1
      if k < n then none else orbitLoop O pow base gs (dset sub f n) sign' (if O.less f rep then f else rep)

/-- `min(pow_dict[p]//v ...)` (form.py 231). -/
def commonPow (pow : List (F × ℕ)) (sub : List (F × ℕ)) : ℕ :=
  match sub.map fun e => (dget pow e.1).getD 0 / e.2 with
  | [] => 0
  | x :: l => l.foldl min x

/-- Removing the common power (form.py 233-237). -/
def removePow (d : ℕ) : List (F × ℕ) → List (F × ℕ) → List (F × ℕ)
  | pow, [] => pow
  | pow, e :: sub =>
    let k := (dget pow e.1).getD 0 - d * e.2
    removePow d (if k = 0 then ddel pow e.1 else dset pow e.1 k) sub

/-- State of `_reduce_factor_list`: the coefficient's sign has been flipped or not, `pow_dict`, `cyc_factors`. -/
structure Reduced (F : Type*) where
  neg : Bool
  pow : List (F × ℕ)
  cyc : List (F × ℕ)

/-- One pass of the outer loop (form.py 212-238). -/
def reduceStep (O : Orbit F G) (elems : List G) (s : Reduced F) (base : F) : Reduced F :=
  match orbitLoop O s.pow base elems [] false base with
  | none => s
  | some (sub, sign, rep) =>
    let d := commonPow s.pow sub
    ⟨xor s.neg (sign && d % 2 == 1), removePow d s.pow sub, s.cyc ++ [(rep, d)]⟩

/-- `_reduce_factor_list` (form.py 208-239) after `factor_list`. -/
def reduceFactors (O : Orbit F G) (elems : List G) (factors : List (F × ℕ)) : Reduced F :=
  (factors.map Prod.fst).foldl (reduceStep O elems) ⟨false, factors, []⟩

end Verif.Form
