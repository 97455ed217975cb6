import Verif.Model.Monomials
import Mathlib.Algebra.Order.Ring.Nat
import Mathlib.Data.Int.Basic

/-!
# Model of triples/core/linsos/basis.py: enumeration of exponent vectors

Degrees in `d_list` are natural numbers (all callers pass positive ones); the bound is an integer because callers
subtract degrees from it.
-/

namespace Verif.LinBasis

/-- Python list index with wrap-around of negative indices. -/
def pyIdx (n : ℕ) (i : ℤ) : ℕ := if i < 0 then (i + n).toNat else i.toNat

/-- The local variables of `_degree_combinations` (basis.py 247-250). -/
structure St where
  powers : List (List ℕ)
  i : ℤ
  deg : ℤ
  cur : List ℕ

/-- `current_powers[i] += 1; current_degree += d_list[i]` (basis.py 261-262, 270-271). -/
def St.bump (ds : List ℕ) (s : St) : St :=
  { s with cur := s.cur.set (pyIdx ds.length s.i) (s.cur.getD (pyIdx ds.length s.i) 0 + 1)
           deg := s.deg + (ds.getD (pyIdx ds.length s.i) 0 : ℕ) }

/-- The vectors appended when the last index is reached (basis.py 253-260), for a remaining degree `rem`. Only the last
entry of `current_powers` is overwritten. -/
def lastRow (ds : List ℕ) (req : Bool) (s : St) (degree : ℤ) : List (List ℕ) :=
  let n := ds.length
  let d := ds.getD (n - 1) 0
  let rem := (degree - s.deg).toNat
  if degree ≥ s.deg then
    if req = false then (List.range (1 + rem / d)).map fun j => s.cur.set (n - 1) j
    else if rem % d = 0 then [s.cur.set (n - 1) (rem / d)] else []
  else []

/-- `current_powers` after the last index was handled: the last assignment persists. -/
def lastCur (ds : List ℕ) (req : Bool) (s : St) (degree : ℤ) : List ℕ := ((lastRow ds req s degree).getLast?).getD s.cur

/-- One round of `while True` (basis.py 251-273); `none` is `break` (with the list of powers). -/
def step (ds : List ℕ) (degree : ℤ) (req : Bool) (s : St) : List (List ℕ) ⊕ St :=
  if s.i = (ds.length : ℤ) - 1 then
    .inr (St.bump ds { s with powers := s.powers ++ lastRow ds req s degree, cur := lastCur ds req s degree, i := s.i - 1 })
  else if s.deg > degree then
    let k := pyIdx ds.length s.i
    let s' : St := { s with deg := s.deg - (ds.getD k 0 * s.cur.getD k 0 : ℕ), cur := s.cur.set k 0, i := s.i - 1 }
    if s'.i < 0 then .inl s'.powers else .inr (St.bump ds s')
  else .inr { s with i := s.i + 1 }

/-- The loop, with fuel; `none` when the fuel is exhausted. -/
def run (ds : List ℕ) (degree : ℤ) (req : Bool) : ℕ → St → Option (List (List ℕ))
  | 0, _ => none
  | fuel + 1, s => match step ds degree req s with
    | .inl r => some r
    | .inr s' => run ds degree req fuel s'

/-- `_degree_combinations(d_list, degree, require_equal)` (basis.py 239-276). -/
def degreeCombinations (ds : List ℕ) (degree : ℤ) (req : Bool) (fuel : ℕ) : Option (List (List ℕ)) :=
  if ds.length = 0 then some [] else run ds degree req fuel ⟨[], 0, 0, List.replicate ds.length 0⟩

/-- `LinearBasisTangent.generate` (basis.py 130-150): the exponent tuples of the generated bases; `tdeg` is the degree of
the tangent, `nvars` the number of symbols, `stp` the class attribute `_degree_step`. -/
def generate (stp nvars : ℕ) (tdeg degree : ℤ) (req : Bool) (fuel : ℕ) : Option (List (List ℕ)) :=
  let deg := degree - tdeg
  if deg < 0 ∨ deg % stp ≠ 0 then some []
  else (degreeCombinations (List.replicate nvars stp) deg req fuel).map fun l => l.map fun comb => comb.map (· * stp)

/-- `cross_exprs` (basis.py 278-312) on abstract expressions: `deg e` is the total degree, and a product
`prod(x**i)` is the list of pairs `(x, i)`.  Line 310 zips the powers with `exprs`, not with the filtered `polys`. -/
def crossExprs {α : Type*} (deg : α → ℕ) (exprs : List α) (degree : ℤ) (fuel : ℕ) : Option (List (List (α × ℕ))) :=
  let degs := (exprs.map deg).filter (· > 0)
  if degs.length = 0 then some []
  else (degreeCombinations degs degree false fuel).map fun ps => ps.map fun p => exprs.zip p

end Verif.LinBasis
