import Verif.Basic.PyDict
import Mathlib.Data.List.Lex
import Mathlib.Algebra.Order.Group.Nat

/-!
# Model of triples/utils/monomials.py

Exponent tuples are `List ℕ`; a SymPy `Permutation` is its array form (`List ℕ`), acting on a sequence
by `p(seq) = [seq[j] for j in p.array_form]`; a permutation group is the list of its elements.
Degrees are natural numbers (callers pass total degrees); negative degrees are not modelled.
-/

namespace Verif

/-- `generate_tuples` (monomials.py 29-36): inner recursion of `generate_partitions`.
`range(degree - current_sum, -1, -1)` is the descending range; `current_sum ≤ degree` always holds, so
natural subtraction agrees with Python's. -/
def genTuples (degree : ℕ) : (remaining : ℕ) → (cur : List ℕ) → (curSum : ℕ) → List (List ℕ)
  | 0, cur, _ => [cur]
  | rem + 1, cur, s =>
    (List.range (degree - s + 1)).reverse.flatMap fun i => genTuples degree rem (cur ++ [i]) (s + i)

/-- `generate_partitions(nvars, degree, equal)` (monomials.py 22-41). -/
def generatePartitions (nvars degree : ℕ) (equal : Bool) : List (List ℕ) :=
  if nvars = 0 then
    if degree = 0 ∨ equal = false then [[]] else []
  else if equal then
    (genTuples degree (nvars - 1) [] 0).map fun m => m ++ [degree - m.sum]
  else
    genTuples degree nvars [] 0

/-- A SymPy permutation (array form) called on a sequence: `[seq[j] for j in p]`. -/
def papply {α : Type*} [Inhabited α] (p : List ℕ) (m : List α) : List α := p.map fun j => m.getD j default

/-- Python `max` of a list (first maximal element); `none` stands for the `ValueError` on `[]`. -/
def pyMax {α : Type*} [LinearOrder α] : List α → Option α
  | [] => none
  | x :: xs => some (xs.foldl (fun acc y => if acc < y then y else acc) x)

/-- `MonomialManager` (monomials.py 49-62): number of variables, elements of the permutation group,
homogeneity flag.  (`__init__` rejects a group of a different degree; see `MonoMgr.Valid`.) -/
structure MonoMgr where
  nvars : ℕ
  elements : List (List ℕ)
  hom : Bool

namespace MonoMgr

/-- `permute` (monomials.py 158-162). -/
def permute (M : MonoMgr) (m : List ℕ) : List (List ℕ) := M.elements.map fun p => papply p m

/-- `standard_monom` (monomials.py 164-172); `none` is the `ValueError` of `max([])`. -/
def standardMonom (M : MonoMgr) (m : List ℕ) : Option (List ℕ) := pyMax (M.permute m)

/-- `is_standard_monom` (monomials.py 174-181). -/
def isStandardMonom (M : MonoMgr) (m : List ℕ) : Bool := M.standardMonom m == some m

/-- `inv_monoms(degree)` (monomials.py 108-109, 121-125). -/
def invMonoms (M : MonoMgr) (degree : ℕ) : List (List ℕ) :=
  (generatePartitions M.nvars degree M.hom).filter M.isStandardMonom

/-- `{t: i for i, t in enumerate(monoms)}` (monomials.py 110). -/
def enumDict (monoms : List (List ℕ)) : List (List ℕ × ℕ) := dictOf monoms.zipIdx

/-- `dict_monoms(degree)` (monomials.py 110, 115-119). -/
def dictMonoms (M : MonoMgr) (degree : ℕ) : List (List ℕ × ℕ) := enumDict (M.invMonoms degree)

/-- The object with its mutable cache `_monoms` (monomials.py 62). -/
structure State where
  mgr : MonoMgr
  cache : List (ℕ × (List (List ℕ × ℕ) × List (List ℕ)))

/-- `_register_monoms(degree)` with the cache (monomials.py 102-113). -/
def register (s : State) (degree : ℕ) : (List (List ℕ × ℕ) × List (List ℕ)) × State :=
  match dget s.cache degree with
  | some x => (x, s)
  | none =>
    let monoms := (generatePartitions s.mgr.nvars degree s.mgr.hom).filter s.mgr.isStandardMonom
    let x := (enumDict monoms, monoms)
    (x, { s with cache := dset s.cache degree x })

/-- `index(monom)` (monomials.py 127-133). -/
def index (M : MonoMgr) (m : List ℕ) : Option ℕ :=
  (M.standardMonom m).bind fun s => dget (M.dictMonoms m.sum) s

/-- `__contains__` (monomials.py 138-142). -/
def contains (M : MonoMgr) (m : List ℕ) : Bool := (dget (M.dictMonoms m.sum) m).isSome

/-! ### Coefficient vectors

A polynomial is the list of its nonzero terms (distinct exponent tuples).  `rep.terms()` of the zero
polynomial is `[((0,...,0), 0)]` in SymPy. -/

/-- `rep.terms()` (SymPy). -/
def repTerms {K : Type*} [Zero K] (n : ℕ) (p : List (List ℕ × K)) : List (List ℕ × K) :=
  if p.isEmpty then [(List.replicate n 0, 0)] else p

/-- `rep.total_degree()` (SymPy): maximum of `sum(m)` over `rep.monoms()`. -/
def totalDegree {K : Type*} [Zero K] (n : ℕ) (p : List (List ℕ × K)) : ℕ :=
  ((repTerms n p).map fun t => t.1.sum).foldl max 0

/-- Loop body of the plain branch (monomials.py 221-224): `array[v] = coeff`. -/
def setStep {K : Type*} (d : List (List ℕ × ℕ)) (arr : List K) (t : List ℕ × K) : List K :=
  match dget d t.1 with
  | some v => arr.set v t.2
  | none => arr

/-- Inner loop body of the `expand_cyc` branch (monomials.py 227-230): `array[v] += coeff`. -/
def addStep {K : Type*} [AddMonoid K] (d : List (List ℕ × ℕ)) (c : K) (arr : List K) (m2 : List ℕ) : List K :=
  match dget d m2 with
  | some v => arr.set v (arr.getD v 0 + c)
  | none => arr

/-- `_arraylize_list` (monomials.py 214-231). The arity check of line 216 is a hypothesis of the
theorems (`∀ t ∈ p, t.1.length = nvars`). -/
def arraylize {K : Type*} [AddMonoid K] (M : MonoMgr) (p : List (List ℕ × K)) (expandCyc : Bool) : List K :=
  let degree := totalDegree M.nvars p
  let d := M.dictMonoms degree
  let array := List.replicate d.length (0 : K)
  if expandCyc then
    (repTerms M.nvars p).foldl (fun arr t => (M.permute t.1).foldl (addStep d t.2) arr) array
  else
    (repTerms M.nvars p).foldl (setStep d) array

/-- `invarraylize` (monomials.py 263-273).  `sp.Poly(dict)` drops zero coefficients; SymPy's sorting
of the terms is not modelled (no modelled function depends on the order). -/
def invarraylize {K : Type*} [Zero K] [DecidableEq K] (M : MonoMgr) (array : List K) (degree : ℕ) :
    List (List ℕ × K) :=
  let terms := (array.zip (M.invMonoms degree)).foldl (fun d cm =>
      (M.permute cm.2).foldl (fun d m2 => dset d m2 cm.1) d) []
  terms.filter fun t => decide (t.2 ≠ 0)

end MonoMgr
end Verif
