import Verif.Model.Monomials
import Verif.Model.Congruence
import Verif.Basic.Terms
import Mathlib.Data.Finset.Image
import Mathlib.Algebra.Order.Field.Basic

/-!
# Preparation of a problem before it is given to a solver (triples/core/shared.py)

A polynomial is the list of its terms; `Poly.rep` (a canonical dense form in SymPy, compared with `==`) is the finite set of the terms.
-/

namespace Verif.Shared

open Verif TermsPoly

/-- A polynomial: terms `(exponents, coefficient)`. -/
abbrev Terms (K : Type*) := List (List ℕ × K)

/-- `Poly.rep`: canonical, so equality of representations is equality of polynomials. -/
abbrev Rep (K : Type*) := Finset (List ℕ × K)

/-! ### Homogenisation -/

/-- `Poly.is_homogeneous` (SymPy): all terms have the same total degree. -/
def isHomogeneous {K : Type*} (p : Terms K) : Bool :=
  match p with
  | [] => true
  | t :: l => l.all fun u => u.1.sum == t.1.sum

/-- `Poly.homogenize(s)` for a new symbol `s`, appended as the last generator (SymPy; called in shared.py 71, 317-320). -/
def homogenizeNew {K : Type*} [Zero K] (n : ℕ) (p : Terms K) : Terms K :=
  p.map fun t => (t.1 ++ [MonoMgr.totalDegree n p - t.1.sum], t.2)

/-- `homogenize(poly)` (shared.py 45-72): the polynomial and whether a new generator was added (`homogenizer is not None`). -/
def homogenize {K : Type*} [Zero K] (n : ℕ) (p : Terms K) : Terms K × Bool :=
  if isHomogeneous p then (p, false) else (homogenizeNew n p, true)

/-- `_deflat_perm_group` in `SolutionSimple.dehomogenize` (utils/expression/solution.py 498-507): `Permutation(_.array_form[:-1])` for
the elements of a group, used when the orbit of the last index has one element. -/
def deflate (g : List ℕ) : List ℕ := g.dropLast

/-! ### Normalising constraints

`lst` is the result `(c, [(q, d), ...])` of `_sqf_list(p)` (shared.py 216-219) on an abstract type `P` of polynomials.  An expression is
kept as the list of operations applied to the user's expression `e`. -/

/-- The polynomial part of `_std_ineq_constraints` (shared.py 224, 226-228): the sign and the factors with odd multiplicity. -/
def stdIneqPoly {K P : Type*} [Zero K] [LT K] [DecidableRel (α := K) (· < ·)] (c : K) (lst : List (P × ℕ)) : ℤ × List P :=
  (if 0 < c then 1 else -1, (lst.filter fun qd => qd.2 % 2 == 1).map Prod.fst)

/-- The expression part of `_std_ineq_constraints` (shared.py 225, 229): the divisors of `e`, a positive constant and `q**(d - d%2)`. -/
def stdIneqExpr {K P : Type*} [Zero K] [LT K] [Neg K] [DecidableRel (α := K) (· < ·)] (c : K) (lst : List (P × ℕ)) : K × List (P × ℕ) :=
  (if 0 < c then c else -c, lst.map fun qd => (qd.1, qd.2 - qd.2 % 2))

/-- The polynomial part of `_std_eq_constraints` (shared.py 235, 238-239): the sign and all the factors once. -/
def stdEqPoly {K P : Type*} [Zero K] [LT K] [DecidableRel (α := K) (· < ·)] (c : K) (lst : List (P × ℕ)) : ℤ × List P :=
  (if 0 < c then 1 else -1, lst.map Prod.fst)

/-- `max(1, *(d for q, d in lst))` (shared.py 237): with an empty list Python calls `max(1)`, a `TypeError`. -/
def maxMult {P : Type*} (lst : List (P × ℕ)) : Except PyErr ℕ :=
  if lst.isEmpty then .error .typeError else .ok ((lst.map Prod.snd).foldl max 1)

/-- The expression part of `_std_eq_constraints` (shared.py 236-244): `(e / c * prod(q**(max_d - d)))**(1/max_d)`, negated when `c < 0`.
The result is `(c, [(q, max_d - d)], max_d, negate)`. -/
def stdEqExpr {K P : Type*} [Zero K] [LT K] [DecidableRel (α := K) (· < ·)] (c : K) (lst : List (P × ℕ)) : Except PyErr (K × List (P × ℕ) × ℕ × Bool) :=
  match maxMult lst with
  | .error e => .error e
  | .ok m => .ok (c, lst.map (fun qd => (qd.1, m - qd.2)), m, decide (c < 0))

/-! ### Inferring the symmetry -/

/-- `poly.reorder(*perm(gens)).rep` (shared.py 133): the exponent tuple `m` becomes `[m[perm[i]]]`. -/
def permRep {K : Type*} [DecidableEq K] (g : List ℕ) (r : Rep K) : Rep K := r.image fun t => (papply g t.1, t.2)

/-- `check_symmetry(polys, perm)` (shared.py 128-142). -/
def checkSymmetry {K : Type*} [DecidableEq K] (polys : List (Rep K)) (g : List ℕ) : Bool :=
  let moved := polys.filter fun r => decide (r ≠ permRep g r)
  moved.all fun r => decide (permRep g r ∈ moved)

/-- `_rotated(n, start)` (shared.py 146-147). -/
def rotated (n start : ℕ) : List ℕ := (List.range (n - 1)).map (· + (start + 1)) ++ [start]

/-- `_reflected(n, start)` (shared.py 148-149). -/
def reflected (n start : ℕ) : List ℕ := [start + 1, start] ++ (List.range (n - 2)).map (· + (start + 2))

/-- The candidate permutations (shared.py 151-175). -/
def candidates (nvars : ℕ) (hasHom : Bool) : List (List ℕ) :=
  if nvars > 1 then
    [rotated nvars 0] ++ (if nvars > 2 then [reflected nvars 0] else []) ++
    (if nvars > 3 ∧ (nvars - (if hasHom then 1 else 0)) % 2 = 0 then
      let half := nvars / 2
      let tail := if hasHom then [nvars - 1] else []
      [rotated half 0 ++ rotated half half ++ tail, reflected half 0 ++ reflected half half ++ tail,
       (List.range half).map (· + half) ++ List.range half ++ tail]
     else []) ++
    (if hasHom ∧ nvars > 2 then
      [rotated (nvars - 1) 0 ++ [nvars - 1]] ++ (if nvars > 3 then [reflected (nvars - 1) 0 ++ [nvars - 1]] else [])
     else [])
  else []

/-- `identify_symmetry_from_lists` (shared.py 94-187): the generators given to `PermutationGroup`.  `len(gens)` with `gens = None`
(all lists empty) is a `TypeError`. -/
def identifySymmetry {K : Type*} [DecidableEq K] (nvars : ℕ) (lsts : List (List (Rep K))) (hasHom : Bool) : Except PyErr (List (List ℕ)) :=
  if lsts.all List.isEmpty then .error .typeError
  else
    let verified := (candidates nvars hasHom).filter fun g => lsts.all fun l => checkSymmetry l g
    .ok (if verified.isEmpty then [List.range nvars] else verified)

/-! ### Removing duplicates by symmetry -/

/-- The base manager (monomials.py `base()`): the same variables, the trivial group. -/
def baseOf (M : MonoMgr) : MonoMgr := ⟨M.nvars, [List.range M.nvars], M.hom⟩

/-- `all_vecs[ind][j] = v` (monomials.py 200); a missing monomial (`KeyError` in Python, impossible for a permutation) writes nothing. -/
def writeAt {K : Type*} (j : Option ℕ) (v : K) (col : List K) : List K :=
  match j with
  | some j => col.set j v
  | none => col

/-- One column of `permute_vec` (monomials.py 183-201): the value at the `j`-th monomial `m` is written at the index of `papply g m`. -/
def permuteCol {K : Type*} [Zero K] (M : MonoMgr) (g : List ℕ) (vec : List K) (degree : ℕ) : List K :=
  (vec.zip ((baseOf M).invMonoms degree)).foldl
    (fun col vm => writeAt (dget ((baseOf M).dictMonoms degree) (papply g vm.2)) vm.1 col) (List.replicate vec.length 0)

/-- `permute_vec(vec, degree)` (monomials.py 183-201), as the list of its columns. -/
def permuteVec {K : Type*} [Zero K] (M : MonoMgr) (vec : List K) (degree : ℕ) : List (List K) :=
  M.elements.map fun g => permuteCol M g vec degree

/-- `_get_representation(t)` (shared.py 198-206): the largest column. -/
def representation {K : Type*} [AddMonoid K] [LinearOrder K] (M : MonoMgr) (p : Terms K) : Option (List K) :=
  pyMax (permuteVec M ((baseOf M).arraylize p false) (MonoMgr.totalDegree M.nvars p))

/-- `clear_polys_by_symmetry(polys, symbols, symmetry)` (shared.py 190-211) for a list of pairs `(poly, expr)`. -/
def clearPolys {K E : Type*} [AddMonoid K] [LinearOrder K] (M : MonoMgr) (polys : List (Terms K × E)) : List (Terms K × E) :=
  if M.elements = [List.range M.nvars] then polys
  else (ddel (dictOf (polys.map fun t => (representation M t.1, t))) none).map Prod.snd

/-! ### Wrapping the constraints -/

/-- A placeholder `Function(name + str(counter))(*compressed)` (shared.py 401): the counter and the indices of the arguments. -/
abbrev Placeholder := ℕ × List ℕ

/-- `_get_mask(p(symbols), dlist)` (shared.py 384-386, 400): the images of the used generators. -/
def maskArgs (g : List ℕ) (dlist : List ℕ) : List ℕ := ((dlist.zip g).filter fun ds => decide (ds.1 ≠ 0)).map Prod.snd

/-- `base.degree_list()`: the degree in each generator. -/
def degreeList {K : Type*} (n : ℕ) (p : Terms K) : List ℕ :=
  (List.range n).map fun i => (p.map fun t => t.1.getD i 0).foldl max 0

/-- `p.__invert__()` (SymPy): the inverse permutation. -/
def invPerm (g : List ℕ) : List ℕ := (List.range g.length).map fun i => g.idxOf i

/-- The state of the loops of `_get_dicts`: `dt`, `inv` and `counter`. -/
structure WrapSt (K E : Type*) where
  dt : List (Rep K × Placeholder)
  inv : List (Placeholder × E)
  counter : ℕ

/-- One group element (shared.py 396-404). `p.__invert__()(symbols)` reorders the generators by the inverse permutation. -/
def wrapStep {K E : Type*} [DecidableEq K] (repDict : List (Rep K × E)) (dlist : List ℕ) (base : Rep K)
    (acc : Except PyErr (WrapSt K E)) (g : List ℕ) : Except PyErr (WrapSt K E) :=
  match acc with
  | .error e => .error e
  | .ok s =>
    match dget repDict (permRep (invPerm g) base) with
    | none => .error .valueError
    | some e => .ok { s with dt := dset s.dt (permRep (invPerm g) base) (s.counter, maskArgs g dlist), inv := dset s.inv (s.counter, maskArgs g dlist) e }

/-- One constraint (shared.py 393-405). -/
def wrapBase {K E : Type*} [DecidableEq K] (n : ℕ) (G : List (List ℕ)) (repDict : List (Rep K × E))
    (acc : Except PyErr (WrapSt K E)) (base : Terms K) : Except PyErr (WrapSt K E) :=
  match acc with
  | .error e => .error e
  | .ok s =>
    if (dget s.dt base.toFinset).isSome then .ok s
    else match G.foldl (wrapStep repDict (degreeList n base) base.toFinset) (.ok s) with
      | .error e => .error e
      | .ok s' => .ok { s' with counter := s'.counter + 1 }

/-- `_get_dicts(constraints)` (shared.py 388-407). -/
def wrapConstraints {K E : Type*} [DecidableEq K] (n : ℕ) (G : List (List ℕ)) (constraints : List (Terms K × E)) :
    Except PyErr (WrapSt K E) :=
  let repDict := dictOf (constraints.map fun pe => (pe.1.toFinset, pe.2))
  (constraints.map Prod.fst).foldl (wrapBase n G repDict) (.ok ⟨[], [], 0⟩)

/-! ### The decorator `sanitize_input` -/

/-- A problem: the number of generators, the polynomial and the constraint dictionaries `{Poly: Expr}`. -/
structure Problem (K E : Type*) where
  n : ℕ
  poly : Terms K
  ineqs : List (Terms K × E)
  eqs : List (Terms K × E)
  deriving DecidableEq

/-- `s.as_poly(*gens)` for the generator with index `i`. -/
def varPoly {K : Type*} [One K] (n i : ℕ) : Terms K := [((List.range n).map fun j => if j = i then 1 else 0, 1)]

/-- The homogenising step (shared.py 310-323), with `homogenize=True`; `tExpr` is the expression `homogenizer`. -/
def homogenizeProblem {K E : Type*} [Zero K] [One K] [DecidableEq K] (tExpr : E) (P : Problem K E) : Problem K E × Bool :=
  if isHomogeneous P.poly && P.ineqs.all (fun c => isHomogeneous c.1) && P.eqs.all (fun c => isHomogeneous c.1) then (P, false)
  else (⟨P.n + 1, homogenizeNew P.n P.poly,
    dset (P.ineqs.map fun c => (homogenizeNew P.n c.1, c.2)) (varPoly (P.n + 1) P.n) tExpr,
    P.eqs.map fun c => (homogenizeNew P.n c.1, c.2)⟩, true)

/-- The polynomial returned by `_std_ineq_constraints` (shared.py 221-230), given `_sqf_list`. -/
def stdIneqTerms {K : Type*} [Ring K] [LinearOrder K] (n : ℕ) (sqf : Terms K → K × List (Terms K × ℕ)) (p : Terms K) : Terms K :=
  if p.isEmpty then p
  else (stdIneqPoly (sqf p).1 (sqf p).2).2.foldl pmul (pconst n ((stdIneqPoly (sqf p).1 (sqf p).2).1 : K))

/-- The polynomial returned by `_std_eq_constraints` (shared.py 232-245), given `_sqf_list`; `max(1)` raises for a constant. -/
def stdEqTerms {K : Type*} [Ring K] [LinearOrder K] (n : ℕ) (sqf : Terms K → K × List (Terms K × ℕ)) (p : Terms K) : Except PyErr (Terms K) :=
  if p.isEmpty then .ok p
  else match maxMult (sqf p).2 with
    | .error e => .error e
    | .ok _ => .ok ((stdEqPoly (sqf p).1 (sqf p).2).2.foldl pmul (pconst n ((stdEqPoly (sqf p).1 (sqf p).2).1 : K)))

/-- `[f(x) for x in l]` for a function that may raise. -/
def mapExcept {α β : Type*} (f : α → Except PyErr β) : List α → Except PyErr (List β)
  | [] => .ok []
  | a :: l => match f a with
    | .error e => .error e
    | .ok b => match mapExcept f l with
      | .error e => .error e
      | .ok bs => .ok (b :: bs)

/-- One item of the dictionary of equalities (shared.py 329-330). -/
def stdEqItem {K E : Type*} [Ring K] [LinearOrder K] (n : ℕ) (sqf : Terms K → K × List (Terms K × ℕ)) (c : Terms K × E) : Except PyErr (Terms K × E) :=
  match stdEqTerms n sqf c.1 with
  | .error e => .error e
  | .ok q => .ok (q, c.2)

/-- The problem given to the solver (shared.py 290-331): homogenised, constraints normalised, constant constraints dropped.  The
expressions attached to the constraints are not tracked here (see `stdIneqExpr`, `stdEqExpr`). -/
def sanitize {K E : Type*} [Ring K] [LinearOrder K] (tExpr : E) (sqf : Terms K → K × List (Terms K × ℕ)) (P : Problem K E) :
    Except PyErr (Problem K E × Bool) :=
  let H := homogenizeProblem tExpr P
  let n := H.1.n
  let ineqs := dictOf (H.1.ineqs.map fun c => (stdIneqTerms n sqf c.1, c.2))
  match mapExcept (stdEqItem n sqf) H.1.eqs with
  | .error e => .error e
  | .ok eqs => .ok (⟨n, H.1.poly, ineqs.filter (fun c => decide (MonoMgr.totalDegree n c.1 > 0)),
      (dictOf eqs).filter fun c => decide (MonoMgr.totalDegree n c.1 > 0)⟩, H.2)

end Verif.Shared
