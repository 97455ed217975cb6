import Verif.Model.Congruence
import Verif.Model.LinSOS
import Verif.Model.Shared
import Verif.Basic.Terms

/-!
# Model of triples/core/sdpsos/sdpsos.py and solution.py

A polynomial is the list of its terms; `baseOf M` is `symmetry.base()` (monomials.py 144-150).  Matrices are functions on indices; a vector of unknowns is a list.  The numerical SDP solver, the
rounding and the elimination (`solve_csr_linear`) are one parameter that returns a vector of unknowns.
-/

namespace Verif.SdpSOS

open Verif TermsPoly MonoMgr Shared
open Verif.LinSOS (combos)

variable {K : Type*}

/-- Loop body of `mapping` (sdpsos.py 36-41, 47-52). -/
def mapStep (d : List (List ℕ × ℕ)) (acc : Option ℕ × ℕ) (p : List ℕ) : Option ℕ × ℕ :=
  match dget d p with
  | some i => (some i, acc.2 + 1)
  | none => acc

/-- `mapping` of `_define_mapping` (sdpsos.py 21-55), as a function of the product monomial. -/
def mapping (M : MonoMgr) (degree : ℕ) (monom : List ℕ) : Option ℕ × ℕ :=
  (M.permute monom).foldl (mapStep (M.dictMonoms degree)) (none, 0)

/-- `contribution[key] += v` for a `defaultdict` of zeros (sdpsos.py 95, 111). -/
def accum {κ : Type*} [DecidableEq κ] [AddMonoid K] (d : List (κ × K)) (k : κ) (v : K) : List (κ × K) := dset d k ((dget d k).getD 0 + v)

/-- Innermost loop body (sdpsos.py 109-112, 139-141). -/
def contribStep [Semiring K] (M : MonoMgr) (degree cur : ℕ) (t : List ℕ × K) (d : List ((Option ℕ × ℕ) × K)) (pk : List ℕ × ℕ) :
    List ((Option ℕ × ℕ) × K) :=
  let r := mapping M degree (List.zipWith (· + ·) t.1 pk.1)
  accum d (r.1, cur + pk.2) ((r.2 : K) * t.2)

/-- The dictionary `contribution` of one constraint (sdpsos.py 95-112, 130-141): `prods` lists the products of monomials in the order of the
columns, `cur` is the index of the first column. -/
def contribution [Semiring K] (M : MonoMgr) (degree cur : ℕ) (prods : List (List ℕ)) (terms : List (List ℕ × K)) : List ((Option ℕ × ℕ) × K) :=
  terms.foldl (fun d t => prods.zipIdx.foldl (contribStep M degree cur t) d) []

/-- `eq_list[row].append((col, v))` (sdpsos.py 113-114, 142-143); `eq_list[None]` raises `TypeError`. -/
def place (rows : List (List (ℕ × K))) : List ((Option ℕ × ℕ) × K) → Except PyErr (List (List (ℕ × K)))
  | [] => .ok rows
  | ((none, _), _) :: _ => .error .typeError
  | ((some r, c), v) :: l => place (rows.set r (rows.getD r [] ++ [(c, v)])) l

/-- The monomials of the half degree and their products in the order of the loops (sdpsos.py 99-112). -/
def halfProds (M : MonoMgr) (d : ℕ) : List (List ℕ) :=
  ((baseOf M).invMonoms d).flatMap fun u => ((baseOf M).invMonoms d).map fun w => List.zipWith (· + ·) u w

/-- The state of the loops of `_form_sdp`: rows, next column, `splits_ineq`, `splits_eq`. -/
structure FormState (K : Type*) where
  rows : List (List (ℕ × K))
  cnt : ℕ
  splitsIneq : List (List (List ℕ × K) × ℕ)
  splitsEq : List (List (List ℕ × K) × ℕ)

/-- One inequality (sdpsos.py 88-114). -/
def ineqStep [Semiring K] [DecidableEq K] (M : MonoMgr) (degree : ℕ) (s : FormState K) (g : List (List ℕ × K)) : Except PyErr (FormState K) :=
  let d := totalDegree M.nvars g
  if d > degree ∨ (degree - d) % 2 ≠ 0 then .error .valueError
  else
    let k := ((baseOf M).invMonoms ((degree - d) / 2)).length
    match place s.rows (contribution M degree s.cnt (halfProds M ((degree - d) / 2)) (repTerms M.nvars g)) with
    | .error e => .error e
    | .ok rows => .ok { s with rows := rows, cnt := s.cnt + k * k, splitsIneq := dset s.splitsIneq g k }

/-- One equality (sdpsos.py 120-143); an equality of too large a degree is skipped. -/
def eqStep [Semiring K] [DecidableEq K] (M : MonoMgr) (degree : ℕ) (s : FormState K) (h : List (List ℕ × K)) : Except PyErr (FormState K) :=
  let d := totalDegree M.nvars h
  if d > degree then .ok s
  else
    let vec := (baseOf M).invMonoms (degree - d)
    match place s.rows (contribution M degree s.cnt vec (repTerms M.nvars h)) with
    | .error e => .error e
    | .ok rows => .ok { s with rows := rows, cnt := s.cnt + vec.length, splitsEq := dset s.splitsEq h vec.length }

/-- The linear system of `_form_sdp` (sdpsos.py 74-145). -/
def formEqs [Semiring K] [DecidableEq K] (M : MonoMgr) (degree : ℕ) (ineqs eqs : List (List (List ℕ × K))) : Except PyErr (FormState K) :=
  (ineqs.foldlM (ineqStep M degree) ⟨List.replicate (M.dictMonoms degree).length [], 0, [], []⟩).bind fun s => eqs.foldlM (eqStep M degree) s

/-- The left-hand side of a row. -/
def rowDot [Semiring K] (row : List (ℕ × K)) (x : List K) : K := (row.map fun e => e.2 * x.getD e.1 0).sum

/-! ### Equal entries -/

/-- `Coeff(poly).is_symmetric(group)` (coeff.py 98-115), over the elements instead of the generators (equivalent by C08). -/
def isSymmetric [Zero K] [DecidableEq K] (M : MonoMgr) (f : List (List ℕ × K)) : Bool :=
  M.elements.all fun g => f.all fun t => decide (coeffAt' f (papply g t.1) = t.2)
where
  /-- `self.call(monom)` (coeff.py 57-59). -/
  coeffAt' (f : List (List ℕ × K)) (m : List ℕ) : K := (dget f m).getD 0

/-- The images of an entry under the group (sdpsos.py 191-197); all monomials have the same degree, so `get` never fails. -/
def images (M : MonoMgr) (dict : List (List ℕ × ℕ)) (n off : ℕ) (m1 m2 : List ℕ) : List ℕ :=
  (List.zip (M.permute m1) (M.permute m2)).flatMap fun p => match dget dict p.1, dget dict p.2 with
    | some i, some j => [i * n + j + off, j * n + i + off]
    | _, _ => []

/-- The groups of equal entries of one inequality (sdpsos.py 172-199).  A Python set is a list here. -/
def ineqGroups [Zero K] [DecidableEq K] (M : MonoMgr) (degree off : ℕ) (g : List (List ℕ × K)) : List (List ℕ) :=
  let d := (degree - totalDegree M.nvars g) / 2
  let vec := (baseOf M).invMonoms d
  let n := vec.length
  if !isSymmetric M g then
    (List.range n).flatMap fun i => ((List.range n).filter fun j => decide (i < j)).map fun j => [i * n + j + off, j * n + i + off]
  else
    vec.zipIdx.flatMap fun p => if !M.isStandardMonom p.1 then [] else
      (vec.zipIdx.filter fun q => decide (p.2 ≤ q.2)).map fun q =>
        [p.2 * n + q.2 + off, q.2 * n + p.2 + off] ++ images M ((baseOf M).dictMonoms d) n off p.1 q.1

/-- The groups of equal entries of one equality (sdpsos.py 201-218). -/
def eqGroups [Zero K] [DecidableEq K] (M : MonoMgr) (degree off : ℕ) (h : List (List ℕ × K)) : List (List ℕ) :=
  let d := degree - totalDegree M.nvars h
  let vec := (baseOf M).invMonoms d
  if !isSymmetric M h then []
  else vec.zipIdx.flatMap fun p => if !M.isStandardMonom p.1 then [] else
    [(p.2 + off) :: (M.permute p.1).filterMap fun m => (dget ((baseOf M).dictMonoms d) m).map (· + off)]

/-- `_get_equal_entries` (sdpsos.py 166-220): inequalities. -/
def equalIneqs [Zero K] [DecidableEq K] (M : MonoMgr) (degree : ℕ) : ℕ → List (List (List ℕ × K)) → List (List ℕ) × ℕ
  | off, [] => ([], off)
  | off, g :: l =>
    if totalDegree M.nvars g > degree ∨ (degree - totalDegree M.nvars g) % 2 ≠ 0 then equalIneqs M degree off l
    else
      let n := ((baseOf M).invMonoms ((degree - totalDegree M.nvars g) / 2)).length
      let r := equalIneqs M degree (off + n * n) l
      (ineqGroups M degree off g ++ r.1, r.2)

/-- `_get_equal_entries` (sdpsos.py 166-220): equalities. -/
def equalEqs [Zero K] [DecidableEq K] (M : MonoMgr) (degree : ℕ) : ℕ → List (List (List ℕ × K)) → List (List ℕ)
  | _, [] => []
  | off, h :: l =>
    if totalDegree M.nvars h > degree then equalEqs M degree off l
    else eqGroups M degree off h ++ equalEqs M degree (off + ((baseOf M).invMonoms (degree - totalDegree M.nvars h)).length) l

/-- `_get_equal_entries` (sdpsos.py 166-220). -/
def equalEntries [Zero K] [DecidableEq K] (M : MonoMgr) (degree : ℕ) (ineqs eqs : List (List (List ℕ × K))) : List (List ℕ) :=
  let r := equalIneqs M degree 0 ineqs
  r.1 ++ equalEqs M degree r.2 eqs

/-! ### The solution -/

/-- `SDPProblem.from_full_x0_and_space` (sdp/dual.py 142-151) at a vector of unknowns: consecutive pieces of `n**2` entries, read as matrices
by rows. -/
def blocks [Zero K] : ℕ → List (List (List ℕ × K) × ℕ) → List K → List (List (List ℕ × K) × ℕ × (ℕ → ℕ → K))
  | _, [], _ => []
  | start, (g, n) :: l, x => (g, n, fun i j => x.getD (start + i * n + j) 0) :: blocks (start + n * n) l x

/-- `eq_vec` (sdpsos.py 157-163); `splits_eq[eq]` raises `KeyError` for a skipped equality. -/
def eqVecs [DecidableEq K] (splitsEq : List (List (List ℕ × K) × ℕ)) : ℕ → List (List (List ℕ × K)) → List K →
    Except PyErr (List (List (List ℕ × K) × List K))
  | _, [], _ => .ok []
  | start, h :: l, x => match dget splitsEq h with
    | none => .error .keyError
    | some s => (eqVecs splitsEq (start + s) l x).map fun r => (h, (x.drop start).take s) :: r

/-- A solution before printing: for each inequality the size, `U` and `S` of the decomposition, and for each equality its vector. -/
structure Decomp (K : Type*) where
  psd : List (List (List ℕ × K) × ℕ × (ℕ → ℕ → K) × (ℕ → K))
  free : List (List (List ℕ × K) × List K)

/-- The decompositions of all matrices (abstract.py 154-162); `none` when one is not positive semidefinite. -/
def decompose [Field K] [LinearOrder K] : List (List (List ℕ × K) × ℕ × (ℕ → ℕ → K)) →
    Except PyErr (Option (List (List (List ℕ × K) × ℕ × (ℕ → ℕ → K) × (ℕ → K))))
  | [] => .ok (some [])
  | (g, n, A) :: l => match congruence n A with
    | .error e => .error e
    | .ok none => .ok none
    | .ok (some (U, S)) => match decompose l with
      | .error e => .error e
      | .ok none => .ok none
      | .ok (some r) => .ok (some ((g, n, U, S) :: r))

/-- `poly.is_homogeneous` (SymPy). -/
def isHomogeneous (n : ℕ) [Zero K] (f : List (List ℕ × K)) : Bool := f.all fun t => decide (t.1.sum = totalDegree n f)

/-- `SOSProblem(poly, symmetry)`, `construct`, `solve`, `as_solution` (sdpsos.py 267-422).  `solve` receives the rows and sizes, the groups
of equal entries and the right-hand side and returns a vector of unknowns (`solve_csr_linear`, facial reduction, the numerical solver and the rounding). -/
def sosProblem [Field K] [LinearOrder K] (M : MonoMgr) (f : List (List ℕ × K)) (ineqs eqs : List (List (List ℕ × K)))
    (solve : FormState K → List (List ℕ) → List K → Option (List K)) : Except PyErr (Option (Decomp K)) :=
  if !isHomogeneous M.nvars f then .error .valueError
  else if !isSymmetric M f then .error .valueError
  else if !(ineqs.all (isHomogeneous M.nvars) && eqs.all (isHomogeneous M.nvars)) then .error .valueError
  else match formEqs M (totalDegree M.nvars f) ineqs eqs with
    | .error e => .error e
    | .ok s => match solve s (equalEntries M (totalDegree M.nvars f) ineqs eqs) (M.arraylize f false) with
      | none => .ok none
      | some x => match decompose (blocks 0 s.splitsIneq x) with
        | .error e => .error e
        | .ok none => .ok none
        | .ok (some psd) =>
          match eqVecs s.splitsEq ((s.splitsIneq.map fun e => e.2 * e.2).sum) eqs x with
          | .error e => .error e
          | .ok free => .ok (some ⟨psd, free⟩)

/-! ### The quadratic module -/

/-- `degree_filter` (sdpsos.py 434-436). -/
def degreeOk [Zero K] (n degree : ℕ) (p : List (List ℕ × K)) : Bool :=
  decide (totalDegree n p ≤ degree) && decide ((degree - totalDegree n p) % 2 = 0)

/-- `ineq.is_linear` (SymPy): all monomials have degree at most one. -/
def isLinear (p : List (List ℕ × K)) : Bool := p.all fun t => decide (t.1.sum ≤ 1)

/-- The products added for the combinations of `k` linear constraints (sdpsos.py 459-471).  A pair is a polynomial and its expression; the
expression of a product is the product of the expressions. -/
def additions [Semiring K] [DecidableEq K] {E : Type*} [Monoid E] (n degree : ℕ) (linear nonlin : List (List (List ℕ × K) × E)) (k : ℕ) :
    List (List (List ℕ × K) × E) :=
  (combos k linear).flatMap fun comb =>
    let mul := pprod n (comb.map Prod.fst)
    if totalDegree n mul > degree then []
    else (nonlin.filter fun q => decide (totalDegree n mul + totalDegree n q.1 ≤ degree) &&
      decide ((degree - (totalDegree n mul + totalDegree n q.1)) % 2 = 0)).map fun q => (pmul mul q.1, (comb.map Prod.snd).prod * q.2)

/-- The loop over the number of linear factors (sdpsos.py 457-474): the lists yielded on the way and the final list. -/
def extend [Semiring K] [DecidableEq K] {E : Type*} [Monoid E] (n degree : ℕ) (linear nonlin : List (List (List ℕ × K) × E)) :
    List ℕ → List (List (List ℕ × K) × E) → List (List (List (List ℕ × K) × E)) × List (List (List ℕ × K) × E)
  | [], q => ([], q)
  | k :: ks, q =>
    let a := additions n degree linear nonlin k
    let r := extend n degree linear nonlin ks (q ++ a)
    (if a = [] then r.1 else (q ++ a) :: r.1, r.2)

/-- `_get_qmodule_list` (sdpsos.py 425-477) as the list of what it yields.  The argument is `dict.items()` (sdpsos.py 590), which cannot be added to
a list (line 440). -/
def qmoduleList [Semiring K] [DecidableEq K] {E : Type*} [Monoid E] (n degree : ℕ) (ineqs : List (List (List ℕ × K) × E)) (withTrivial : Bool)
    (preordering : String) : Except PyErr (List (List (List (List ℕ × K) × E))) :=
  if preordering ∉ ["none", "linear", "linear-progressive"] then .error .valueError
  else if preordering = "none" then
    if withTrivial then .error .typeError
    else .ok [ineqs.filter fun p => degreeOk n degree p.1]
  else
    let linear := ineqs.filter fun p => isLinear p.1
    let nonlin := (pconst n 1, 1) :: ineqs.filter fun p => !isLinear p.1
    let q := (if withTrivial then nonlin else nonlin.tail).filter fun p => degreeOk n degree p.1
    let r := extend n degree linear nonlin ((List.range linear.length).map (· + 1)) q
    if preordering = "linear-progressive" then .ok (q :: r.1) else .ok [r.2]

/-! ### The solver -/

/-- The loop of `_SDPSOS` (sdpsos.py 594-629): exceptions are caught and the next list is tried. -/
def tryLists [Field K] [LinearOrder K] {E : Type*} (M : MonoMgr) (f : List (List ℕ × K)) (eqs : List (List (List ℕ × K)))
    (solve : FormState K → List (List ℕ) → List K → Option (List K)) : List (List (List (List ℕ × K) × E)) → Option (List (List (List ℕ × K) × E) × Decomp K)
  | [] => none
  | q :: qs =>
    let q := clearPolys M q
    if q = [] ∧ eqs = [] then tryLists M f eqs solve qs
    else match sosProblem M f (q.map Prod.fst) eqs solve with
      | .error _ => tryLists M f eqs solve qs
      | .ok none => tryLists M f eqs solve qs
      | .ok (some r) => some (q, r)

/-- `_SDPSOS` (sdpsos.py 565-631).  The test of the coefficient domain is omitted (the model has exact numbers only). -/
def sdpSOS [Field K] [LinearOrder K] {E : Type*} [Monoid E] (M : MonoMgr) (f : List (List ℕ × K)) (ineqs : List (List (List ℕ × K) × E))
    (eqs : List (List (List ℕ × K))) (withTrivial : Bool) (preordering : String) (degreeLimit : ℕ)
    (solve : FormState K → List (List ℕ) → List K → Option (List K)) : Except PyErr (Option (List (List (List ℕ × K) × E) × Decomp K)) :=
  let degree := totalDegree M.nvars f
  if degree > degreeLimit ∨ degree < 1 ∨ M.nvars < 1 then .ok none
  else if !isHomogeneous M.nvars f || !isSymmetric M f then .error .valueError
  else match qmoduleList M.nvars degree ineqs withTrivial preordering with
    | .error e => .error e
    | .ok qs => .ok (tryLists M f eqs solve qs)

end Verif.SdpSOS
