import Verif.Model.Coeff
import Verif.Model.Congruence
import Mathlib.Algebra.BigOperators.Group.List.Basic

/-!
# Model of `triples/core/structsos/sparse.py`

Polynomials are `Coeff` dictionaries.  A solution expression is represented by its value as a function of the
point (`List K → K`) or by the data from which the expression is built.
-/

namespace Verif.Sparse

section
variable {K : Type*} [Field K] [LinearOrder K]

/-! ## sos_struct_quadratic -/

/-- The inner loop over the exponents of one monomial (sparse.py 100-111), starting at variable `i` with the
indices collected so far; `none` is `return None`.  Note that exponent 2 overwrites the collected indices and
breaks without looking at the remaining exponents. -/
def scanExps : ℕ → List ℕ → List ℕ → Option (List ℕ)
  | _, inds, [] => some inds
  | i, inds, e :: es =>
    if e > 2 then none
    else if e = 2 then some [i, i]
    else if e = 1 then (if inds.length = 2 then none else scanExps (i + 1) (inds ++ [i]) es)
    else scanExps (i + 1) inds es

/-- Completing the index list with the constant (sparse.py 112-115). -/
def toPos (n : ℕ) : List ℕ → ℕ × ℕ
  | [] => (n, n)
  | [a] => (a, n)
  | a :: b :: _ => (a, b)

/-- The matrix position of a monomial (sparse.py 99-115); `n` is the index of the constant. -/
def monomPos (n : ℕ) (k : List ℕ) : Option (ℕ × ℕ) := (scanExps 0 [] k).map (toPos n)

/-- One assignment into the matrix (sparse.py 116-120). -/
def setEntry (mat : ℕ → ℕ → K) (p : ℕ × ℕ) (v : K) : ℕ → ℕ → K :=
  if p.1 = p.2 then fun r c => if r = p.1 ∧ c = p.1 then v else mat r c
  else fun r c => if (r = p.1 ∧ c = p.2) ∨ (r = p.2 ∧ c = p.1) then v / 2 else mat r c

/-- The loop over the terms (sparse.py 98-120); `none` is `return None`. -/
def quadMat (n : ℕ) : List (List ℕ × K) → (ℕ → ℕ → K) → Option (ℕ → ℕ → K)
  | [], mat => some mat
  | (k, v) :: l, mat =>
    match monomPos n k with
    | none => none
    | some p => quadMat n l (setEntry mat p v)

/-- `sos_struct_quadratic` (sparse.py 92-126): the rows `U` and weights `S` of the returned expression
`Σ S[i] (U[i,:] * (gens, 1))²`. -/
def sosQuadratic (c : Coeff K) : Except PyErr (Option ((ℕ → ℕ → K) × (ℕ → K))) :=
  match quadMat c.nvars c.coeffs (fun _ _ => 0) with
  | none => .ok none
  | some mat => congruence (c.nvars + 1) mat

/-! ## sos_struct_linear -/

/-- The expression returned by `sos_struct_linear`. -/
inductive LinSol (K : Type*) where
  | const (c : K)                       -- sparse.py 69-70
  | cyc (common constant : K)           -- common * CyclicSum(gens[0], gens) + constant, 82-87
  | poly (terms : List (List ℕ × K))    -- poly.as_expr(), 89

/-- Exponent tuple of the variable `i`. -/
def unitVec (n i : ℕ) : List ℕ := (List.range n).map fun j => if j = i then 1 else 0

/-- `for gen in poly.gens: v = coeff; if common is not None and v != common: break` (sparse.py 77-82);
`none` means the loop was left by `break`. -/
def commonCoeff (c : Coeff K) : List ℕ → Option K → Option (Option K)
  | [], common => some common
  | i :: is, common =>
    let v := c.call (unitVec c.nvars i)
    match common with
    | some w => if v ≠ w then none else commonCoeff c is (some v)
    | none => commonCoeff c is (some v)

/-- `sos_struct_linear` (sparse.py 59-89) for a polynomial over a numerical domain.  The zero polynomial has
`coeffs() == [0]`. -/
def sosLinear (c : Coeff K) : Option (LinSol K) :=
  let d := (c.coeffs.map fun kv => kv.1.sum).foldl max 0
  if d > 1 then none
  else
    let cs := if c.coeffs.isEmpty then [0] else c.coeffs.map (·.2)
    if d = 0 ∧ 0 ≤ cs.headD 0 then some (.const (cs.headD 0))
    else if ¬ (cs.all fun v => decide (0 ≤ v)) then none
    else
      match commonCoeff c (List.range c.nvars) none with
      | some (some common) => some (.cyc common (c.call (List.replicate c.nvars 0)))
      | some none => some (.poly c.coeffs)     -- no generators; does not occur
      | none => some (.poly c.coeffs)

/-! ## Wrappers -/

/-- A solver: receives the `real` flag (`none` = not passed) and a polynomial, and returns the value of its
solution as a function of the point. -/
abbrev Solver (K : Type*) := Option Bool → Coeff K → Option (List K → K)

/-- `Σ` of exponents as the multiplier `x^e` (sparse.py 40-43; the `CyclicProduct` form has the same value). -/
def monomVal (e : List ℕ) (x : List K) : K := (List.zipWith (fun i y => y ^ i) e x).prod

/-- `sos_struct_extract_factors` (sparse.py 19-56).  The last call does not pass `real` on. -/
def extractFactors (solver : Solver K) (real : Bool) (c : Coeff K) : Option (List K → K) :=
  let (monoms, c1) := c.cancelAbc
  if monoms.any (fun i => decide (i > 0)) then
    match solver (some (real && monoms.all fun i => i % 2 == 0)) c1 with
    | some sol => some fun x => monomVal monoms x * sol x
    | none => none
  else
    let (i, c2) := c.cancelK
    if i > 1 then
      match solver (some (if i % 2 = 0 then false else real)) c2 with
      | some sol => some fun x => sol (x.map (· ^ i))
      | none => none
    else solver none c

/-- What a structural solver can do: return, or raise one of the two exceptions that are caught. -/
inductive Outcome (σ : Type*) where
  | ret (s : Option σ)
  | unsolvable            -- PolynomialUnsolvableError
  | nonpositive           -- PolynomialNonpositiveError

/-- `_wrapped_solver` of `sos_struct_common` (sparse.py 133-148): first solution wins; `Unsolvable` moves on to
the next solver (keeping the previous result `None`), `Nonpositive` gives up. -/
def wrapped {σ : Type*} : List (Unit → Outcome σ) → Option σ
  | [] => none
  | f :: fs =>
    match f () with
    | .ret (some s) => some s
    | .ret none => wrapped fs
    | .unsolvable => wrapped fs
    | .nonpositive => none

/-- `sos_struct_common` (sparse.py 129-152). -/
def sosCommon (solvers : List (Option Bool → Coeff K → Outcome (List K → K))) (real : Bool) (c : Coeff K) :
    Option (List K → K) :=
  extractFactors (fun r c => wrapped (solvers.map fun f => fun _ => f r c)) real c

/-- `sos_struct_degree_specified_solver` (sparse.py 156-176) for homogeneous input: the solver registered for the
degree, else the linear or quadratic default, else a solver that returns `None`. -/
def degreeSpecified {σ : Type*} (table : ℕ → Option σ) (linear quadratic null : σ) (degree : ℕ) : σ :=
  match table degree with
  | some s => s
  | none => if degree = 1 then linear else if degree = 2 then quadratic else null

end
end Verif.Sparse
