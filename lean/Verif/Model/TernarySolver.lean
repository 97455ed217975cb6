import Verif.Model.TernaryQuintic
import Verif.Model.TernaryAmgm
import Verif.Model.TernaryHeuristic
import Verif.Model.TernaryAcyclic
import Verif.Model.TernaryQuartic
import Verif.Model.TernarySextic
import Verif.Model.TernarySeptic
import Verif.Model.Nonic
import Verif.Model.Extract
import Verif.Model.Sparse

/-!
# Model of the entry point for three variables (structsos/ternary/solver.py 40-129, ternary/acyclic.py 5-18, ternary/sparse.py 15-46) with its wrappers
(structsos/sparse.py 19-56, 129-176) and of the choice of symbols in the quartic solver (ternary/quartic.py 566-648)

The solvers of the single degrees are the models of the other files.  An answer is a `Cert`: the weighted expressions and the denominator.  Exceptions are values.
-/

namespace Verif.Ternary

open Verif Verif.Acute

variable {K : Type*} [Field K] [LinearOrder K]

/-! ### The wrappers -/

/-- An answer given by its value only. -/
def Cert.ofVal (E : Val3 K) : Cert K := .plain [(1, E)]

/-- The monomial `a**i * b**j * c**k` (structsos/sparse.py 39-42; `CyclicProduct(a**i)` has the same value). -/
def mono3 (e : List ℕ) : Val3 K := fun a b c => a ^ e.getD 0 0 * b ^ e.getD 1 0 * c ^ e.getD 2 0

/-- `solution.xreplace({a: a**i, b: b**i, c: c**i})` (structsos/sparse.py 50). -/
def Cert.power (i : ℕ) (C : Cert K) : Cert K :=
  ⟨C.terms.map fun t => (t.1, fun a b c => t.2 (a ^ i) (b ^ i) (c ^ i)), fun a b c => C.den (a ^ i) (b ^ i) (c ^ i)⟩

/-- `_wrapped_solver` of `sos_struct_common` (structsos/sparse.py 133-148).  The solvers are pure, so the list holds their results. -/
def chain3 : List (Except PyErr (Option (Cert K))) → Except PyErr (Option (Cert K))
  | [] => .ok none
  | .ok (some C) :: _ => .ok (some C)
  | .ok none :: rs => chain3 rs
  | .error e :: rs =>
    if e = .custom "PolynomialUnsolvableError" then chain3 rs
    else if e = .custom "PolynomialNonpositiveError" then .ok none
    else .error e

/-- `sos_struct_extract_factors` (structsos/sparse.py 19-56) for three variables.  The last call does not pass `real` on. -/
def extract3 (solver : Option Bool → Coeff K → Except PyErr (Option (Cert K))) (real : Bool) (co : Coeff K) : Except PyErr (Option (Cert K)) :=
  if co.cancelAbc.1.any (fun i => decide (i > 0)) then
    (solver (some (real && co.cancelAbc.1.all fun i => i % 2 == 0)) co.cancelAbc.2).map fun r => r.map (times (mono3 co.cancelAbc.1))
  else if co.cancelK.1 > 1 then
    (solver (some (if co.cancelK.1 % 2 = 0 then false else real)) co.cancelK.2).map fun r => r.map (Cert.power co.cancelK.1)
  else solver none co

/-- An answer of `sos_struct_linear` (structsos/sparse.py 59-89) in three variables. -/
def linCert : Verif.Sparse.LinSol K → Cert K
  | .const v => .plain [(v, fun _ _ _ => 1)]
  | .cyc u v => .plain [(u, fun a b c => a + b + c), (v, fun _ _ _ => 1)]
  | .poly t => .plain (t.map fun e => (e.2, mono3 e.1))

/-- `sos_struct_linear` (structsos/sparse.py 59-89). -/
def linear3 (co : Coeff K) : Option (Cert K) := (Verif.Sparse.sosLinear co).map linCert

/-! ### Cyclic polynomials -/

/-- What the cyclic solvers take from outside: candidates, roots and recursive calls of the single solvers, each for the polynomial at hand. -/
structure CycExt (K : Type*) where
  /-- The bound for the recursion of the solver for two monomials, and the order in which Python goes through the set of classes (ternary/sparse.py 620). -/
  fuel : ℕ
  order : List Mon → List Mon
  /-- `coeff.is_rational` and the candidates of `sos_struct_cubic`. -/
  cubicRat : Coeff K → Bool
  cubicUs : Coeff K → List K
  /-- The parameters of `sos_struct_quartic`. -/
  irr : K → Bool
  quartRat : Coeff K → Bool
  approx : K → K
  quartU : Coeff K → Option K
  quartXs : Coeff K → List K
  /-- The parameters of the solvers of degree 5 to 9. -/
  five : Coeff K → Q5Ext K
  six : Coeff K → SexticExt K
  seven : Coeff K → SepticExt K
  eight : Coeff K → OcticExt K
  nine : Coeff K → NonicExt K
  /-- `sos_struct_dense_symmetric`, the recursive call and `prove_univariate` of `sos_struct_heuristic`. -/
  dense : Coeff K → Option (Val3 K)
  recur : Coeff K → Option (Val3 K)
  prover : List (ℕ × K) → Option (K → K)

/-- `sos_struct_quadratic` on a coefficient table (ternary/quadratic.py 7-19). -/
def quadratic3 (co : Coeff K) : Except PyErr (Option (Cert K)) := .ok (quadratic (co.call [2, 0, 0]) (co.call [1, 1, 0]))

/-- `sos_struct_cubic` on a coefficient table. -/
def cubic3 (X : CycExt K) (co : Coeff K) : Except PyErr (Option (Cert K)) := cubicSolve (X.cubicRat co) (X.cubicUs co) (Cubic.ofCoeff co)

/-- `sos_struct_quartic` on a coefficient table. -/
def quartic3 (X : CycExt K) (co : Coeff K) : Except PyErr (Option (Cert K)) :=
  quarticSolve X.irr (X.quartRat co) X.approx (X.quartU co) (X.quartXs co) (Quartic.ofCoeff co)

/-- `sos_struct_sparse` (ternary/sparse.py 15-46). -/
def sparse3 (X : CycExt K) (co : Coeff K) : Except PyErr (Option (Cert K)) :=
  if 6 < co.coeffs.length then .ok none
  else match co.degree with
    | 0 => .ok (if 0 ≤ co.call [0, 0, 0] then some (.plain [(co.call [0, 0, 0], fun _ _ _ => 1)]) else none)
    | 1 => .ok (if 0 ≤ co.call [1, 0, 0] then some (.plain [(co.call [1, 0, 0], fun a b c => a + b + c)]) else none)
    | 2 => quadratic3 co
    | 3 => cubic3 X co
    | 4 => quartic3 X co
    | _ => (sparseAmgm X.fuel X.order co).map fun r => r.map .ofVal

/-- `sos_struct_degree_specified_solver(SOLVERS)` (ternary/solver.py 23-32, structsos/sparse.py 156-176).  Only the sextic solver reads `real`. -/
def table3 (X : CycExt K) (real : Bool) (co : Coeff K) : Except PyErr (Option (Cert K)) :=
  match co.degree with
  | 1 => .ok (linear3 co)
  | 2 => quadratic3 co
  | 3 => cubic3 X co
  | 4 => quartic3 X co
  | 5 => quintic (X.five co) (Quintic.ofCoeff co)
  | 6 => sexticSolve (X.six co) real (Sextic.ofCoeff co)
  | 7 => septicSolve (X.seven co) (Septic.ofCoeff co)
  | 8 => octicSolve (X.eight co) (Octic.ofCoeff co)
  | 9 => nonicSolve (X.nine co) (Nonic.ofCoeff co)
  | _ => .ok none

/-- The three solvers of `_structural_sos_3vars_cyclic` in their order (ternary/solver.py 53-58); `real` is true by default. -/
def cycChain (X : CycExt K) (real : Option Bool) (co : Coeff K) : Except PyErr (Option (Cert K)) :=
  chain3 [sparse3 X co, table3 X (real.getD true) co, (heuristic X.dense X.recur X.prover co).map fun r => r.map .ofVal]

/-- `_structural_sos_3vars_cyclic` (ternary/solver.py 40-58). -/
def cyclic3 (X : CycExt K) (real : Bool) (co : Coeff K) : Except PyErr (Option (Cert K)) := extract3 (cycChain X) real co

/-! ### Other polynomials -/

/-- The three places of the exponents (ternary/quartic.py 639). -/
def q4Map (k i j : ℕ) : List ℕ := match k with
  | 0 => [i, j, 4 - i - j]
  | 1 => [i, 4 - i - j, j]
  | _ => [4 - i - j, i, j]

/-- The test of the symmetry (ternary/quartic.py 642).  It does not compare the coefficients for `(1, 0)`. -/
def q4Test (co : Coeff K) (k : ℕ) : Bool :=
  [(4, 0), (3, 1), (3, 0), (2, 1), (2, 0)].all fun p => decide (co.call (q4Map k p.1 p.2) = co.call (q4Map k p.2 p.1))

/-- The nine numbers in the order found (ternary/quartic.py 638, 647). -/
def SymQuartic.ofOrder (co : Coeff K) (k : ℕ) : SymQuartic K :=
  let v := fun i j => co.call (q4Map k i j)
  ⟨v 4 0, v 3 1, v 2 2, v 3 0, v 2 1, v 2 0, v 1 0, v 1 1, v 0 0⟩

/-- The names of the symbols (ternary/quartic.py 640): `a b c`, `a c b` or `b c a`. -/
def q4Name : ℕ → Val3 K → Val3 K
  | 0, f => f
  | 1, f => fun a b c => f a c b
  | _, f => fun a b c => f b c a

/-- The names of the symbols in an answer. -/
def Cert.names (k : ℕ) (C : Cert K) : Cert K := ⟨C.terms.map fun t => (t.1, q4Name k t.2), q4Name k C.den⟩

/-- `sos_struct_acyclic_quartic` (ternary/quartic.py 566-798).  `cands` are the numbers `(r00, r01, r11, l)` the searches (688-798) try. -/
def acyclicQuartic (rational : Bool) (cands : SymQuartic K → List (K × K × K × K)) (co : Coeff K) : Except PyErr (Option (Cert K)) :=
  if rational = false then .ok none
  else match [0, 1, 2].find? (q4Test co) with
    | none => .ok none
    | some k =>
      let f := SymQuartic.ofOrder co k
      if f.c004 < 0 then .ok none
      else if f.c004 = 0 ∧ f.c103 ≠ 0 then .ok none
      else (symQuartic f (cands f)).map fun r => r.map (Cert.names k)

/-- What the solvers for polynomials that are not cyclic take from outside. -/
structure AcyExt (K : Type*) where
  sq : K → K
  isRat : K → Bool
  tg : Coeff K → Option K
  ts : Coeff K → List K
  wg : Coeff K → Option K
  ws : Coeff K → List K
  zs : Coeff K → List K
  rational : Coeff K → Bool
  cands : SymQuartic K → List (K × K × K × K)

/-- `sos_struct_acyclic_sparse` (ternary/acyclic.py 5-18). -/
def acySparse (co : Coeff K) : Option (Cert K) :=
  if co.degree = 1 then
    if 0 ≤ co.call [1, 0, 0] ∧ 0 ≤ co.call [0, 1, 0] ∧ 0 ≤ co.call [0, 0, 1] then
      some (.plain [(co.call [1, 0, 0], fun a _ _ => a), (co.call [0, 1, 0], fun _ b _ => b), (co.call [0, 0, 1], fun _ _ c => c)])
    else none
  else none

/-- `sos_struct_degree_specified_solver(SOLVERS_ACYCLIC)` (ternary/solver.py 34-38, structsos/sparse.py 156-176). -/
def acyTable (Y : AcyExt K) (co : Coeff K) : Except PyErr (Option (Cert K)) :=
  match co.degree with
  | 1 => .ok (linear3 co)
  | 2 => acyclicQuadratic (Quad.ofCoeff co)
  | 3 => acyclicCubic Y.sq Y.isRat (Y.tg co) (Y.ts co) (Y.wg co) (Y.ws co) (Y.zs co) co
  | 4 => acyclicQuartic (Y.rational co) Y.cands co
  | _ => .ok none

/-- `_structural_sos_3vars_acyclic` (ternary/solver.py 60-76). -/
def acyclic3 (Y : AcyExt K) (real : Bool) (co : Coeff K) : Except PyErr (Option (Cert K)) :=
  extract3 (fun _ c => chain3 [.ok (acySparse c), acyTable Y c]) real co

/-! ### The entry point -/

/-- `structural_sos_3vars` (ternary/solver.py 78-129).  `cons` are the inequality constraints that are monomials in one symbol, `ncon` is the number of all
constraints, `tree` writes an answer as an expression in the symbols 0, 1, 2.  Whether the polynomial is homogeneous and cyclic (C74) is read off the coefficient table. -/
def structural3 (X : CycExt K) (Y : AcyExt K) (S : Verif.Extract.Sem K) (expandOk : Verif.Extract.Ex K → Bool) (tree : Cert K → Verif.Extract.Ex K)
    (cons : List (Verif.Extract.MonoCon K)) (ncon : ℕ) (co : Coeff K) : Except PyErr (Option (Verif.Extract.Ex K)) :=
  if co.nvars ≠ 3 then .error .valueError
  else if (co.coeffs.all fun kv => kv.1.sum == co.degree) = false then .error .valueError
  else if ncon = 0 ∧ co.degree % 2 = 1 then .ok none
  else match (if co.isCyclicDefault then cyclic3 X true co else acyclic3 Y true co) with
    | .error e => if e = .custom "PolynomialUnsolvableError" ∨ e = .custom "PolynomialNonpositiveError" then .ok none else .error e
    | .ok none => .ok none
    | .ok (some C) => .ok (Verif.Extract.finish S expandOk cons (tree C))

end Verif.Ternary
