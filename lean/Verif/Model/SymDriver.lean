import Verif.Model.SymSOS
import Verif.Model.Extract

/-!
# Model of the whole of `SymmetricSOS` (triples/core/symsos/symsos.py 59-111): the answer as an expression, and its last check
-/

namespace Verif.SymSOS

open Verif TermsPoly MonoMgr Shared Extract

variable {K : Type*} [Field K] [LinearOrder K]

/-- `CyclicSum(e, (a,b,c))` and `CyclicProduct(e, (a,b,c))`; `a`, `b`, `c` are the symbols 0, 1, 2. -/
def cSum (e : Ex K) : Ex K := .cyc false e [0, 1, 2] [[0, 1, 2], [1, 2, 0], [2, 0, 1]]
def cProd (e : Ex K) : Ex K := .cyc true e [0, 1, 2] [[0, 1, 2], [1, 2, 0], [2, 0, 1]]

/-- `e - f`. -/
def subE (e f : Ex K) : Ex K := .add [e, .mul [.const (-1), f]]

/-- `_SCHUR` (symmetric.py 69, 84). -/
def schurE : Ex K :=
  .mul [.const (1 / 2),
    .add [cSum (.mul [.pow (subE (.sym 1) (.sym 2)) 2, .pow (subE (.add [.sym 1, .sym 2]) (.sym 0)) 2]),
      .mul [.const 2, cSum (.mul [.sym 1, .sym 2, .pow (subE (.sym 1) (.sym 2)) 2])]],
    .pow (cSum (.sym 0)) (-1)]

/-- `CyclicSum(a*(b-c)**2, (a,b,c))` (symmetric.py 70, 87). -/
def posYE : Ex K := cSum (.mul [.sym 0, .pow (subE (.sym 1) (.sym 2)) 2])

/-- `CyclicProduct((a-b)**2, (a,b,c))`. -/
def discE : Ex K := cProd (.pow (subE (.sym 0) (.sym 1)) 2)

/-- `CyclicSum((a-b)**2, (a,b,c))`. -/
def sqE : Ex K := cSum (.pow (subE (.sym 0) (.sym 1)) 2)

/-- `get_inv_dict` (symmetric.py 80-89 and 170-179): the expressions for `x`, `y`, `z`; other symbols do not occur. -/
def invE : Method → ℕ → Ex K
  | .real, 0 => .mul [.const (1 / 2), cSum (.sym 0), sqE]
  | .real, 1 => .mul [.const (1 / 2), cProd (.add [.mul [.const 2, .sym 0], .mul [.const (-1), .sym 1], .mul [.const (-1), .sym 2]])]
  | .real, 2 => .mul [.const (27 / 4), discE]
  | .positive, 0 => schurE
  | .positive, 1 => posYE
  | .positive, 2 => .mul [discE, .pow (cSum (.sym 0)) 3, .pow (cProd (.sym 0)) (-1)]
  | _, _ => .const 0

/-- `w0` (symmetric.py 70, 251). -/
def wE : Method → Ex K
  | .real => .mul [.const (1 / 2), sqE]
  | .positive => .mul [schurE, .pow posYE 2, .pow (cProd (.sym 0)) (-1)]

/-- `xreplace` of the new symbols (basic.py 25-28) in the answer of `prove_by_pivoting`.  `bEx m b h` is the answer `b` of
`structural_sos_2vars` after the replacement (and after that of the homogenizer `h`). -/
def toEx {β : Type*} (bEx : Method → β → Option ℕ → Ex K) (m : Method) : PivE β K → Ex K
  | .num c => .const c
  | .ext b h => bEx m b h
  | .zero => .add []
  | .addTerm s g k r => .add [.mul [toEx bEx m s, .pow (invE m g) (k : ℚ)], toEx bEx m r]

/-- `sym_representation_inv(numerator / denominator)` (symsos.py 79-81); SymPy may order and merge factors. -/
def symExpr {β : Type*} (bEx : Method → β → Option ℕ → Ex K) (s : SymAns β K) : Ex K :=
  .mul [toEx bEx s.method s.num, .pow (cSum (.sym 0)) ((-s.pdeg : ℤ) : ℚ), .pow (wE s.method) ((-s.wdeg : ℤ) : ℚ)]

/-- `methods` (symsos.py 65-68), with `_nonnegative_vars` (13-21): the constraints are given by symbol, degree and leading
coefficient if they are monomials in one symbol. -/
def symMethods (cons : List (MonoCon K)) : List Method :=
  if [0, 1, 2].all fun g => cons.any fun c => c.sym == g && c.deg == 1 && decide (0 ≤ c.lc) then [.real, .positive] else [.real]

/-- The loop over the methods (symsos.py 72-111).  `mono` are the constraints that are monomials in one symbol, `cons` the
`p, q, r` forms of the symmetric constraints, `f` that of the polynomial. -/
def symLoop {β : Type*} (S : Sem K) (expandOk : Ex K → Bool) (A : Arith K) (biv : List ℕ → Terms K → List ℕ → Option β)
    (bEx : Method → β → Option ℕ → Ex K) (fresh : ℕ → ℕ) (n : ℕ) (mono : List (MonoCon K)) (cons : List (Terms K)) (f : Terms K) :
    List Method → Option (Ex K)
  | [] => none
  | m :: ms =>
    match symMethod A biv fresh n cons f m with
    | none => symLoop S expandOk A biv bEx fresh n mono cons f ms
    | some s =>
      match finish S expandOk mono (symExpr bEx s) with
      | none => symLoop S expandOk A biv bEx fresh n mono cons f ms
      | some r => some r

/-- `SymmetricSOS` (symsos.py 59-111) on a homogeneous symmetric polynomial in three variables. -/
def symmetricSOS {β : Type*} (S : Sem K) (expandOk : Ex K → Bool) (A : Arith K) (biv : List ℕ → Terms K → List ℕ → Option β)
    (bEx : Method → β → Option ℕ → Ex K) (fresh : ℕ → ℕ) (n : ℕ) (mono : List (MonoCon K)) (cons : List (Terms K)) (f : Terms K) :
    Option (Ex K) := symLoop S expandOk A biv bEx fresh n mono cons f (symMethods mono)

end Verif.SymSOS
