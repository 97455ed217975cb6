import Verif.Model.CycExpr
import Verif.Model.Congruence

/-!
# Model of `SolutionSimple` (triples/utils/expression/solution.py 292-546): equality check, fractions and copies

Expressions are those of `Model/CycExpr`.  The SymPy calls `together`, `fraction`, `as_content_primitive`, the evaluating
constructors and `doit().as_poly(*gens).is_zero` are parameters (`Ext`).
-/

namespace Verif.Cyc

/-- SymPy calls used by `SolutionSimple` (solution.py 308-315, 514-535).  `isZero e` is
`e.doit().as_poly(*symbols).is_zero`, with `none` when `as_poly` returns `None`. -/
structure Ext where
  bld : CE → CE
  together : CE → CE
  fraction : CE → CE × CE
  cp : CE → ℚ × CE
  isZero : CE → Option Bool

/-- The attributes of a `SolutionSimple` used here (solution.py 298-305): `problem.as_expr()`, `solution`, `_is_equal`. -/
structure SolS where
  problem : CE
  solution : CE
  isEq : Option Bool

/-- `v, m = e.as_content_primitive(); if v < 0: v, m = -v, -m` (solution.py 520-522, 527-529). -/
def Ext.posContent (x : Ext) (e : CE) : ℚ × CE :=
  let c := x.cp e
  if c.1 < 0 then (-c.1, x.bld (.mul [.num (-1), c.2])) else c

/-- `if isinstance(m, sp.Add): numerator = sp.Add(*[v * arg for arg in m.args])` (solution.py 530-531). -/
def Ext.spread (x : Ext) (c : ℚ × CE) (num : CE) : CE :=
  match c.2 with
  | .add args => x.bld (.add (args.map fun a => x.bld (.mul [.num c.1, a])))
  | _ => num

/-- `as_fraction` (solution.py 514-535): `(numerator, multiplier)`. -/
def Ext.asFraction (x : Ext) (together : Bool) (sol : CE) : CE × CE :=
  let s := if together then x.together sol else sol
  let nm := x.fraction s
  let c := x.posContent nm.2
  let num := x.bld (.mul [.num (1 / c.1), nm.1])
  (x.spread (x.posContent num) num, c.2)

/-- `as_fraction(inplace=True)` (solution.py 533-534) also stores `numerator / multiplier`. -/
def Ext.asFractionInplace (x : Ext) (together : Bool) (s : SolS) : SolS :=
  let nm := x.asFraction together s.solution
  { s with solution := x.bld (.mul [nm.1, x.bld (.pow nm.2 (-1))]) }

/-- `problem * multiplier - numerator` (solution.py 311). -/
def Ext.difference (x : Ext) (s : SolS) : CE :=
  let nm := x.asFraction true s.solution
  x.bld (.add [x.bld (.mul [s.problem, nm.2]), x.bld (.mul [.num (-1), nm.1])])

/-- The property `is_equal` (solution.py 308-315): the answer and the object with the answer stored.  `None.is_zero` is an
`AttributeError`. -/
def Ext.isEqual (x : Ext) (s : SolS) : Except PyErr (Bool × SolS) :=
  match s.isEq with
  | some b => .ok (b, s)
  | none =>
    match x.isZero (x.difference s) with
    | none => .error .attributeError
    | some b => .ok (b, { s with isEq := some b })

/-- `signsimp`, `doit`, `collect`, `rewrite_symmetry`, `xreplace` (solution.py 192-271): a copy of all attributes, the
stored answer of `is_equal` included (`obj.__dict__.update(self.__dict__)`, 115-118), with a rewritten solution. -/
def SolS.rewrite (f : CE → CE) (s : SolS) : SolS := { s with solution := f s.solution }

/-- `dehomogenize` (solution.py 488-512): `psubs` is `problem.subs(homogenizer, 1)`, `dehom` the substitution followed by
`_deflat_perm_group` in the solution. -/
def SolS.dehomogenize (psubs dehom : CE → CE) (s : SolS) : SolS :=
  { s with problem := psubs s.problem, solution := dehom s.solution }

/-- A call on a solution object. -/
inductive SolOp where
  | isEqual
  | asFraction (together inplace : Bool)
  | rewrite (f : CE → CE)
  | dehomogenize (psubs dehom : CE → CE)

/-- The object the caller goes on with: the same object for `is_equal` and `as_fraction`, the copy otherwise. -/
def Ext.step (x : Ext) (s : SolS) : SolOp → Except PyErr SolS
  | .isEqual => (x.isEqual s).map (·.2)
  | .asFraction tog inplace => .ok (if inplace then x.asFractionInplace tog s else s)
  | .rewrite f => .ok (s.rewrite f)
  | .dehomogenize ps d => .ok (s.dehomogenize ps d)

/-- A history of calls. -/
def Ext.runOps (x : Ext) : SolS → List SolOp → Except PyErr SolS
  | s, [] => .ok s
  | s, op :: ops => (x.step s op).bind fun s' => x.runOps s' ops

end Verif.Cyc
