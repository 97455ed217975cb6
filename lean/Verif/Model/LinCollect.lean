import Mathlib.Algebra.Field.Basic
import Mathlib.Algebra.Order.Field.Basic
import Verif.Basic.PyDict
import Verif.Model.LinSOS

/-!
# Writing the answer of LinearSOS (`triples/core/linsos/solution.py`)

The solver hands over coefficients and bases; `_collect_constraints` turns them into one expression, sorting the bases
into three groups, pulling equality constraints in front and extracting common factors.
-/

namespace Verif.LinCollect

open Verif

variable {A K : Type*}

/-- An argument of a SymPy product: a base or a power of a base with a natural exponent. Simplified: exponents of the
tangents are naturals, as they are for polynomial expressions (linsos/solution.py 112-124 `is_Pow`, `.base`, `.exp`). -/
inductive Fac (A : Type*)
  | atom (a : A)
  | pow (a : A) (n : ℕ)
  deriving DecidableEq

/-- The expressions that the collecting builds; `cyc` is `symmetry.cyclic_sum` (utils/monomials.py 275-287), `quot` the
division at the end (linsos/solution.py 107, 148), `sym` a symbol of the polynomial. -/
inductive Ex (A K : Type*)
  | num (c : K)
  | sym (i : ℕ)
  | fac (f : Fac A)
  | add (a b : Ex A K)
  | mul (a b : Ex A K)
  | spow (a : Ex A K) (n : ℕ)
  | cyc (e : Ex A K)
  | quot (a b : Ex A K)

/-- `sp.Add(*l)`. The automatic evaluation of SymPy is not modelled, it does not change values. -/
def addAll [Zero K] (l : List (Ex A K)) : Ex A K := l.foldr Ex.add (.num 0)

/-- `sp.Mul(*l)`. -/
def mulAll [One K] (l : List (Ex A K)) : Ex A K := l.foldr Ex.mul (.num 1)

/-- A tangent as SymPy sees it: the rational coefficient and the other arguments (`as_coeff_mul`, solution.py 345). -/
structure Tan (A K : Type*) where
  coeff : K
  args : List (Fac A)

/-- The tangent as an expression. -/
def Tan.expr [One K] (t : Tan A K) : Ex A K := .mul (.num t.coeff) (mulAll (t.args.map Ex.fac))

/-- `sp.Mul(*[s**p for s, p in zip(symbols, base.powers)])` (linsos/solution.py 133, 135; basis.py 104). -/
def monom [One K] (powers : List ℕ) : Ex A K := mulAll (powers.zipIdx.map fun t => Ex.spow (.sym t.2) t.1)

/-- The kinds of bases (basis.py 60-121, updegree.py 11-40): a multiplier, a monomial times a tangent, anything else. -/
inductive Base (A K : Type*)
  | mult (m : Ex A K)
  | tangent (powers : List ℕ) (t : Tan A K)
  | other (e : Ex A K)

/-- `base.as_expr(symbols)` of a basis that is not a multiplier (basis.py 82-83, 103-104). -/
def Base.expr [One K] : Base A K → Ex A K
  | .mult m => m
  | .tangent p t => .mul (monom p) t.expr
  | .other e => e

/-- What is called from SymPy: `together` and `as_content_primitive` (linsos/solution.py 22, 196, 227, 386). -/
structure Ext (A K : Type*) where
  together : Ex A K → Ex A K
  content : Ex A K → K × Ex A K

/-- The multipliers with their coefficients (linsos/solution.py 189-190). -/
def multTerms (yb : List (K × Base A K)) : List (Ex A K) :=
  yb.filterMap fun t => match t.2 with
    | .mult m => some (Ex.mul (.num t.1) m)
    | _ => none

/-- `_collect_multipliers` (linsos/solution.py 152-200). -/
def collectMultipliers [Field K] (E : Ext A K) (yb : List (K × Base A K)) : Ex A K × List (K × Base A K) :=
  let rest := yb.filter fun t => match t.2 with
    | .mult _ => false
    | _ => true
  let c := E.content (addAll (multTerms yb))
  (.cyc c.2, rest.map fun t => (t.1 / c.1, t.2))

/-- The base of an argument (linsos/solution.py 118). -/
def Fac.base : Fac A → A
  | .atom a => a
  | .pow a _ => a

/-- What remains of an argument after one factor has been taken out (linsos/solution.py 121-122). -/
def Fac.less : Fac A → List (Fac A)
  | .atom _ => []
  | .pow a n => [.pow a (n - 1)]

/-- The loop of `has_eq` over the arguments; `pre` are the arguments before (linsos/solution.py 116-124). -/
def hasEqLoop [DecidableEq A] (keys : List A) : List (Fac A) → List (Fac A) → Option (A × List (Fac A))
  | _, [] => none
  | pre, f :: l => if f.base ∈ keys then some (f.base, pre ++ l ++ f.less) else hasEqLoop keys (pre ++ [f]) l

/-- `has_eq` (linsos/solution.py 112-125): the first equality constraint among the arguments and the remaining part. The
coefficient is an argument of its own and is never a constraint. -/
def hasEq [DecidableEq A] (keys : List A) (t : Tan A K) : Option (A × Tan A K) :=
  match hasEqLoop keys [] t.args with
  | none => none
  | some (a, l) => some (a, ⟨t.coeff, l⟩)

/-- `_collect_eq_constraints` (linsos/solution.py 203-239); `isCyc` tells whether the constraint with this expression is
invariant under the group (`Coeff(poly).is_cyclic`). -/
def collectEq [Zero K] (E : Ext A K) (isCyc : A → Bool) (d : List (A × List (Ex A K))) : Ex A K :=
  addAll (d.map fun t =>
    let v := E.together (addAll t.2)
    if isCyc t.1 then Ex.mul (.fac (.atom t.1)) (.cyc v) else .cyc (.mul (.fac (.atom t.1)) v))

/-- `np.all(A >= v)` for one row; `v` is given by the positions of its ones (linsos/solution.py 266, 291). -/
def contains (row : List ℕ) (v : List ℕ) : Bool := v.all fun j => decide (1 ≤ row.getD j 0)

/-- `v @ c` (linsos/solution.py 265). -/
def cost (c : List ℕ) (v : List ℕ) : ℕ := (v.map fun j => c.getD j 0).sum

/-- `(k - 1) * (v @ c)` (linsos/solution.py 266-268). -/
def reward (rows : List (List ℕ)) (c : List ℕ) (v : List ℕ) : ℤ :=
  (((rows.filter fun r => contains r v).length : ℤ) - 1) * (cost c v : ℤ)

/-- `np.argmax`: the first best (linsos/solution.py 269). -/
def argmax (f : List ℕ → ℤ) : List (List ℕ) → Option (List ℕ)
  | [] => none
  | v :: l => match argmax f l with
    | none => some v
    | some w => if f w ≤ f v then some v else some w

/-- `_solve_optimal_factor` (linsos/solution.py 255-273), with `_generate_01_vectors` (242-253): the vectors with `nonzero` ones
are the combinations of positions. -/
def optimalFactor (rows : List (List ℕ)) (c : List ℕ) (m nz : ℕ) : List ℕ :=
  ((List.range (min nz m)).foldl (fun (s : ℤ × List ℕ) i =>
    match argmax (reward rows c) (LinSOS.combos (i + 1) (List.range m)) with
    | none => s
    | some v => if s.1 < reward rows c v then (reward rows c v, v) else s) (0, [])).2

/-- `_solve_optimal_factor_recursively` (linsos/solution.py 275-296); the rows carry their index. -/
def optimalLoop (c : List ℕ) (m nz : ℕ) : ℕ → List (ℕ × List ℕ) → List (List ℕ × List ℕ)
  | 0, rows => [([], rows.map Prod.fst)]
  | it + 1, rows =>
    let v := optimalFactor (rows.map Prod.snd) c m nz
    if v = [] ∨ (rows.filter fun r => contains r.2 v) = [] then [([], rows.map Prod.fst)]
    else (v, (rows.filter fun r => contains r.2 v).map Prod.fst) ::
      optimalLoop c m nz it (rows.filter fun r => !contains r.2 v)

/-- Step 1 of `_collect_ineq_constraints` (linsos/solution.py 341-350): the coefficient moves to the expression, a tangent with
a negative coefficient moves as a whole. -/
def normal [Ring K] [LinearOrder K] (t : Tan A K × Ex A K) : List (Fac A) × Ex A K :=
  if t.1.coeff < 0 then ([], .mul t.1.expr t.2)
  else (t.1.args, .mul (.num t.1.coeff) t.2)

/-- Step 3: how often each factor occurs (linsos/solution.py 362-366). -/
def degreeRow [DecidableEq A] (factors : List (Fac A)) (args : List (Fac A)) : List ℕ := factors.map fun f => args.count f

/-- Step 5 (linsos/solution.py 374-394). -/
def group [Ring K] (E : Ext A K) (factors : List (Fac A)) (degrees : List (List ℕ)) (te : List (List (Fac A) × Ex A K))
    (g : List ℕ × List ℕ) : List (Ex A K) :=
  let at' := fun i => te.getD i ([], .num 0)
  if g.1 ≠ [] then
    let common : Ex A K := mulAll (((List.range factors.length).filter fun j => decide (j ∈ g.1)).filterMap fun j => (factors[j]?).map Ex.fac)
    let others := g.2.map fun i =>
      Ex.mul (mulAll (((List.range factors.length).filter fun j =>
        decide (0 < (((degrees.getD i []).getD j 0 : ℕ) : ℤ) - (if j ∈ g.1 then 1 else 0))).filterMap fun j => (factors[j]?).map Ex.fac)) (at' i).2
    [.cyc (.mul common (E.together (addAll others)))]
  else g.2.map fun i => .cyc (.mul (mulAll ((at' i).1.map Ex.fac)) (at' i).2)

/-- `_collect_ineq_constraints` (linsos/solution.py 298-396). `order` is the list made from the Python set of factors, whose
order is arbitrary; `complexity` is the operation count of a factor after the cut offs (359-361). -/
def collectIneq [Ring K] [LinearOrder K] [DecidableEq A] (E : Ext A K) (order : List (Fac A) → List (Fac A)) (ineqs : List (Fac A))
    (complexity : Fac A → ℕ) (te : List (Tan A K × Ex A K)) : Ex A K :=
  let te' := te.map normal
  let factors := order (ineqs ++ te'.flatMap Prod.fst)
  let degrees := te'.map fun t => degreeRow factors t.1
  let sel := optimalLoop (factors.map complexity) factors.length 5 1000 (degrees.zipIdx.map fun t => (t.2, t.1))
  addAll (sel.flatMap (group E factors degrees te'))

/-- One step of the sorting of the bases (linsos/solution.py 127-137): the parts without tangent, with an inequality, with an
equality. -/
def sortStep [One K] [DecidableEq A] (keys : List A)
    (s : List (Ex A K) × List (Tan A K × Ex A K) × List (A × List (Ex A K))) (t : K × Base A K) :
    List (Ex A K) × List (Tan A K × Ex A K) × List (A × List (Ex A K)) :=
  match t.2 with
  | .tangent p tan => match hasEq keys tan with
    | some (a, rest) => (s.1, s.2.1, s.2.2.map fun e =>
        if e.1 = a then (e.1, e.2 ++ [.mul (.mul (.num t.1) rest.expr) (monom p)]) else e)
    | none => (s.1, s.2.1 ++ [(tan, .mul (.num t.1) (monom p))], s.2.2)
  | b => (s.1 ++ [.cyc (.mul (.num t.1) b.expr)], s.2.1, s.2.2)

/-- What `_collect_constraints` is called with besides the bases: the expressions of the inequality and equality
constraints in the order of the dictionaries, the invariance of the equality constraints, the flag. -/
structure Env (A : Type*) where
  ineqs : List (Fac A)
  eqs : List A
  isCyc : A → Bool
  collect : Bool
  order : List (Fac A) → List (Fac A)
  complexity : Fac A → ℕ

/-- `_collect_constraints` (linsos/solution.py 73-148). Two constraints with the same expression make the inverted dictionary
smaller, then nothing is collected. -/
def collectConstraints [Field K] [LinearOrder K] [DecidableEq A] (E : Ext A K) (V : Env A) (yb : List (K × Base A K)) : Ex A K :=
  let r := collectMultipliers E yb
  if V.collect = false ∨ ¬ V.ineqs.Nodup ∨ ¬ V.eqs.Nodup then
    .quot (addAll (r.2.map fun t => .cyc (.mul (.num t.1) t.2.expr))) r.1
  else
    let s := r.2.foldl (sortStep V.eqs) ([], [], V.eqs.map fun k => (k, []))
    .quot (.add (.add (addAll s.1) (collectIneq E V.order V.ineqs V.complexity s.2.1)) (collectEq E V.isCyc s.2.2)) r.1

end Verif.LinCollect
