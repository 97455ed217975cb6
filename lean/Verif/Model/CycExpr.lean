import Verif.Proofs.Monomials
import Mathlib.Algebra.Field.Defs
import Mathlib.Algebra.Order.Field.Rat
import Mathlib.Data.List.Sort

/-!
# Model of triples/utils/expression/cyclic.py: cyclic sums and products as expressions

Symbols are natural numbers, ordered as their names are (`_std_seq` sorts by name).  A SymPy expression is a tree of
numbers, symbols, sums, products, powers with a constant integer exponent, opaque functions and the two kinds of
cyclic expression.  The evaluating constructors `Add(*args)`, `Mul(*args)`, `Pow` of SymPy are a parameter `bld`
applied to the node that is built; the comparison `expr.compare(other) > 0` is a parameter `gt`.  Calls that are not
structurally decreasing (`__new__` calls `_replace_symbols`, which rebuilds inner cyclic expressions through
`__new__`) carry fuel; `none` stands for a `ValueError` of the constructor or for exhausted fuel.
-/

namespace Verif.Cyc

/-- `CyclicSum` (cyclic.py 411) or `CyclicProduct` (cyclic.py 533). -/
inductive Kind where
  | sum
  | prod
  deriving DecidableEq

/-- A SymPy `PermutationGroup`: degree, `elements`, `generators`, all in array form. -/
structure PGrp where
  deg : ℕ
  elems : List (List ℕ)
  gens : List (List ℕ)
  deriving DecidableEq

/-- Expressions (SymPy `Expr` trees with the classes of cyclic.py 125-409). -/
inductive CE where
  | num : ℚ → CE
  | sym : ℕ → CE
  | add : List CE → CE
  | mul : List CE → CE
  | pow : CE → ℤ → CE
  | app : ℕ → List CE → CE
  | cyc : Kind → CE → List ℕ → PGrp → CE

/-- One entry of `_generate_all_translations(symbols, perm)` (cyclic.py 195-210), read as a function on symbols:
`dict(zip(symbols, p(symbols)))` sends `symbols[i]` to `symbols[p[i]]`, and other symbols stay. -/
def tr (s p : List ℕ) (x : ℕ) : ℕ :=
  match s.idxOf? x with
  | none => x
  | some i =>
    match p[i]? with
    | none => x
    | some j => (s[j]?).getD x

mutual
/-- `expr.free_symbols` (SymPy): a cyclic expression also counts its symbol tuple, one of its `args`. -/
def free : CE → List ℕ
  | .num _ => []
  | .sym i => [i]
  | .add l => freeL l
  | .mul l => freeL l
  | .pow b _ => free b
  | .app _ l => freeL l
  | .cyc _ e s _ => free e ++ s
def freeL : List CE → List ℕ
  | [] => []
  | e :: l => free e ++ freeL l
end

section Value
variable {K : Type*} [Field K]

mutual
/-- The value of an expression at a point.  A cyclic expression has the value of its expansion `doit()`
(cyclic.py 67-72, 212-219): the sum or product over the elements of the group of the translated argument. -/
def den (I : ℕ → List K → K) : CE → (ℕ → K) → K
  | .num q, _ => (q : K)
  | .sym i, env => env i
  | .add l, env => (denL I l env).sum
  | .mul l, env => (denL I l env).prod
  | .pow b n, env => den I b env ^ n
  | .app f l, env => I f (denL I l env)
  | .cyc .sum e s G, env => (G.elems.map fun p => den I e (env ∘ tr s p)).sum
  | .cyc .prod e s G, env => (G.elems.map fun p => den I e (env ∘ tr s p)).prod
def denL (I : ℕ → List K → K) : List CE → (ℕ → K) → List K
  | [], _ => []
  | e :: l, env => den I e env :: denL I l env
end
end Value

/-- Monadic `map` over `Option`: a list comprehension whose elements may fail. -/
def mapO {α β : Type*} (f : α → Option β) : List α → Option (List β)
  | [] => some []
  | a :: l =>
    match f a, mapO f l with
    | some b, some bs => some (b :: bs)
    | _, _ => none

/-- One step of Python's `min` over tuples: the first smallest element so far. -/
def minStep (acc : Option (List ℕ)) (y : List ℕ) : Option (List ℕ) :=
  match acc with
  | none => some y
  | some m => some (if y < m then y else m)

/-- `_std_seq(symbols, perm_group)` (cyclic.py 42-51): the images of the symbol tuple under the group are compared by
the ranks of the names, and the smallest one is kept.  `min` over an empty group does not arise (`getD`). -/
def stdSeq (s : List ℕ) (G : PGrp) : List ℕ :=
  let ind := (List.range s.length).insertionSort (fun i j => s.getD i 0 ≤ s.getD j 0)
  let inv := (List.range s.length).map fun j => ind.idxOf j
  let p := ((G.elems.map fun x => papply x inv).foldl minStep none).getD []
  p.map fun r => s.getD (ind.getD r 0) 0

/-- `expr.free_symbols.isdisjoint(symbols)`. -/
def disjointFrom (l s : List ℕ) : Bool := l.all fun x => !(s.contains x)

/-- `PermutationGroup.__eq__` (SymPy): the same elements. -/
def PGrp.same (G H : PGrp) : Bool := G.deg == H.deg && G.elems.isPerm H.elems

mutual
/-- `is_cyclic_expr(expr, symbols, perm)` (cyclic.py 30-40), with `_eval_is_cyclic` (cyclic.py 190-191).  Exponents
are constants in this model, so `expr.args[1].is_constant()` holds. -/
def isCyclicExpr : CE → List ℕ → PGrp → Bool
  | .num q, s, G => disjointFrom (free (.num q)) (stdSeq s G)
  | .sym i, s, G => disjointFrom (free (.sym i)) (stdSeq s G)
  | .add l, s, G => disjointFrom (free (.add l)) (stdSeq s G) || allCyclic l (stdSeq s G) G
  | .mul l, s, G => disjointFrom (free (.mul l)) (stdSeq s G) || allCyclic l (stdSeq s G) G
  | .pow b n, s, G => disjointFrom (free (.pow b n)) (stdSeq s G) || isCyclicExpr b (stdSeq s G) G
  | .app f l, s, G => disjointFrom (free (.app f l)) (stdSeq s G)
  | .cyc k e t H, s, G =>
    disjointFrom (free (.cyc k e t H)) (stdSeq s G) || (t == stdSeq s G && H.same G)
def allCyclic : List CE → List ℕ → PGrp → Bool
  | [], _, _ => true
  | e :: l, s, G => isCyclicExpr e s G && allCyclic l s G
end

/-- `_eval_degenerate` (cyclic.py 486-488 for sums, 605-607 for products). -/
def degenerate (bld : CE → CE) (k : Kind) (e : CE) (G : PGrp) : CE :=
  match k with
  | .sum => bld (.mul [e, .num G.elems.length])
  | .prod => bld (.pow e G.elems.length)

/-- Search for the simplest form (cyclic.py 169-178): the smallest translated expression, with `cand p` the
expression translated by `p`. -/
def pickMin (gt : CE → CE → Bool) (cand : List ℕ → Option CE) : List (List ℕ) → CE → Option CE
  | [], cur => some cur
  | p :: ps, cur =>
    match cand p with
    | none => none
    | some e2 => pickMin gt cand ps (if gt cur e2 then e2 else cur)

/-- `_eval_simplify_` (cyclic.py 490-522 for sums, 609-622 for products); `cls e` is the recursive call of the
constructor `cls(e, symbols, perm)`. -/
def evalSimplify (bld : CE → CE) (cls : CE → Option CE) (k : Kind) (e : CE) (s : List ℕ) (G : PGrp) : Option CE :=
  if disjointFrom (free e) s then some (degenerate bld k e G)
  else
    match e with
    | .mul args =>
      let cs := args.filter fun a => isCyclicExpr a s G
      let us := args.filter fun a => !(isCyclicExpr a s G)
      match k with
      | .sum =>
        if cs.isEmpty then some (.cyc .sum (.mul args) s G)
        else (cls (bld (.mul us))).map fun obj0 => bld (.mul (obj0 :: cs))
      | .prod =>
        (mapO cls us).map fun objs =>
          bld (.mul (bld (.mul objs) :: cs.map fun a => bld (.pow a s.length)))
    | e => some (.cyc k e s G)

mutual
/-- `_replace_symbols(expr, replace_dict)` (cyclic.py 53-65): every node is rebuilt by its constructor, with the
symbol tuple of a cyclic expression renamed as well. -/
def rename (bld : CE → CE) (gt : CE → CE → Bool) : ℕ → (ℕ → ℕ) → CE → Option CE
  | 0, _, _ => none
  | _ + 1, _, .num q => some (.num q)
  | _ + 1, ρ, .sym i => some (.sym (ρ i))
  | n + 1, ρ, .add l => (mapO (fun e => rename bld gt n ρ e) l).map fun l' => bld (.add l')
  | n + 1, ρ, .mul l => (mapO (fun e => rename bld gt n ρ e) l).map fun l' => bld (.mul l')
  | n + 1, ρ, .pow b m => (rename bld gt n ρ b).map fun b' => bld (.pow b' m)
  | n + 1, ρ, .app f l => (mapO (fun e => rename bld gt n ρ e) l).map fun l' => bld (.app f l')
  | n + 1, ρ, .cyc k e s G => (rename bld gt n ρ e).bind fun e' => newCyc bld gt n k e' (s.map ρ) G
/-- `CyclicExpr.__new__` with `evaluate` (cyclic.py 137-180).  The symbol tuple has the length of the degree of the
group (a group on fewer points is not modelled: `none`). -/
def newCyc (bld : CE → CE) (gt : CE → CE → Bool) : ℕ → Kind → CE → List ℕ → PGrp → Option CE
  | 0, _, _, _, _ => none
  | n + 1, k, e, s, G =>
    if ¬ s.Nodup then none
    else if G.deg < 2 ∨ G.elems.length = 1 then some e
    else if s.length ≠ G.deg then none
    else
      (pickMin gt (fun p => rename bld gt n (tr (stdSeq s G) p) e) G.elems e).bind fun e' =>
        evalSimplify bld (fun e2 => newCyc bld gt n k e2 (stdSeq s G) G) k e' (stdSeq s G) G
end

/-- `CyclicSum(expr, symbols, perm)` / `CyclicProduct(...)` with `evaluate=False` (cyclic.py 137-161, 182-183): the
same checks, no simplification. -/
def newRaw (k : Kind) (e : CE) (s : List ℕ) (G : PGrp) : Option CE :=
  if ¬ s.Nodup then none
  else if G.deg < 2 ∨ G.elems.length = 1 then some e
  else some (.cyc k e s G)

/-- `self.base_func(*args)`: `Add` for sums (cyclic.py 457), `Mul` for products (cyclic.py 575). -/
def base (bld : CE → CE) (k : Kind) (l : List CE) : CE :=
  match k with
  | .sum => bld (.add l)
  | .prod => bld (.mul l)

/-- `doit(deep=False)` (cyclic.py 212-219 through `_func_perm`, 67-72). -/
def doit1 (bld : CE → CE) (gt : CE → CE → Bool) (n : ℕ) (k : Kind) (e : CE) (s : List ℕ) (G : PGrp) : Option CE :=
  (mapO (fun p => rename bld gt n (tr s p) e) G.elems).map fun l => base bld k l

/-- `doit()` (cyclic.py 212-219) and SymPy's `Basic.doit`: expand, then expand inside the result. -/
def doit (bld : CE → CE) (gt : CE → CE → Bool) : ℕ → CE → Option CE
  | 0, _ => none
  | _ + 1, .num q => some (.num q)
  | _ + 1, .sym i => some (.sym i)
  | n + 1, .add l => (mapO (fun e => doit bld gt n e) l).map fun l' => bld (.add l')
  | n + 1, .mul l => (mapO (fun e => doit bld gt n e) l).map fun l' => bld (.mul l')
  | n + 1, .pow b m => (doit bld gt n b).map fun b' => bld (.pow b' m)
  | n + 1, .app f l => (mapO (fun e => doit bld gt n e) l).map fun l' => bld (.app f l')
  | n + 1, .cyc k e s G => (doit1 bld gt n k e s G).bind fun e' => doit bld gt n e'

/-- `as_content_primitive` (cyclic.py 524-528 for sums, 624-628 for products); `cp` is the result `(c, p)` of
`self.args[0].as_content_primitive()`. -/
def contentPrimitive (bld : CE → CE) (gt : CE → CE → Bool) (n : ℕ) (cp : ℚ × CE) (k : Kind) (e : CE) (s : List ℕ)
    (G : PGrp) : Option (ℚ × CE) :=
  if cp.1 = 1 then some (1, .cyc k e s G)
  else
    (newCyc bld gt n k cp.2 s G).map fun r =>
      match k with
      | .sum => (cp.1, r)
      | .prod => (cp.1 ^ s.length, r)

/-! ### Replacement -/

/-- A rule with symbol keys; replacements of other subexpressions are not modelled. -/
abbrev Rule := List (ℕ × CE)

/-- `rule.get(s, s)`. -/
def Rule.get (r : Rule) (x : ℕ) : CE := (dget r x).getD (.sym x)

/-- Symbols occurring in the values of the rule (`set.union(rule_vars, *(fs(_) for _ in rule.values()))`). -/
def Rule.valVars (r : Rule) : List ℕ := r.flatMap fun kv => free kv.2

/-- `changed_vars` (cyclic.py 323-325), in the order of the symbol tuple. -/
def changedVars (r : Rule) (s : List ℕ) : List ℕ :=
  s.filter fun x => (dkeys r).contains x || r.valVars.contains x

/-- The new symbol of `x` in case A: `rule.get(s, s)`, a symbol. -/
def newSym (r : Rule) (x : ℕ) : ℕ :=
  match dget r x with
  | some (.sym y) => y
  | _ => x

/-- Case A applies (cyclic.py 330-342): every changed symbol is replaced by a symbol, the other entries of the rule
do not touch the symbols, and the new symbols are distinct. -/
def caseA (r : Rule) (s : List ℕ) : Bool :=
  (changedVars r s).all (fun x => match dget r x with | some (.sym _) => true | _ => false) &&
  (r.filter fun kv => !((changedVars r s).contains kv.1)).all
    (fun kv => !(s.contains kv.1) && disjointFrom (free kv.2) s) &&
  decide (s.map (newSym r)).Nodup

/-- `_is_same_dict(permed_rules, d)` for one generator (cyclic.py 74-82, 89-95): same length, and every permuted
key is a key with the same value up to `signsimp`; `eqv u v` is `signsimp(u) == signsimp(v)`. -/
def sameDict (eqv : CE → CE → Bool) (ren : CE → Option CE) (ρ : ℕ → ℕ) (r : Rule) : Option Bool :=
  (mapO (fun kv => (ren kv.2).map fun v => (ρ kv.1, v)) r).map fun l =>
    l.all fun kv => match dget r kv.1 with | none => false | some v => eqv v kv.2

/-- `_is_perm_invariant_dict` (cyclic.py 84-96): loop over the generators. -/
def permInvariant (eqv : CE → CE → Bool) (ren : (ℕ → ℕ) → CE → Option CE) (s : List ℕ) (r : Rule) :
    List (List ℕ) → Option Bool
  | [] => some true
  | g :: gs =>
    match sameDict eqv (ren (tr s g)) (tr s g) r with
    | none => none
    | some false => some false
    | some true => permInvariant eqv ren s r gs

/-- `perm.orbit(inds, action='union')` (cyclic.py 354): the points that some element of the group reaches. -/
def orbitUnion (G : PGrp) (inds : List ℕ) : List ℕ :=
  (List.range G.deg).filter fun j => inds.any fun i => G.elems.any fun p => p.getD i 0 == j

/-- `perm.pointwise_stabilizer(inds)` (cyclic.py 364, 374), its elements. -/
def pointStab (G : PGrp) (inds : List ℕ) : List (List ℕ) :=
  G.elems.filter fun p => inds.all fun i => p.getD i 0 == i

/-- `_project_perm_group` (cyclic.py 98-122) on an element: keep the values in `inds`, renumbered by position. -/
def project (inds p : List ℕ) : List ℕ := p.filterMap fun i => inds.idxOf? i

/-- `_xreplace_arg0` (cyclic.py 301-306); `x0` is `self.args[0]._xreplace(rule)`. -/
def xrepArg0 (mk : CE → List ℕ → Option CE) (self : CE) (x0 : CE × Bool) (s s' : List ℕ) (moved : Bool) :
    Option (CE × Bool) :=
  if x0.2 || moved then (mk x0.1 (if moved then s' else s)).map fun e => (e, true)
  else some (self, false)

/-- `_xreplace` (cyclic.py 288-389) on cyclic expressions and SymPy's `Basic._xreplace` on the other nodes: the
result and whether anything changed.  `eqv u v` is `signsimp(u) == signsimp(v)`.  In case A `new_symbols` is a new
tuple object, so the expression counts as changed. -/
def xrep (bld : CE → CE) (gt eqv : CE → CE → Bool) (r : Rule) : ℕ → CE → Option (CE × Bool)
  | 0, _ => none
  | _ + 1, .num q => some (.num q, false)
  | _ + 1, .sym i => some (match dget r i with | some v => (v, true) | none => (.sym i, false))
  | n + 1, .add l => (mapO (fun e => xrep bld gt eqv r n e) l).map fun l' =>
      if l'.any (·.2) then (bld (.add (l'.map (·.1))), true) else (.add l, false)
  | n + 1, .mul l => (mapO (fun e => xrep bld gt eqv r n e) l).map fun l' =>
      if l'.any (·.2) then (bld (.mul (l'.map (·.1))), true) else (.mul l, false)
  | n + 1, .pow b m => (xrep bld gt eqv r n b).map fun b' =>
      if b'.2 then (bld (.pow b'.1 m), true) else (.pow b m, false)
  | n + 1, .app f l => (mapO (fun e => xrep bld gt eqv r n e) l).map fun l' =>
      if l'.any (·.2) then (bld (.app f (l'.map (·.1))), true) else (.app f l, false)
  | n + 1, .cyc k e s G =>
    let self := CE.cyc k e s G
    let arg0 := fun (s' : List ℕ) (moved : Bool) =>
      (xrep bld gt eqv r n e).bind fun x0 => xrepArg0 (fun e' t => newCyc bld gt n k e' t G) self x0 s s' moved
    let fallback := (mapO (fun p => (rename bld gt n (tr s p) e).bind fun e' => xrep bld gt eqv r n e') G.elems).map
      fun l' => if l'.any (·.2) then (base bld k (l'.map (·.1)), true) else (self, false)
    if (dkeys r).all (fun x => !((free self).contains x)) then some (self, false)
    else if r.all (fun kv => eqv (.sym kv.1) kv.2) then arg0 s false
    else if (changedVars r s).isEmpty then arg0 s false
    else if caseA r s then arg0 (s.map (newSym r)) true
    else
      (permInvariant eqv (fun ρ v => rename bld gt n ρ v) s r G.gens).bind fun inv =>
        if inv then arg0 s false
        else if s.length ≤ (changedVars r s).length + 1 then fallback
        else
          let chg := orbitUnion G ((List.range s.length).filter fun i => (changedVars r s).contains (s.getD i 0))
          let unch := (List.range s.length).filter fun i => !(chg.contains i)
          if unch.length < 2 then fallback
          else
            let stab := (pointStab G chg).map (project unch)
            if stab.length = 1 then fallback
            else
              (mapO (fun p => (rename bld gt n (tr s p) e).bind fun e' => (xrep bld gt eqv r n e').bind fun x =>
                  (newCyc bld gt n k x.1 (unch.map fun i => s.getD i 0) ⟨unch.length, stab, stab⟩).map
                    fun y => (y, x.2)) (pointStab G unch)).map fun l' =>
                if l'.any (·.2) then (base bld k (l'.map (·.1)), true) else (self, false)

end Verif.Cyc
