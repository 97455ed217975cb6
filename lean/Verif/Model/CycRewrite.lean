import Verif.Model.CycExpr

/-!
# Model of `rewrite_symmetry` (triples/utils/expression/cyclic.py 889-981)

`trans G H` is SymPy's `G.coset_transversal(H)`, `tog` is `together`, `isz e` is `signsimp(e) == 0`.
-/

namespace Verif.Cyc

/-- `dict(zip(symbols, p(symbols)))` as a rule (cyclic.py 926-927). -/
def permRule (s p : List ℕ) : Rule := s.map fun x => (x, .sym (tr s p x))

/-- `doit(deep=False)` on any expression: SymPy returns other nodes unchanged. -/
def doitShallow (bld : CE → CE) (gt : CE → CE → Bool) (n : ℕ) : CE → Option CE
  | .cyc k e s G => doit1 bld gt n k e s G
  | e => some e

/-- The loop for the simplest form (cyclic.py 930-934); the expression is updated while the loop runs. -/
def rwPick (bld : CE → CE) (gt eqv : CE → CE → Bool) (n : ℕ) (s : List ℕ) : List (List ℕ) → CE → Option CE
  | [], cur => some cur
  | h :: hs, cur =>
    match xrep bld gt eqv (permRule s h) n cur with
    | none => none
    | some x => rwPick bld gt eqv n s hs (if gt cur x.1 then x.1 else cur)

/-- `replacement` on a cyclic expression (cyclic.py 897-941): the result, and whether it is another expression.
`is_subgroup` is inclusion of the elements. -/
def rwCyc (bld : CE → CE) (gt eqv : CE → CE → Bool) (trans : PGrp → PGrp → List (List ℕ)) (tog : CE → CE)
    (isz : CE → Bool) (symbols : List ℕ) (H : PGrp) (n : ℕ) (k : Kind) (e : CE) (s : List ℕ) (G : PGrp) :
    Option (CE × Bool) :=
  let expand := (doit1 bld gt n k e s G).map fun r => (r, true)
  if s = symbols then
    if G.same H then some (.cyc k e s G, false)
    else if G.elems.all fun p => H.elems.contains p then
      match k with
      | .sum =>
        (doit1 bld gt n .sum e s G).bind fun e1 =>
        (newCyc bld gt n .sum e s H).bind fun c =>
        (doitShallow bld gt n c).bind fun e2 =>
          let m : ℕ := H.elems.length / G.elems.length
          if isz (bld (.add [bld (.mul [.num m, e1]), bld (.mul [.num (-1), e2])]))
          then some (bld (.mul [c, bld (.pow (.num m) (-1))]), true)
          else expand
      | .prod => expand
    else if H.elems.all fun p => G.elems.contains p then
      (mapO (fun t => (xrep bld gt eqv (permRule s t) n e).bind fun x => rwPick bld gt eqv n s H.elems x.1)
        (trans G H)).bind fun l =>
        (newCyc bld gt n k (tog (base bld k l)) s H).map fun r => (r, true)
    else expand
  else expand

/-- `expr.replace(lambda x: isinstance(x, CyclicExpr), replacement)` (cyclic.py 981): bottom up; a node whose arguments
changed is rebuilt by its constructor.  The flag tells whether an expression was replaced. -/
def rewriteSym (bld : CE → CE) (gt eqv : CE → CE → Bool) (trans : PGrp → PGrp → List (List ℕ)) (tog : CE → CE)
    (isz : CE → Bool) (symbols : List ℕ) (H : PGrp) : ℕ → CE → Option (CE × Bool)
  | 0, _ => none
  | _ + 1, .num q => some (.num q, false)
  | _ + 1, .sym i => some (.sym i, false)
  | n + 1, .add l => (mapO (fun e => rewriteSym bld gt eqv trans tog isz symbols H n e) l).map fun l' =>
      if l'.any (·.2) then (bld (.add (l'.map (·.1))), true) else (.add l, false)
  | n + 1, .mul l => (mapO (fun e => rewriteSym bld gt eqv trans tog isz symbols H n e) l).map fun l' =>
      if l'.any (·.2) then (bld (.mul (l'.map (·.1))), true) else (.mul l, false)
  | n + 1, .pow b m => (rewriteSym bld gt eqv trans tog isz symbols H n b).map fun b' =>
      if b'.2 then (bld (.pow b'.1 m), true) else (.pow b m, false)
  | n + 1, .app f l => (mapO (fun e => rewriteSym bld gt eqv trans tog isz symbols H n e) l).map fun l' =>
      if l'.any (·.2) then (bld (.app f (l'.map (·.1))), true) else (.app f l, false)
  | n + 1, .cyc k e s G =>
    (rewriteSym bld gt eqv trans tog isz symbols H n e).bind fun x =>
      if x.2 then
        (newCyc bld gt n k x.1 s G).bind fun c =>
          match c with
          | .cyc k' e' s' G' => (rwCyc bld gt eqv trans tog isz symbols H n k' e' s' G').map fun y => (y.1, true)
          | c => some (c, true)
      else rwCyc bld gt eqv trans tog isz symbols H n k e s G

end Verif.Cyc
