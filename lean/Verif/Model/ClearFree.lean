import Verif.Model.Congruence
import Mathlib.Logic.Function.Basic
import Mathlib.Order.Basic

/-!
# Removing unrelated variables and constraints

Model of `clear_free_symbols` (triples/core/structsos/utils.py 250-292).  A polynomial is the list of its terms, generators are numbered.  A Python
set of symbols is iterated in an unspecified order: `ord` is any rearrangement.
-/

namespace Verif.ClearFree

open Verif

/-- A polynomial: terms `(exponents, coefficient)`. -/
abbrev Terms (K : Type*) := List (List ℕ × K)

/-- `Poly.free_symbols` (SymPy): the generators that occur with a positive exponent. -/
def freeSyms {K : Type*} (n : ℕ) (p : Terms K) : List ℕ := (List.range n).filter fun i => p.any fun t => decide (t.1.getD i 0 ≠ 0)

/-- `ufsfind(x)` (utils.py 263-267): the representative and the dictionary after path compression.  `none` when the recursion is deeper than the
fuel (never with `n + 1`, `clear_total`). -/
def find : ℕ → (ℕ → ℕ) → ℕ → Option (ℕ × (ℕ → ℕ))
  | 0, _, _ => none
  | k + 1, u, x =>
    if u x = x then some (x, u)
    else match find k u (u x) with
      | none => none
      | some (r, u') => some (r, Function.update u' x r)

/-- `ufs[ufsfind(x)] = y0` (utils.py 273-274) for the remaining symbols. -/
def unite (fuel y0 : ℕ) : List ℕ → (ℕ → ℕ) → Option (ℕ → ℕ)
  | [], u => some u
  | x :: l, u => match find fuel u x with
    | none => none
    | some (r, u') => unite fuel y0 l (Function.update u' r y0)

/-- `ufsunion(p)` (utils.py 268-274) on the list of free symbols. -/
def unionSyms (fuel : ℕ) (v : List ℕ) (u : ℕ → ℕ) : Option (ℕ → ℕ) :=
  match v with
  | [] => some u
  | x0 :: l => match find fuel u x0 with
    | none => none
    | some (y0, u') => unite fuel y0 l u'

/-- The three loops over the polynomials (utils.py 275-279). -/
def unionPolys (fuel : ℕ) : List (List ℕ) → (ℕ → ℕ) → Option (ℕ → ℕ)
  | [], u => some u
  | v :: l, u => match unionSyms fuel v u with
    | none => none
    | some u' => unionPolys fuel l u'

/-- `[ufsfind(x) for x in l]`, threading the dictionary (utils.py 282-283). -/
def findAll (fuel : ℕ) : List ℕ → (ℕ → ℕ) → Option (List ℕ × (ℕ → ℕ))
  | [], u => some ([], u)
  | x :: l, u => match find fuel u x with
    | none => none
    | some (r, u') => match findAll fuel l u' with
      | none => none
      | some (rs, u'') => some (r :: rs, u'')

/-- `active_gens` (utils.py 282-285); `gens[0]` is used when there are none. -/
def activeGens (fuel n : ℕ) (v : List ℕ) (u : ℕ → ℕ) : Option (List ℕ) :=
  match findAll fuel v u with
  | none => none
  | some (roots, u') => match findAll fuel (List.range n) u' with
    | none => none
    | some (rs, _) =>
      let act := (((List.range n).zip rs).filter fun p => decide (p.2 ∈ roots)).map Prod.fst
      some (if act.length = 0 then [0] else act)

/-- `p.as_poly(active_gens)` (utils.py 290-292): the exponents of the active generators.  A polynomial with other symbols would get coefficients
outside the number field; here that is an error (it does not happen for a non-constant polynomial, `clear_asPoly`). -/
def asPoly {K : Type*} (n : ℕ) (act : List ℕ) (p : Terms K) : Except PyErr (Terms K) :=
  if (freeSyms n p).all fun i => decide (i ∈ act) then .ok (p.map fun t => (act.map fun i => t.1.getD i 0, t.2))
  else .error (.custom "symbols in the coefficients")

/-- `is_active(p)` (utils.py 287-288). -/
def isActive {K : Type*} (n : ℕ) (act : List ℕ) (p : Terms K) : Bool := (freeSyms n p).any fun i => decide (i ∈ act)

/-- One of the dictionary comprehensions (utils.py 291-292). -/
def keep {K E : Type*} (n : ℕ) (act : List ℕ) : List (Terms K × E) → Except PyErr (List (Terms K × E))
  | [] => .ok []
  | (p, e) :: l =>
    if isActive n act p then
      match asPoly n act p with
      | .error er => .error er
      | .ok q => match keep n act l with
        | .error er => .error er
        | .ok r => .ok ((q, e) :: r)
    else keep n act l

/-- The result: the active generators, the polynomial and the remaining constraints. -/
structure Cleared (K E : Type*) where
  gens : List ℕ
  poly : Terms K
  ineqs : List (Terms K × E)
  eqs : List (Terms K × E)

/-- `clear_free_symbols(poly, ineq_constraints, eq_constraints)` (utils.py 250-292) for `n` generators. -/
def clearFree {K E : Type*} (ord : List ℕ → List ℕ) (n : ℕ) (poly : Terms K) (ineqs eqs : List (Terms K × E)) : Except PyErr (Cleared K E) :=
  match unionPolys (n + 1) ((poly :: (ineqs.map Prod.fst ++ eqs.map Prod.fst)).map fun p => ord (freeSyms n p)) id with
  | none => .error (.custom "RecursionError")
  | some u => match activeGens (n + 1) n (ord (freeSyms n poly)) u with
    | none => .error (.custom "RecursionError")
    | some act => match asPoly n act poly with
      | .error e => .error e
      | .ok q => match keep n act ineqs with
        | .error e => .error e
        | .ok i => match keep n act eqs with
          | .error e => .error e
          | .ok h => .ok ⟨act, q, i, h⟩

end Verif.ClearFree
