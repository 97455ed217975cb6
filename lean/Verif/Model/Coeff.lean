import Verif.Basic.PyDict
import Verif.Model.Monomials
import Verif.Model.Congruence

/-!
# Model of triples/utils/expression/coeff.py

`Coeff` wraps a dictionary from exponent tuples to coefficients; coefficients are elements of a type `K`
with decidable equality (SymPy numbers; `radsimp`-style non-canonical zeros are not modelled).
-/

namespace Verif

/-- `Coeff` (coeff.py 9-41): the dictionary and the number of variables. -/
structure Coeff (K : Type*) where
  coeffs : List (List ℕ × K)
  nvars : ℕ

namespace Coeff

variable {K : Type*} [DecidableEq K]

/-- `Coeff(dict)` (coeff.py 38-40): the number of variables is read off the first key. -/
def ofDict (d : List (List ℕ × K)) : Coeff K :=
  ⟨d, match d with | [] => 0 | (k, _) :: _ => k.length⟩

/-- `__call__` (coeff.py 47-56). -/
def call [Zero K] (c : Coeff K) (m : List ℕ) : K := (dget c.coeffs m).getD 0

/-- The loop of `is_cyclic` over a list of permutations in array form (coeff.py 90-96). -/
def isCyclicLoop [Zero K] (c : Coeff K) (perms : List (List ℕ)) : Bool :=
  perms.all fun p => p.length == c.nvars && c.coeffs.all fun kv => decide (c.call (papply p kv.1) = kv.2)

/-- `is_cyclic(perm_group)` for the list of generators of the group (coeff.py 78-96). -/
def isCyclic [Zero K] (c : Coeff K) (gens : List (List ℕ)) : Bool :=
  if c.nvars = 1 then true else c.isCyclicLoop gens

/-- Generators of SymPy's `CyclicGroup(n)`. -/
def cyclicGens (n : ℕ) : List (List ℕ) := [(List.range (n - 1)).map (· + 1) ++ [0]]

/-- Generators of SymPy's `SymmetricGroup(n)`; `none` is the `IndexError` raised for `n = 0`. -/
def symmetricGens (n : ℕ) : Option (List (List ℕ)) :=
  match n with
  | 0 => none
  | 1 => some [[0]]
  | 2 => some [[1, 0]]
  | n + 3 => some [(List.range (n + 2)).map (· + 1) ++ [0], 1 :: 0 :: (List.range (n + 1)).map (· + 2)]

/-- `is_cyclic()` with the default group (coeff.py 75-76). -/
def isCyclicDefault [Zero K] (c : Coeff K) : Bool := c.isCyclic (cyclicGens c.nvars)

/-- `is_symmetric()` with the default group (coeff.py 113-115). -/
def isSymmetricDefault [Zero K] (c : Coeff K) : Except PyErr Bool :=
  match symmetricGens c.nvars with
  | none => .error .indexError
  | some gens => .ok (c.isCyclic gens)

/-- Loop body of `__operator__` (coeff.py 193-199). -/
def opStep [Zero K] (self : Coeff K) (op : K → K → K) (acc : List (List ℕ × K)) (kv : List ℕ × K) :
    List (List ℕ × K) :=
  let v1 := self.call kv.1
  let v3 := op v1 kv.2
  if v3 = 0 ∧ v1 ≠ 0 then ddel acc kv.1
  else if v3 ≠ 0 then dset acc kv.1 v3
  else acc

/-- `__operator__(other, operator)` (coeff.py 191-203); `sorted(..., reverse=True)` compares keys only
because keys are distinct. -/
def operator [Zero K] (self other : Coeff K) (op : K → K → K) : Coeff K :=
  ofDict ((other.coeffs.foldl (opStep self op) self.coeffs).mergeSort fun a b => decide (b.1 ≤ a.1))

/-- `__add__` (coeff.py 205-206). -/
def add [Zero K] [Add K] (a b : Coeff K) : Coeff K := operator a b (· + ·)

/-- `__sub__` (coeff.py 208-209). -/
def sub [Zero K] [Sub K] (a b : Coeff K) : Coeff K := operator a b (· - ·)

/-- `degree()` (coeff.py 159-167). -/
def degree (c : Coeff K) : ℕ := match c.coeffs with | [] => 0 | (k, _) :: _ => k.sum

/-- The loop of `cancel_abc` (coeff.py 230-233); `none` is the early return. -/
def commonLoop : List (List ℕ) → List ℕ → Option (List ℕ)
  | [], common => some common
  | m :: ms, common =>
    let common' := List.zipWith min common m
    if common'.all (· == 0) then none else commonLoop ms common'

/-- `cancel_abc()` (coeff.py 220-238). -/
def cancelAbc [Zero K] (c : Coeff K) : List ℕ × Coeff K :=
  if c.coeffs.isEmpty then (List.replicate c.nvars 0, c)
  else
    match commonLoop (dkeys c.coeffs) (List.replicate c.nvars (c.degree + 1)) with
    | none => (List.replicate c.nvars 0, c)
    | some common =>
      (common, ofDict (dictOf ((c.coeffs.filter fun kv => decide (kv.2 ≠ 0)).map fun kv =>
        (List.zipWith (· - ·) kv.1 common, kv.2))))

/-- The double loop of `cancel_k` (coeff.py 251-255) over all exponents; `none` is the early return on 1. -/
def gcdLoop : List ℕ → ℕ → Option ℕ
  | [], d => some d
  | u :: us, d => let d' := Nat.gcd d u; if d' = 1 then none else gcdLoop us d'

/-- `cancel_k()` (coeff.py 241-263). -/
def cancelK [Zero K] (c : Coeff K) : ℕ × Coeff K :=
  if c.coeffs.isEmpty then (1, c)
  else
    match gcdLoop (dkeys c.coeffs).flatten 0 with
    | none => (1, c)
    | some d =>
      if d = 0 then (0, c)
      else (d, ofDict (dictOf ((c.coeffs.filter fun kv => decide (kv.2 ≠ 0)).map fun kv =>
        (kv.1.map (· / d), kv.2))))

/-- One entry of the loop of `reflect()` (coeff.py 125-128): `for (i,j,k), v in self.coeffs.items()`. -/
def reflectEntry (kv : List ℕ × K) : Except PyErr (List ℕ × K) :=
  match kv.1 with
  | [i, j, k] => .ok ([j, i, k], kv.2)
  | _ => .error .valueError

/-- `reflect()` (coeff.py 117-129) for ternary polynomials; the assertion on the number of variables is
the error branch, keys of a different length raise `ValueError` on unpacking. -/
def reflect (c : Coeff K) : Except PyErr (Coeff K) :=
  if c.coeffs.isEmpty then .ok (ofDict [])
  else if c.nvars ≠ 3 then .error .assertionError
  else do
    let l ← c.coeffs.mapM reflectEntry
    .ok (ofDict (dictOf l))

end Coeff
end Verif
