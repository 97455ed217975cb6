import Verif.Model.Coeff

/-!
# Model of `identify_symmetry` (triples/utils/expression/coeff.py 267-305)

A permutation group is given by its generators in array form, as SymPy's constructors list them.
-/

namespace Verif.IdentifySym

open Verif

variable {K : Type*} [DecidableEq K]

/-- SymPy's `AlternatingGroup(n)` for `n > 3` (coeff.py 284): a cycle of three points, and the rotation of all points (`n` odd) or of all
points but the first (`n` even). -/
def alternatingGens (n : ℕ) : List (List ℕ) :=
  [[1, 2, 0] ++ (List.range (n - 3)).map (· + 3),
   if n % 2 = 1 then (List.range (n - 1)).map (· + 1) ++ [0] else [0] ++ (List.range (n - 2)).map (· + 2) ++ [1]]

/-- `gen1` (coeff.py 290-293): the rotation of all generators but the last. -/
def homRot (n : ℕ) : List ℕ := (List.range (n - 2)).map (· + 1) ++ [0] ++ [n - 1]

/-- `gen2` (coeff.py 294-296): the first two generators exchanged. -/
def homSwap (n : ℕ) : List ℕ := [1, 0] ++ (List.range (n - 2)).map (· + 2)

/-- `identify_symmetry(poly, homogenizer)` (coeff.py 267-305): the generators of the group returned.  `hom` says that `homogenizer` was
given; the code takes the last generator for it without looking.  `SymmetricGroup(0)` raises. -/
def identify [Zero K] (c : Coeff K) (hom : Bool) : Except PyErr (List (List ℕ)) :=
  match c.isSymmetricDefault with
  | .error e => .error e
  | .ok true => .ok ((Coeff.symmetricGens c.nvars).getD [])
  | .ok false =>
    if c.isCyclicDefault then .ok (Coeff.cyclicGens c.nvars)
    else if c.nvars > 3 ∧ c.isCyclic (alternatingGens c.nvars) = true then .ok (alternatingGens c.nvars)
    else if hom = true ∧ c.nvars > 2 then
      if c.isCyclic [homRot c.nvars, homSwap c.nvars] then .ok [homRot c.nvars, homSwap c.nvars]
      else if c.isCyclic [homRot c.nvars] then .ok [homRot c.nvars]
      else .ok [List.range c.nvars]
    else .ok [List.range c.nvars]

end Verif.IdentifySym
