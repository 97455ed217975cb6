import Verif.Basic.Terms
import Mathlib.Data.Nat.Factorial.Basic

/-!
# Model of the nullspaces that SDPSOS imposes (triples/core/sdpsos/manifold.py)

For every root of the polynomial the Gram matrices must annihilate the vector of monomials at the root, and some of its derivatives.  Modelled: `_bilinear`,
`_compute_diff_orders` (not `mixed`), `_compute_nonvanishing_diff_orders`, `_root_space` and `Root.as_vec` (triples/utils/roots/roots.py 35-44, 125-165).
Numbers are elements of a field.  The roots themselves are an argument.
-/

namespace Verif.Manifold

open Verif Verif.Coeff

/-! ### `_bilinear` -/

/-- A pair of differential orders. -/
abbrev Pair := List ℕ × List ℕ

/-- `_bilinear.terms`: for every monomial the set of pairs. -/
abbrev Bil := List (List ℕ × List Pair)

/-- `_reg` (manifold.py 34-35). -/
def reg (u v : List ℕ) : Pair := if u < v then (u, v) else (v, u)

/-- `new_terms[key].add(p)` for a `defaultdict(set)` (manifold.py 45, 54-55). -/
def addPair : Bil → List ℕ → Pair → Bil
  | [], k, p => [(k, [p])]
  | (k', S) :: d, k, p => if k' = k then (k', if p ∈ S then S else S ++ [p]) :: d else (k', S) :: addPair d k p

/-- `_bilinear.diff` (manifold.py 42-56). -/
def diff (i : ℕ) (b : Bil) : Bil :=
  b.foldl (fun d t =>
    let d := if t.1.getD i 0 ≠ 0 then t.2.foldl (fun d p => addPair d (t.1.modify i (· - 1)) p) d else d
    t.2.foldl (fun d p => addPair (addPair d t.1 (reg (p.1.modify i (· + 1)) p.2)) t.1 (reg p.1 (p.2.modify i (· + 1)))) d) []

/-- `_bilinear.diff_monoimal` (manifold.py 58-63). -/
def diffMonomial (b : Bil) (m : List ℕ) : Bil := m.zipIdx.foldl (fun b t => (diff t.2)^[t.1] b) b

/-! ### `_compute_diff_orders` -/

variable {K : Type*} [Field K] [DecidableEq K]

/-- `poly.diff(gens[i])` (SymPy). -/
def pdiff (i : ℕ) (p : List (List ℕ × K)) : List (List ℕ × K) :=
  p.filterMap fun t => if t.1.getD i 0 = 0 then none else some (t.1.modify i (· - 1), (t.1.getD i 0 : ℕ) * t.2)

/-- `poly.total_degree()` (SymPy), which is zero for the zero polynomial. -/
def totalDeg (p : List (List ℕ × K)) : ℕ := (p.map fun t => t.1.sum).foldr max 0

/-- The order `(0,) * i + (j,) + (0,) * (nvars - i - 1)` (manifold.py 162). -/
def dirOrder (n i j : ℕ) : List ℕ := (List.replicate n 0).set i j

/-- The loop in direction `i` (manifold.py 159-164); the number of steps is bounded by the degree (`dirLoop_fuel`). -/
def dirLoop (n i : ℕ) (r : List K) : ℕ → List (List ℕ × K) → ℕ → List (List ℕ)
  | 0, _, _ => []
  | fuel + 1, p, j => if totalDeg p ≠ 0 ∧ evalDict p r = 0 then dirOrder n i j :: dirLoop n i r fuel (pdiff i p) (j + 1) else []

/-- `_is_binary_root` (manifold.py 71-72) for a rational root. -/
def isBinary (r : List K) : Bool := decide (r.eraseDups.length ≤ 2)

/-- `_compute_diff_orders(poly, root)` (manifold.py 110-165). -/
def diffOrders (n : ℕ) (p : List (List ℕ × K)) (r : List K) : List (List ℕ) :=
  if isBinary r then List.replicate n 0 :: (List.range n).flatMap fun i => dirLoop n i r (totalDeg p) (pdiff i p) 1 else [List.replicate n 0]

/-! ### `_compute_nonvanishing_diff_orders` -/

/-- `nonvanish` (manifold.py 182-190). -/
def nonvanish (r : List K) (m : List ℕ) : Bool := (List.zip r m).all fun t => decide (t.2 ≠ 0 → t.1 ≠ 0)

/-- The list `sets` (manifold.py 178, 193-197). -/
def zeroSets (n : ℕ) (r : List K) (m : List ℕ) (orders : List (List ℕ)) : List (List Pair) :=
  orders.flatMap fun o => ((diffMonomial [(m, [(List.replicate n 0, List.replicate n 0)])] o).filter fun t => nonvanish r t.1).map Prod.snd

/-- One set in the loop (manifold.py 206-216): what remains of it, and the new zero. `none` is the sentinel. -/
def stepSet (zero : Option (List ℕ)) (S : List Pair) : List Pair × Option (List ℕ) :=
  match S.filter fun p => ¬ (some p.1 = zero ∨ some p.2 = zero) with
  | [p] => ([], if p.1 = p.2 then some p.1 else none)
  | S' => (S', none)

/-- The loop (manifold.py 199-219); the number of steps is bounded by the number of sets (`work_steps`). -/
def work : ℕ → List (Option (List ℕ)) → List (List ℕ) → List (List Pair) → List (List ℕ)
  | 0, _, handled, _ => handled
  | _ + 1, [], handled, _ => handled
  | fuel + 1, zero :: queue, handled, sets =>
    if ∃ z ∈ zero, z ∈ handled then work fuel queue handled sets
    else
      let new := sets.map (stepSet zero)
      work fuel (queue ++ (new.filterMap Prod.snd).map some) (match zero with | none => handled | some z => handled ++ [z]) (new.map Prod.fst)

/-- `_compute_nonvanishing_diff_orders(poly, root, monomial)` (manifold.py 168-220). -/
def nonvanishingOrders (n : ℕ) (p : List (List ℕ × K)) (r : List K) (m : List ℕ) : List (List ℕ) :=
  let sets := zeroSets n r m (diffOrders n p r)
  work (sets.length + 2) [none] [] sets

/-! ### `Root.as_vec` and `_root_space` -/

/-- `_derv` (roots.py 35-44). -/
def derv (n i : ℕ) : ℕ := if i = 1 then n else if n < i then 0 else n.factorial / (n - i).factorial

/-- One entry of `Root.as_vec(n, diff)` (roots.py 149-163). -/
def asEntry {R : Type*} [CommRing R] (r : List R) (o m : List ℕ) : R :=
  if (List.zip m o).any fun t => decide (t.1 < t.2) then 0 else ((List.zipWith derv m o).prod : ℕ) * evalMonom (List.zipWith (· - ·) m o) r

/-- `Root.as_vec(n, diff)` for the list of monomials `monoms`. -/
def asVec (monoms : List (List ℕ)) (r : List K) (o : List ℕ) : List K := monoms.map (asEntry r o)

/-- `_root_space` (manifold.py 223-268) for a rational root and a monomial: `perms` is `symmetry.permute(root.root)`. -/
def rootSpace (n : ℕ) (p : List (List ℕ × K)) (perms : List (List K)) (m : List ℕ) (monoms : List (List ℕ)) : List (List K) :=
  perms.flatMap fun r => (nonvanishingOrders n p r m).map (asVec monoms r)

/-- `_root_space` for any other constraint `g` (manifold.py 249-263): only the vector of monomials, where `g` does not vanish.  `permute_vec(span, d)[:, j]` is the vector at the
`j`-th permuted root. -/
def rootSpaceGeneral (n : ℕ) (perms : List (List K)) (g : List (List ℕ × K)) (monoms : List (List ℕ)) : List (List K) :=
  (perms.filter fun r => evalDict g r ≠ 0).map fun r => asVec monoms r (List.replicate n 0)

/-- The test of feasibility in `_nullspace_from_roots` (manifold.py 375-382). -/
def feasible [LinearOrder K] (ineqs eqs : List (List (List ℕ × K))) (perms : List (List K)) : Bool :=
  perms.all fun r => !(ineqs.any (fun g => decide (evalDict g r < 0)) || eqs.any fun g => decide (evalDict g r ≠ 0))

/-- `RootSubspace._nullspace_from_roots` (manifold.py 371-393) for rational roots.  `permute` is `symmetry.permute`.  Simplified: the columns are not reduced to a basis of their span
(manifold.py 388-389), and `constraint.is_monomial` is a list of one term; the constraint is not zero. -/
def nullspaceFromRoots [LinearOrder K] (n : ℕ) (p : List (List ℕ × K)) (permute : List K → List (List K)) (ineqs eqs : List (List (List ℕ × K))) (g : List (List ℕ × K))
    (monoms : List (List ℕ)) (roots : List (List K)) : List (List K) :=
  roots.flatMap fun r =>
    if feasible ineqs eqs (permute r) then
      match g with
      | [(m, _)] => rootSpace n p (permute r) m monoms
      | _ => rootSpaceGeneral n (permute r) g monoms
    else []

/-- `product([0, 1], repeat=n)`. -/
def cube (K : Type*) [Field K] : ℕ → List (List K)
  | 0 => [[]]
  | n + 1 => [0, 1].flatMap fun x => (cube K n).map (x :: ·)

/-- `_findroot_binary(poly, symmetry)` (manifold.py 270-288): `std` is `symmetry.standard_monom`. -/
def findrootBinary (n : ℕ) (p : List (List ℕ × K)) (std : List K → List K) : List (List K) :=
  (((cube K n).filter fun r => evalDict p r = 0).map std).eraseDups.filter fun r => r ≠ List.replicate n 0

end Verif.Manifold
