import Verif.Model.Congruence
import Mathlib.Algebra.Order.Field.Basic
import Mathlib.Data.List.Sort

/-!
# Model of the search for roots (triples/utils/roots/findroot.py) and of `RootsInfo` (triples/utils/roots/rootsinfo.py)

The numerical solvers are parameters; what is modelled is how their results are selected, converted and recorded.
-/

namespace Verif.FindRoot

variable {K : Type*} [Field K] [LinearOrder K]

/-! ### `find_best` -/

/-- The loop of `find_best` (findroot.py 50-57). -/
def bestLoop {α : Type*} (f : α → K) (isMin : Bool) : List α → Option α × K → Option α × K
  | [], s => s
  | c :: l, s => bestLoop f isMin l (if (if isMin then decide (f c < s.2) else decide (s.2 < f c)) then (some c, f c) else s)

/-- `find_best` (findroot.py 19-57). -/
def findBest {α : Type*} (f : α → K) (isMin : Bool) (init : Option α) (v0 : K) (l : List α) : Option α × K := bestLoop f isMin l (init, v0)

/-! ### `optimize_discriminant` -/

/-- `product(range(-5, 7, 2), repeat = 2)` (findroot.py 114). -/
def grid : List (ℤ × ℤ) := ([-5, -3, -1, 1, 3, 5] : List ℤ).flatMap fun a => ([-5, -3, -1, 1, 3, 5] : List ℤ).map fun b => (a, b)

/-- The first loop (findroot.py 113-119). -/
def gridLoop (D : K → K → K) : List (ℤ × ℤ) → K × ℤ × ℤ → K × ℤ × ℤ
  | [], s => s
  | (a, b) :: l, s =>
    let v := D a b
    gridLoop D l (if v ≤ 0 then (v, a, b) else if v < s.1 then (v, a, b) else s)

/-- `product(range(a-1, a+2), range(b-1, b+2))` (findroot.py 123). -/
def near (a b : ℤ) : List (ℤ × ℤ) := [(a - 1, b - 1), (a - 1, b), (a - 1, b + 1), (a, b - 1), (a, b), (a, b + 1), (a + 1, b - 1), (a + 1, b), (a + 1, b + 1)]

/-- The second loop (findroot.py 123-129): `v`, `a`, `b` are variables of the loop, so they keep the last point that was tried.
`best_choice` is only printed. -/
def nearLoop (D : K → K → K) : List (ℤ × ℤ) → K × ℤ × ℤ → K × ℤ × ℤ
  | [], s => s
  | (a, b) :: l, _ => if D a b ≤ 0 then (D a b, a, b) else nearLoop D l (D a b, a, b)

/-- The last loop (findroot.py 158-169) over the five roundings; the accumulator is the last pair of rounded numbers. -/
def roundLoop (D : K → K → K) (soft : Bool) : List (K × K) → Option (K × K) → Option (K × K)
  | [], s => if soft then s else none
  | p :: l, _ => if D p.1 p.2 ≤ 0 then some p else roundLoop D soft l (some p)

/-- The point from which the second half starts (findroot.py 113-133), and its value. -/
def odStart (D : K → K → K) : K × ℤ × ℤ :=
  let s := gridLoop D grid (2147483647, 0, 0)
  if 0 < s.1 then nearLoop D (near s.2.1 s.2.2) s else s

/-- `optimize_discriminant` (findroot.py 110-169).  `newton` gives the value at the end of Newton's iteration (135-152) and the
five pairs of rounded numbers (160-161). -/
def optDisc (D : K → K → K) (soft : Bool) (newton : ℤ → ℤ → K × List (K × K)) : Option (K × K) :=
  let s := odStart D
  if s.1 ≤ 0 then some ((s.2.1 : K), (s.2.2 : K))
  else
    let n := newton s.2.1 s.2.2
    if 1 / 1000000 < n.1 ∧ soft = false then none else roundLoop D soft n.2 none

/-! ### Homogeneous and inhomogeneous points -/

/-- The two methods of standardisation. -/
inductive Std where
  | simplex
  | part
  deriving DecidableEq

/-- `_destd_root` on one root (findroot.py 385-406); the conversion to floats is exact here. -/
def destd (m : Std) (r : List K) : List K :=
  match m with
  | .simplex => r.dropLast.map (· / (r.sum / r.length))
  | .part => r.dropLast

/-- `_std_root` on one root (findroot.py 409-428). -/
def std (m : Std) (r : List K) : List K :=
  match m with
  | .simplex => r ++ [((r.length + 1 : ℕ) : K) - r.sum]
  | .part => r ++ [1]

/-! ### Selection -/

section Select
variable {R : Type*}

/-- `d[k] = v` for a dictionary (insertion order is kept on overwriting). -/
def put {κ : Type*} [DecidableEq κ] (k : κ) (v : R) : List (κ × R) → List (κ × R)
  | [] => [(k, v)]
  | e :: d => if e.1 = k then (k, v) :: d else e :: put k v d

/-- `_remove_duplicative_roots` (findroot.py 430-437) after the standardisation; `key` rounds to four digits. -/
def removeDup {κ : Type*} [DecidableEq κ] (key : R → κ) (l : List R) : List R :=
  (l.foldl (fun d r => put (key r) r d) []).map Prod.snd

/-- The order of the pairs `(value, index)` (findroot.py 298-299). -/
def pairLe (a b : K × ℕ) : Prop := a.1 < b.1 ∨ (a.1 = b.1 ∧ a.2 ≤ b.2)

instance : DecidableRel (pairLe (K := K)) := fun _ _ => inferInstanceAs (Decidable (_ ∨ _))

/-- `vals` (findroot.py 298-301). -/
def selVals (ev : R → K) (most : ℕ) (roots : List R) : List (K × ℕ) :=
  ((roots.zipIdx.map fun p => (ev p.1, p.2)).insertionSort pairLe).take most

/-- The two lists given to `RootsInfo` (findroot.py 305-306): all selected roots, and those of value below the tolerance. -/
def select (ev : R → K) (most : ℕ) (reg : K) (roots : List R) : List R × List R :=
  let vals := selVals ev most roots
  (vals.filterMap fun p => roots[p.2]?, (vals.filter fun p => decide (p.1 < reg)).filterMap fun p => roots[p.2]?)

/-- `normal_roots` (rootsinfo.py 58-63): the symmetric difference of the two sets. -/
def normalRoots [DecidableEq R] (roots strict : List R) : List R :=
  (roots.filter fun r => decide (r ∉ strict)) ++ (strict.filter fun r => decide (r ∉ roots))

/-- `norm_r` (rootsinfo.py 154-156). -/
def normR (r : List K) : List K := r.map (· / ((r.map abs).sum / r.length))

/-- `filter_tangents` (rootsinfo.py 126-163): a tangent is its function. -/
def filterTangents (tol : K) (nontrivial : List (List K)) (tangents : List (List K → K)) : List (List K → K) :=
  if nontrivial.isEmpty then tangents
  else tangents.filter fun t => nontrivial.all fun r => decide (|t (normR r)| < tol)

/-- The removal of duplicates at the end of `_findroot_resultant_ternary` (findroot.py 649-657). -/
def clearRoots [DecidableEq R] : List R → List R → List R
  | [], acc => acc
  | r :: l, acc => clearRoots l (if acc.any fun s => decide (s = r) then acc else acc ++ [r])

end Select

end Verif.FindRoot
