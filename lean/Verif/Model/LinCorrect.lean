import Verif.Basic.Terms
import Verif.Model.Congruence
import Verif.Model.Rationalize

/-!
# Model of triples/core/linsos/correction.py and of the basis objects

The weights of the linear program are floats, that is, rational numbers; the coefficients of polynomials live in an ordered field `K`.
-/

namespace Verif.LinSOS

open Verif TermsPoly MonoMgr

variable {K : Type*}

/-- A basis object: `LinearBasisTangent` with its powers and tangent (basis.py 87-104), or `LinearBasisMultiplier` with its multiplier
(updegree.py 11-40).  The tangent is its polynomial; its expression form is equal to it for every caller. -/
inductive Base (K : Type*)
  | tangent (powers : List ℕ) (t : List (List ℕ × K))
  | mult (m : List (List ℕ × K))
  deriving DecidableEq

/-- Is the object a `LinearBasisMultiplier`? -/
def Base.isMult : Base K → Bool
  | .tangent _ _ => false
  | .mult _ => true

/-- `as_poly` (basis.py 103-104, updegree.py 30-32) for the problem `f`. -/
def Base.asPoly [Ring K] [DecidableEq K] (f : List (List ℕ × K)) : Base K → List (List ℕ × K)
  | .tangent ps t => pmul [(ps, 1)] t
  | .mult m => pmul f (pneg m)

/-- `y[-num:]`: for `num = 0` this is the whole list. -/
def pySuffix {α : Type*} (num : ℕ) (y : List α) : List α := if num = 0 then y else y.drop (y.length - num)

/-- `_filter_zero_y` (correction.py 11-22). -/
def filterZeroY {B : Type*} [Zero K] [DecidableEq K] (y : List K) (basis : List B) (num : ℕ) : List K × List B × ℕ :=
  let kept := (y.zip basis).filter fun t => decide (t.1 ≠ 0)
  (kept.map Prod.fst, kept.map Prod.snd, (pySuffix num y).countP fun v => decide (v ≠ 0))

/-- `Matrix.reshape(r, c)` on the flat list of entries: consecutive blocks of length `c`. -/
def chunks {α : Type*} (c : ℕ) : ℕ → List α → List (List α)
  | 0, _ => []
  | r + 1, l => l.take c :: chunks c r (l.drop c)

/-- `_basis_as_matrix` (correction.py 24-30) before the transposition: one row per basis.  SymPy stacks the column vectors and reshapes the
stack to the length of the first one. -/
def basisAsMatrix [Ring K] [DecidableEq K] (M : MonoMgr) (f : List (List ℕ × K)) (basis : List (Base K)) : Except PyErr (List (List K)) :=
  let mat := basis.map fun b => M.arraylize (b.asPoly f) true
  match mat with
  | [] => .error .indexError
  | r :: _ => if mat.flatten.length = mat.length * r.length then .ok (chunks r.length mat.length mat.flatten) else .error .valueError

/-- The regularizer entries of the basis elements (correction.py 32-38); a negative count of zeros is an empty list in Python, and then
stacking raises an error. -/
def regularizer [Zero K] [One K] (len num : ℕ) : Except PyErr (List K) :=
  if num ≤ len then .ok (List.replicate (len - num) 0 ++ List.replicate num 1) else .error .valueError

/-- `reduced_arrays * y` for the rows of the basis elements `rows` and the regularizer: the linear combination of the rows, followed by the
regularizer value. -/
def product [Semiring K] (width : ℕ) (rows : List (List K)) (reg y : List K) : List K :=
  (List.range width).map (fun i => (List.zipWith (fun r v => r.getD i 0 * v) rows y).sum) ++ [(List.zipWith (· * ·) reg y).sum]

/-- The right-hand side (correction.py 78-79). -/
def target [Zero K] [One K] (width : ℕ) : List K := List.replicate width 0 ++ [1]

/-- `_basis_as_matrix`, `_add_regularizer` and the comparison with the right-hand side (correction.py 71-83, 91-94). -/
def holdsExactly [Ring K] [DecidableEq K] (M : MonoMgr) (f : List (List ℕ × K)) (y : List K) (basis : List (Base K)) (num width : ℕ) :
    Except PyErr Bool :=
  match basisAsMatrix M f basis with
  | .error e => .error e
  | .ok rows => match regularizer (K := K) basis.length num with
    | .error e => .error e
    | .ok reg => if y.length ≠ basis.length then .error .valueError
        else .ok (decide (product (rows.headD []).length rows reg y = target width))

/-- The second attempt (correction.py 86-99): `none` is "no solution" (an exception, a negative weight, or a failed check). -/
def secondTry [Ring K] [LinearOrder K] (M : MonoMgr) (f : List (List ℕ × K)) (solution : Option (List K)) (basis : List (Base K)) (num width : ℕ) :
    Option (List K × List (Base K)) :=
  match solution with
  | none => none
  | some z =>
    if ∀ v ∈ z, 0 ≤ v then
      let r := filterZeroY z basis num
      match holdsExactly M f r.1 r.2.1 r.2.2 width with
      | .ok true => some (r.1, r.2.1)
      | _ => none
    else none

/-- `np.abs(y).max()`; `none` is the `ValueError` for an empty array. -/
def maxAbs : List ℚ → Option ℚ
  | [] => none
  | v :: l => some (l.foldl (fun a u => max a |u|) |v|)

/-- `linear_correction` (correction.py 40-105).  `solve` is `LUsolve` (correction.py 107-133): it is given the rows of the basis elements with
their regularizer and the width, and returns any vector, or `none` for an exception. -/
def linearCorrection [Field K] [LinearOrder K] (M : MonoMgr) (f : List (List ℕ × K)) (solve : List (List K) → List K → ℕ → Option (List K))
    (tol : ℚ) (y : List ℚ) (basis : List (Base K)) (num : ℕ) : Except PyErr (List K × List (Base K) × Bool) :=
  match maxAbs y with
  | none => .error .valueError
  | some mx =>
    let yr : List K := (Rationalize.rationalizeArray y (mx * tol)).map fun v : ℚ => (v : K)
    let r := filterZeroY yr basis num
    match basisAsMatrix M f r.2.1 with
    | .error e => .error e
    | .ok rows =>
      let width := (rows.headD []).length
      match regularizer (K := K) r.2.1.length r.2.2 with
      | .error e => .error e
      | .ok reg =>
        if r.1.length ≠ r.2.1.length then .error .valueError
        else if product width rows reg r.1 = target width then .ok (r.1, r.2.1, true)
        else match secondTry M f (solve rows reg width) r.2.1 r.2.2 width with
          | some (z, b) => .ok (z, b, true)
          | none => .ok (r.1, r.2.1, false)

end Verif.LinSOS
