import Verif.Model.Congruence
import Mathlib.Algebra.BigOperators.Group.Finset.Basic
import Mathlib.Algebra.Order.Ring.Rat
import Mathlib.Algebra.Order.Group.Nat
import Mathlib.Algebra.Order.Group.Int

/-!
# Rational matrix products through machine integers

Model of `matmul`, `matmul_multiple`, `symmetric_bilinear` and `symmetric_bilinear_multiple` (triples/sdp/arithmetic.py 640-866) for rational matrices.
Not modelled: matrices with other entries (they go to SymPy's product directly) and the printed timings.
-/

namespace Verif.IntMul

open Verif Finset

/-- A rational matrix (a SymPy `Matrix` over `ZZ` or `QQ`). -/
structure RMat where
  rows : ℕ
  cols : ℕ
  val : ℕ → ℕ → ℚ

/-- `_INT64_MAX` (arithmetic.py 70). -/
def int64Max : ℤ := 2 ^ 63 - 1

/-- Two's complement reduction to 64 bits, the arithmetic of NumPy `int64` arrays. -/
def wrap (z : ℤ) : ℤ := (z + 2 ^ 63) % 2 ^ 64 - 2 ^ 63

/-- The entries row by row (the order of `flatten`). -/
def entries (r c : ℕ) (M : ℕ → ℕ → ℤ) : List ℤ := (List.range r).flatMap fun i => (List.range c).map fun j => M i j

/-- Whether `_cast_sympy_matrix_to_numpy` succeeds (arithmetic.py 605-624): assigning a value outside 64 bits raises `OverflowError`. -/
def castOk (r c : ℕ) (M : ℕ → ℕ → ℤ) : Bool := (entries r c M).all fun z => decide (-2 ^ 63 ≤ z ∧ z < 2 ^ 63)

/-- `abs` of an `int64` entry: the most negative number is its own absolute value. -/
def npAbs (z : ℤ) : ℤ := wrap |z|

/-- `abs(A).max()`; an empty array raises `ValueError`. -/
def npAbsMax (r c : ℕ) (M : ℕ → ℕ → ℤ) : Except PyErr ℤ :=
  match (entries r c M).map npAbs with
  | [] => .error .valueError
  | x :: l => .ok (l.foldl max x)

/-- One entry of `A @ B` for `int64` arrays: products and partial sums are reduced. -/
def npDot (n : ℕ) (a b : ℕ → ℤ) : ℤ := (List.range n).foldl (fun acc k => wrap (acc + wrap (a k * b k))) 0

/-- SymPy's own exact product. -/
def exactMul (A B : RMat) : RMat := ⟨A.rows, B.cols, fun i j => ∑ k ∈ range B.rows, A.val i k * B.val k j⟩

/-- `reshape` to the requested shape, reading row by row. -/
def reshape (M : RMat) (r c : ℕ) : RMat := ⟨r, c, fun i j => M.val ((i * c + j) / M.cols) ((i * c + j) % M.cols)⟩

/-- `sp.zeros`. -/
def zeros (r c : ℕ) : RMat := ⟨r, c, fun _ _ => 0⟩

/-- `if return_shape: AB = AB.reshape(*return_shape)`. -/
def reshapeOpt (M : RMat) : Option (ℕ × ℕ) → RMat
  | none => M
  | some s => reshape M s.1 s.2

/-- `_cast_list_to_sympy_matrix(*return_shape, C) * q` on the flattened product (arithmetic.py 626-637, 688-690). -/
def fromFlat (M : ℕ → ℕ → ℤ) (cols : ℕ) (q : ℚ) (r c : ℕ) : RMat := ⟨r, c, fun i j => (M ((i * c + j) / cols) ((i * c + j) % cols) : ℤ) * q⟩

/-- `matmul` (arithmetic.py 640-690) for rational matrices.  `prim` is SymPy's `primitive`: the content and the integer part.  The tests for `nan` and
`inf` never fire on integers. -/
def matmul (prim : RMat → ℚ × (ℕ → ℕ → ℤ)) (A B : RMat) (shape : Option (ℕ × ℕ)) : Except PyErr RMat :=
  if A.rows = 0 ∨ B.rows = 0 ∨ B.cols = 0 then .ok (let s := shape.getD (A.rows, B.cols); zeros s.1 s.2)
  else if castOk A.rows A.cols (prim A).2 = false then .ok (reshapeOpt (exactMul A B) shape)
  else (npAbsMax A.rows A.cols (prim A).2).bind fun maxA =>
    if int64Max < maxA then .ok (reshapeOpt (exactMul A B) shape)
    else if castOk B.rows B.cols (prim B).2 = false then .ok (reshapeOpt (exactMul A B) shape)
    else (npAbsMax B.rows B.cols (prim B).2).bind fun maxB =>
      if int64Max < maxB ∨ int64Max < maxA * maxB * B.rows then .ok (reshapeOpt (exactMul A B) shape)
      else
        let s := shape.getD (A.rows, B.cols)
        .ok (fromFlat (fun i j => npDot B.rows (fun k => (prim A).2 i k) fun k => (prim B).2 k j) B.cols ((prim A).1 * (prim B).1) s.1 s.2)

/-- `Mat2Vec.vec2mat(A[i, :])` for a row of length `n ^ 2`. -/
def rowMat (n : ℕ) (A : RMat) (t : ℕ) : RMat := ⟨n, n, fun i j => A.val t (i * n + j)⟩

/-- Collects the rows of a loop, or the first exception. -/
def collectRows : List (Except PyErr RMat) → Except PyErr (List RMat)
  | [] => .ok []
  | r :: l => r.bind fun m => (collectRows l).map (m :: ·)

/-- `sp.Matrix.vstack` of one-row matrices. -/
def vstack (c : ℕ) (l : List RMat) : RMat := ⟨l.length, c, fun i j => (l.map fun m => m.val 0 j).getD i 0⟩

/-- The fallback of `matmul_multiple` (arithmetic.py 709-716). -/
def multipleDefault (prim : RMat → ℚ × (ℕ → ℕ → ℤ)) (A B : RMat) : Except PyErr RMat :=
  (collectRows ((List.range A.rows).map fun t => matmul prim (rowMat B.rows A t) B (some (1, B.rows * B.cols)))).map
    (vstack (B.rows * B.cols))

/-- `matmul_multiple` (arithmetic.py 693-769). -/
def matmulMultiple (prim : RMat → ℚ × (ℕ → ℕ → ℤ)) (A B : RMat) : Except PyErr RMat :=
  if A.rows = 0 ∨ B.rows = 0 ∨ B.cols = 0 then .ok (zeros A.rows (B.rows * B.cols))
  else if castOk A.rows A.cols (prim A).2 = false then multipleDefault prim A B
  else (npAbsMax A.rows A.cols (prim A).2).bind fun maxA =>
    if int64Max < maxA then multipleDefault prim A B
    else if castOk B.rows B.cols (prim B).2 = false then multipleDefault prim A B
    else (npAbsMax B.rows B.cols (prim B).2).bind fun maxB =>
      if int64Max < maxB ∨ int64Max < maxA * maxB * B.rows then multipleDefault prim A B
      else .ok ⟨A.rows, B.rows * B.cols, fun t c =>
        (npDot B.rows (fun k => (prim A).2 t (c / B.cols * B.rows + k)) fun k => (prim B).2 k (c % B.cols) : ℤ) * ((prim A).1 * (prim B).1)⟩

/-- The transpose. -/
def transpose (U : RMat) : RMat := ⟨U.cols, U.rows, fun i j => U.val j i⟩

/-- `symmetric_bilinear` (arithmetic.py 772-800) on a matrix. -/
def symmetricBilinear (prim : RMat → ℚ × (ℕ → ℕ → ℤ)) (U A : RMat) (shape : Option (ℕ × ℕ)) : Except PyErr RMat :=
  (matmul prim A U none).bind fun AU => (matmul prim (transpose U) AU none).map fun M => reshapeOpt M shape

/-- The fallback of `symmetric_bilinear_multiple` (arithmetic.py 816-824). -/
def bilinearDefault (prim : RMat → ℚ × (ℕ → ℕ → ℤ)) (U A : RMat) : Except PyErr RMat :=
  (collectRows ((List.range A.rows).map fun t => symmetricBilinear prim U (rowMat U.rows A t) (some (1, U.cols * U.cols)))).map
    (vstack (U.cols * U.cols))

/-- `symmetric_bilinear_multiple` (arithmetic.py 803-866): `U.T @ A @ U` is evaluated from the left. -/
def bilinearMultiple (prim : RMat → ℚ × (ℕ → ℕ → ℤ)) (U A : RMat) : Except PyErr RMat :=
  if A.rows = 0 then .ok (zeros 0 (U.cols * U.cols))
  else if castOk A.rows A.cols (prim A).2 = false then bilinearDefault prim U A
  else (npAbsMax A.rows A.cols (prim A).2).bind fun maxA =>
    if int64Max < maxA then bilinearDefault prim U A
    else if castOk U.rows U.cols (prim U).2 = false then bilinearDefault prim U A
    else (npAbsMax U.rows U.cols (prim U).2).bind fun maxU =>
      if int64Max < maxU ∨ int64Max < maxA * maxU ^ 2 * (U.rows : ℤ) ^ 2 then bilinearDefault prim U A
      else .ok ⟨A.rows, U.cols * U.cols, fun t c =>
        (npDot U.rows (fun l => npDot U.rows (fun k => (prim U).2 k (c / U.cols)) fun k => (prim A).2 t (k * U.rows + l))
          fun l => (prim U).2 l (c % U.cols) : ℤ) * ((prim A).1 * (prim U).1 ^ 2)⟩

end Verif.IntMul
