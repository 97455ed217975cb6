import Verif.Model.Congruence
import Verif.Basic.PyDict
import Mathlib.Algebra.BigOperators.Group.Finset.Basic
import Mathlib.Algebra.Order.Field.Basic
import Mathlib.Data.Nat.Sqrt
import Mathlib.Data.Rat.Defs
import Mathlib.Algebra.Order.Ring.Rat

/-!
# Model of triples/sdp/backend

Floating point numbers are replaced by an ordered field; the numerical solvers themselves are not modelled: what is modelled is the problem handed
to them and the vector read back.
-/

namespace Verif.Backend

open Verif Finset

variable {K : Type*} [Field K] [LinearOrder K]

/-- A one-dimensional array. -/
structure Vec (K : Type*) where
  len : ℕ
  val : ℕ → K

/-- A two-dimensional array. -/
structure Arr (K : Type*) where
  rows : ℕ
  cols : ℕ
  val : ℕ → ℕ → K

/-- `int(round(np.sqrt(n)))` (backend.py 189): the nearest integer to the square root (halves do not occur for integers). -/
def roundSqrt (n : ℕ) : ℕ := if n - n.sqrt * n.sqrt > n.sqrt then n.sqrt + 1 else n.sqrt

/-- The standardised comparison operators (backend.py 21-35, values). -/
inductive Op
  | ge
  | le
  | eq
deriving DecidableEq

/-- `_STANDARDIZED_OPERATORS` (backend.py 21-35). -/
def operators : List (String × Op) :=
  [(">", .ge), ("<", .le), ("=", .eq), ("==", .eq), (">=", .ge), ("<=", .le), ("__gt__", .ge), ("__lt__", .le), ("__ge__", .ge), ("__le__", .le),
    ("__eq__", .eq), ("__leq__", .le), ("__geq__", .ge)]

/-- `extend_vector` (backend.py 66-76) on a vector: a zero is appended for the relaxation variable. -/
def extendVector (dof : ℕ) (v : Vec K) : Vec K :=
  if v.len = dof then ⟨dof + 1, fun i => if i < dof then v.val i else 0⟩ else v

/-! ### Dual problems -/

/-- One linear matrix inequality `Mat(x0 + space @ z) >> 0` (backend.py 145). -/
structure LMI (K : Type*) where
  x0 : Vec K
  space : Arr K

/-- The state of a dual backend (backend.py 125-127 and the lists of the subclasses). -/
structure Dual (K : Type*) where
  dof : ℕ
  lmis : List (LMI K)
  objective : Option (Vec K)

/-- `extend_space` (backend.py 173-193) with `min_eigen = (k, b)`.  `set` says whether `min_eigen != 0` (a tuple differs from `0`). -/
def extendSpace (dof : ℕ) (x0 : Vec K) (space : Arr K) (k b : K) (set : Bool) : Except PyErr (Vec K × Arr K) :=
  if space.cols = dof + 1 then (if set then .error .valueError else .ok (x0, space))
  else if space.cols ≠ dof then .error .valueError
  else
    let m := roundSqrt space.rows
    if m * m ≠ space.rows then .error .valueError
    else .ok (⟨x0.len, fun i => if i < m * m ∧ i % (m + 1) = 0 then x0.val i - b else x0.val i⟩,
      ⟨space.rows, space.cols + 1, fun r c => if c < space.cols then space.val r c else if r % (m + 1) = 0 then 1 * -k else 0⟩)

/-- `_add_constraint` of the dual backends: the linear constraint as one or two matrix inequalities of size one (backend.py 151-171). -/
def constraintLMIs (c : Vec K) (rhs : K) : Op → List (LMI K)
  | .ge => [⟨⟨1, fun _ => -rhs⟩, ⟨1, c.len, fun _ j => c.val j⟩⟩]
  | .le => [⟨⟨1, fun _ => -(-rhs)⟩, ⟨1, c.len, fun _ j => -c.val j⟩⟩]
  | .eq => [⟨⟨1, fun _ => -rhs⟩, ⟨1, c.len, fun _ j => c.val j⟩⟩, ⟨⟨1, fun _ => -(-rhs)⟩, ⟨1, c.len, fun _ j => -c.val j⟩⟩]

/-- `add_constraint` (backend.py 55-64). -/
def addConstraint (B : Dual K) (c : Vec K) (rhs : K) (op : String) : Except PyErr (Dual K) :=
  match dget operators op with
  | none => .error .valueError
  | some o => .ok { B with lmis := B.lmis ++ constraintLMIs (extendVector B.dof c) rhs o }

/-- `add_linear_matrix_inequality` (backend.py 141-148). -/
def addLMI (B : Dual K) (x0 : Vec K) (space : Arr K) (k b : K) (set : Bool) : Except PyErr (Dual K) :=
  (extendSpace B.dof x0 space k b set).map fun r => { B with lmis := B.lmis ++ [⟨r.1, r.2⟩] }

/-- One item of `x0_and_space` with its `min_eigen` (caller.py 70-90). -/
structure Block (K : Type*) where
  x0 : Vec K
  space : Arr K
  k : K
  b : K

/-- The largest absolute value of a block, `0` when its space is empty (caller.py 78). -/
def blockMax (B : Block K) : K :=
  if B.space.rows * B.space.cols = 0 then 0
  else (((List.range B.x0.len).map fun i => |B.x0.val i|) ++
    (List.range B.space.rows).flatMap fun r => (List.range B.space.cols).map fun c => |B.space.val r c|).foldl max 0

/-- The scaling factor (caller.py 77-79); `0` means none. -/
def scaleFactor (scaling : K) (blocks : List (Block K)) : K :=
  if 0 < scaling then
    let mx := (blocks.map blockMax).foldl max 0
    if 0 < mx then scaling / mx else 0
  else 0

/-- `x0 * scaling, space * scaling` and `(k * scaling, b * scaling)` (caller.py 80-83). -/
def scaleBlock (s : K) (B : Block K) : Block K :=
  ⟨⟨B.x0.len, fun i => B.x0.val i * s⟩, ⟨B.space.rows, B.space.cols, fun r c => B.space.val r c * s⟩, B.k * s, B.b * s⟩

/-- The loop over the blocks (caller.py 87-90). -/
def addBlocks (B : Dual K) : List (Block K) → Except PyErr (Dual K)
  | [] => .ok B
  | b :: l => if b.x0.len = 0 then addBlocks B l else (addLMI B b.x0 b.space b.k b.b true).bind fun B' => addBlocks B' l

/-- The loop over the constraints (caller.py 93-94). -/
def addConstraints (B : Dual K) : List (Vec K × K × String) → Except PyErr (Dual K)
  | [] => .ok B
  | c :: l => (addConstraint B c.1 c.2.1 c.2.2).bind fun B' => addConstraints B' l

/-- `add_relax_var_nonnegative_inequality` (backend.py 78-84). -/
def relaxVec (dof : ℕ) : Vec K := ⟨dof + 1, fun i => if i = dof then 1 else 0⟩

/-- `_create_numerical_dual_sdp` (caller.py 46-102) for `dof > 0` after the conversion of `min_eigen` to pairs. -/
def createDual (dof : ℕ) (blocks : List (Block K)) (objective : Vec K) (constraints : List (Vec K × K × String)) (lower : Option K) (scaling : K)
    (relax : Bool) : Except PyErr (Dual K) :=
  let s := scaleFactor scaling blocks
  let blocks := if 0 < s then blocks.map (scaleBlock s) else blocks
  (addBlocks ⟨dof, [], none⟩ blocks).bind fun B =>
  (addConstraints { B with objective := some (extendVector dof objective) } constraints).bind fun B =>
  (if relax then addConstraint B (relaxVec dof) 0 "__ge__" else .ok B).bind fun B =>
  match lower with
  | none => .ok B
  | some lb => addConstraint B objective lb "__ge__"

/-- How `min_eigen` is given (caller.py 50). -/
inductive MinEigen (K : Type*)
  | number (b : K)
  | pair (k b : K)

/-- The conversion of `min_eigen` when it is a dictionary (caller.py 72-83): the values are not converted to pairs, and the scaling step unpacks
them. -/
def unpackMinEigen : MinEigen K → Except PyErr (K × K)
  | .number _ => .error .typeError
  | .pair k b => .ok (k, b)

/-- The dictionary comprehension of the scaling step over all values (caller.py 83). -/
def unpackMinEigens : List (MinEigen K) → Except PyErr (List (K × K))
  | [] => .ok []
  | m :: l => (unpackMinEigen m).bind fun p => (unpackMinEigens l).map (p :: ·)

/-- `_create_numerical_dual_sdp` with the early return for no variables (caller.py 59-62): `DegeneratedDualBackend` ignores everything it is given
(backend.py 196-208). -/
def createDualAny (dof : ℕ) (blocks : List (Block K)) (objective : Vec K) (constraints : List (Vec K × K × String)) (lower : Option K) (scaling : K)
    (relax : Bool) : Except PyErr (Dual K) :=
  if dof = 0 then .ok ⟨0, [], none⟩ else createDual dof blocks objective constraints lower scaling relax

/-! ### SDPA: zero columns are dropped -/

/-- `np.vstack(self._As)` and the mask of the columns that are not zero (sdpap_sdp.py 53-58). -/
def usedCols (N : ℕ) (lmis : List (LMI K)) : List ℕ :=
  (List.range N).filter fun c => lmis.any fun L => (List.range L.space.rows).any fun r => decide (L.space.val r c ≠ 0)

/-- `_retrieve_y` (sdpap_sdp.py 65-79): position of the column among the used ones, or zero. -/
def retrieve (N : ℕ) (lmis : List (LMI K)) (y : ℕ → K) (c : ℕ) : K :=
  if c ∈ usedCols N lmis then y ((usedCols N lmis).idxOf c) else 0

/-! ### Clarabel and Mosek: packed triangles -/

/-- The positions of the upper triangle, column by column (clarabel_sdp.py 42) or row by row (mosek_sdp.py 55). -/
def triRows (rowMajor : Bool) (n : ℕ) : List (ℕ × ℕ) :=
  if rowMajor then (List.range n).flatMap fun i => (List.range n).filterMap fun j => if i ≤ j then some (i, j) else none
  else (List.range n).flatMap fun j => (List.range n).filterMap fun i => if i ≤ j then some (i, j) else none

/-- `_convert_space_to_isometric` on one column (clarabel_sdp.py 35-44, mosek_sdp.py 48-57); `s` is the square root of two. -/
def svec (s : K) (rowMajor : Bool) (n : ℕ) (M : ℕ → ℕ → K) : List K :=
  (triRows rowMajor n).map fun ij => if ij.1 = ij.2 then M ij.1 ij.2 * s * s⁻¹ else M ij.1 ij.2 * s

/-- `_convert_vec_to_matrix` (clarabel_sdp.py 122-133, mosek_sdp.py 152-163). -/
def unsvec (s : K) (rowMajor : Bool) (n : ℕ) (v : List K) (i j : ℕ) : K :=
  let mat := fun (i j : ℕ) =>
    if i ≤ j then
      let x := v.getD ((triRows rowMajor n).idxOf (i, j)) 0 / (s / 2)
      if i = j then x * (s / 2) else x
    else 0
  (mat i j + mat j i) * (1 / 2)

/-! ### Primal problems -/

/-- The state of a primal backend (backend.py 237-247): `x0`, the column of the relaxation variable, and per matrix its size, its space and its
eigenvalue relaxation. -/
structure Primal (K : Type*) where
  neq : ℕ
  x0 : ℕ → K
  relaxCol : ℕ → K
  mats : List (ℕ × Arr K × K × K)

/-- `add_linear_matrix_equality` (backend.py 267-288). -/
def addLME (P : Primal K) (space : Arr K) (k b : K) : Primal K :=
  let m := roundSqrt space.cols
  let x := fun r => ∑ c ∈ range space.cols, space.val r c * (if c % (m + 1) = 0 then 1 else 0)
  { P with
    relaxCol := if k ≠ 0 then fun r => P.relaxCol r + x r * k else P.relaxCol
    x0 := if b ≠ 0 then fun r => P.x0 r - x r * b else P.x0
    mats := P.mats ++ [(m, space, k, b)] }

/-- The loop (caller.py 198-200) from the fresh state. -/
def createPrimal (neq : ℕ) (x0 : ℕ → K) (spaces : List (Arr K × K × K)) : Primal K :=
  spaces.foldl (fun P s => addLME P s.1 s.2.1 s.2.2) ⟨neq, x0, fun _ => 0, []⟩

/-- `restore_eigen` (backend.py 306-319). -/
def restoreEigen (P : Primal K) (S : List (ℕ → K)) (r : K) : List (ℕ → K) :=
  List.zipWith (fun (q : ℕ × Arr K × K × K) v => fun c => if c < q.1 * q.1 ∧ c % (q.1 + 1) = 0 then v c + (q.2.2.1 * r + q.2.2.2) else v c) P.mats S

/-- `split_vector` and the inner products of the primal backends with a linear constraint (cvxpy_sdp.py 111-114 and the others): the blocks of the
vector against the matrices that the solver sees, and the last entry against the relaxation variable. -/
def primalDot (c : ℕ → K) (sizes : List ℕ) (S : List (ℕ → K)) (r : K) : ℕ → K
  | off => match sizes, S with
    | m :: sizes, v :: S => (∑ i ∈ range (m * m), c (off + i) * v i) + primalDot c sizes S r (off + m * m)
    | _, _ => c off * r
termination_by structural sizes

end Verif.Backend
