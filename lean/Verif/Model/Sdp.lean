import Verif.Model.LinSolve
import Mathlib.Algebra.BigOperators.Group.Finset.Basic

/-!
# Model of the dual SDP problem and its transformations (triples/sdp/transform.py, dual.py)

A dual problem is a list of blocks `vec(S) = x0 + space y`, read row by row (`Mat2Vec.DIRECT`), with a common number
`dof` of parameters.  The dictionary keyed by names is a list in insertion order; dictionaries of masks or of spaces
with the same keys are lists of the same length.
-/

namespace Verif.Sdp
open Verif Verif.LinSolve Finset

variable {K : Type*} [Field K] [DecidableEq K]

/-- One entry `(x0, space)` of `_x0_and_space` with the size `n` of the matrix (`length_of_mat`, sdp/utils.py 146-153:
`x0` has `n²` rows). -/
structure Block (K : Type*) where
  n : ℕ
  x0 : ℕ → K
  sp : ℕ → ℕ → K

/-- `SDPProblem` (sdp/dual.py 81-122): the blocks and the number of free symbols. -/
structure Dual (K : Type*) where
  dof : ℕ
  blocks : List (Block K)

/-- `S_from_y` for one block (sdp/utils.py 328-360): `vec2mat(x0 + space * y)`. -/
def Block.mat (b : Block K) (dof : ℕ) (y : ℕ → K) : ℕ → ℕ → K := fun i j =>
  b.x0 (i * b.n + j) + ∑ l ∈ range dof, b.sp (i * b.n + j) l * y l

/-- An affine map `y = x0 + space z`, the pair `(_trans_x0, _trans_space)` kept by a transformation. -/
structure Aff (K : Type*) where
  x0 : ℕ → K
  sp : ℕ → ℕ → K
  dim : ℕ

/-- `_trans_space * z + _trans_x0` (sdp/transform.py 229, 497) -/
def Aff.app (t : Aff K) (z : ℕ → K) : ℕ → K := fun l => t.x0 l + ∑ m ∈ range t.dim, t.sp l m * z m

/-- Substitute `y = t z` in a block without changing the matrix: `x0 + space @ b`, `space @ A`
(sdp/transform.py 487-488). -/
def Block.subst (b : Block K) (dof : ℕ) (t : Aff K) : Block K where
  n := b.n
  x0 := fun k => b.x0 k + ∑ l ∈ range dof, b.sp k l * t.x0 l
  sp := fun k m => ∑ l ∈ range dof, b.sp k l * t.sp l m

/-- A list of equations `Σ_l row_l y_l + c = 0` solved by `solve_undetermined_linear(eqs, -rhs)`. -/
def solveEqs (dof : ℕ) (rows : List ((ℕ → K) × K)) : Except PyErr (Aff K) :=
  match solveUndetermined rows.length dof 1 (fun i l => (rows.getD i (fun _ => 0, 0)).1 l)
    (fun i _ => - (rows.getD i (fun _ => 0, 0)).2) with
  | .error e => .error e
  | .ok (x0, sp, n) => .ok ⟨fun l => x0 l 0, sp, n⟩

/-! ## Row masking (transform.py 294-397) -/

/-- `_get_zero_diagonals` of a dual problem (transform.py 819-828), one block. -/
def zeroDiag (dof : ℕ) (b : Block K) : List ℕ :=
  (List.range b.n).filter fun i => decide (b.x0 (i * b.n + i) = 0) && (List.range dof).all fun l => decide (b.sp (i * b.n + i) l = 0)

/-- The rows `i*n, ..., (i+1)*n-1` for the masked `i` (transform.py 371-376). -/
def maskRows (b : Block K) (mask : List ℕ) : List ((ℕ → K) × K) :=
  mask.flatMap fun i => (List.range b.n).map fun j => (b.sp (i * b.n + j), b.x0 (i * b.n + j))

/-- `unmasks[key]` (transform.py 309-312) -/
def unmask (n : ℕ) (mask : List ℕ) : List ℕ := (List.range n).filter fun i => !mask.contains i

/-- `nonzero_inds[key]` (transform.py 378-383) -/
def nonzeroInds (n : ℕ) (um : List ℕ) : List ℕ := um.flatMap fun i => um.map fun j => i * n + j

/-- Rows `inds` of a block as a block of size `r` (transform.py 390-395, before the substitution). -/
def Block.extract (b : Block K) (r : ℕ) (inds : List ℕ) : Block K where
  n := r
  x0 := fun k => b.x0 (inds.getD k 0)
  sp := fun k l => b.sp (inds.getD k 0) l

/-- the child block of a row masking -/
def maskBlock (b : Block K) (mask : List ℕ) : Block K :=
  b.extract (unmask b.n mask).length (nonzeroInds b.n (unmask b.n mask))

/-- `DualRowMasking._init_child_node` (transform.py 363-397).  Every mask must name rows of its block. -/
def rowMask (d : Dual K) (masks : List (List ℕ)) : Except PyErr (Aff K × Dual K) :=
  if masks.length ≠ d.blocks.length then .error .keyError
  else
    match solveEqs d.dof ((d.blocks.zip masks).flatMap fun p => maskRows p.1 p.2) with
    | .error e => .error e
    | .ok t => .ok (t, ⟨t.dim, (d.blocks.zip masks).map fun p => (maskBlock p.1 p.2).subst d.dof t⟩)

/-- `constrain_zero_diagonals` (transform.py 330-346) on a dual problem: mask the zero diagonals until there are none.
Returns the maps of the chain, outermost first, and the last problem.  `fuel` bounds the number of rounds; `none` means
it was too small (never for the total size plus one, `zeroDiagLoop_total`). -/
def zeroDiagLoop : ℕ → Dual K → Option (Except PyErr (List (Aff K) × Dual K))
  | 0, _ => none
  | fuel + 1, d =>
    let zs := d.blocks.map (zeroDiag d.dof)
    if zs.any (fun z => !z.isEmpty) then
      match rowMask d zs with
      | .error e => some (.error e)
      | .ok (t, d') =>
        match zeroDiagLoop fuel d' with
        | none => none
        | some (.error e) => some (.error e)
        | some (.ok (ts, d'')) => some (.ok (t :: ts, d''))
    else some (.ok ([], d))

/-! ## Matrix transform (transform.py 90-235) -/

/-- A matrix with `c` columns whose columns are read off as functions. -/
structure Cols (K : Type*) where
  m : ℕ → ℕ → K
  c : ℕ

/-- `_reg`: SymPy's `X.columnspace()`, the columns at the pivots of the reduced row echelon form
(transform.py 145-149). -/
def regCols (n : ℕ) (X : Cols K) : Cols K :=
  let ps := (rowReduce n X.c X.m).2.1
  ⟨fun i a => X.m i (ps.getD a 0), ps.length⟩

/-- `_perp`: `solve_nullspace(X)` (transform.py 150-151), stacked as columns. -/
def perpCols (n : ℕ) (X : Cols K) : Cols K :=
  let L := solveNullspace n X.c X.m
  ⟨fun i a => (L.getD a (fun _ => 0)) i, L.length⟩

/-- The equations `S V = 0` (transform.py 183-197), row `i` and column `c`. -/
def nullRows (b : Block K) (V : Cols K) : List ((ℕ → K) × K) :=
  (List.range b.n).flatMap fun i => (List.range V.c).map fun c =>
    (fun l => ∑ j ∈ range b.n, b.sp (i * b.n + j) l * V.m j c, ∑ j ∈ range b.n, b.x0 (i * b.n + j) * V.m j c)

/-- `U' A U` for the constant part and every coefficient matrix, stored row by row (transform.py 205-220 with
`symmetric_bilinear`, arithmetic.py 772-866). -/
def Block.bilinear (b : Block K) (U : Cols K) : Block K where
  n := U.c
  x0 := fun k => ∑ i ∈ range b.n, ∑ j ∈ range b.n, U.m i (k / U.c) * b.x0 (i * b.n + j) * U.m j (k % U.c)
  sp := fun k l => ∑ i ∈ range b.n, ∑ j ∈ range b.n, U.m i (k / U.c) * b.sp (i * b.n + j) l * U.m j (k % U.c)

/-- `DualMatrixTransform._init_child_node` (transform.py 170-224) for given column spaces and null spaces.  Blocks with
an empty column space disappear.  When no block has a null space there are no equations: stacking nothing gives a
0×0 matrix and the later product raises SymPy's `ShapeError`, a `ValueError`. -/
def matrixTransform (d : Dual K) (uv : List (Cols K × Cols K)) : Except PyErr (Aff K × Dual K) :=
  if uv.length ≠ d.blocks.length then .error .valueError
  else
    let bs := d.blocks.zip uv
    if (bs.all fun p => decide (p.1.n = 0 ∨ p.2.2.c = 0)) && decide (d.dof ≠ 0) then .error .valueError
    else
      match solveEqs d.dof (bs.flatMap fun p => nullRows p.1 p.2.2) with
      | .error e => .error e
      | .ok t => .ok (t, ⟨t.dim, (bs.filter fun p => decide (p.1.n ≠ 0 ∧ p.2.1.c ≠ 0)).map
          fun p => (p.1.bilinear p.2.1).subst d.dof t⟩)

/-- `is_empty_matrix(X, check_all_zeros=True)` (sdp/utils.py 108-118) -/
def isZeroCols (n : ℕ) (X : Cols K) : Bool :=
  (List.range n).all fun i => (List.range X.c).all fun c => decide (X.m i c = 0)

/-- `constrain_nullspace(N)` of a dual problem without children (transform.py 131-141, 156-158, 758-771): if all given
null spaces are empty or zero the problem itself is returned (no map); otherwise the null spaces are regularised and the
column spaces are their complements. -/
def constrainNullspace (d : Dual K) (Ns : List (Cols K)) : Except PyErr (Option (Aff K) × Dual K) :=
  if Ns.length ≠ d.blocks.length then .error .valueError
  else if (d.blocks.zip Ns).all fun p => isZeroCols p.1.n p.2 then .ok (none, d)
  else
    match matrixTransform d ((d.blocks.zip Ns).map fun p => (perpCols p.1.n (regCols p.1.n p.2), regCols p.1.n p.2)) with
    | .error e => .error e
    | .ok (t, d') => .ok (some t, d')

/-- `constrain_subspace(Q)` (transform.py 131-141, 153-155, 752-756).  The shortcut for zero matrices is taken for the
column spaces in the same way. -/
def constrainSubspace (d : Dual K) (Qs : List (Cols K)) : Except PyErr (Option (Aff K) × Dual K) :=
  if (d.blocks.zip Qs).all fun p => isZeroCols p.1.n p.2 then .ok (none, d)
  else if Qs.length ≠ d.blocks.length then .error .valueError
  else
    match matrixTransform d ((d.blocks.zip Qs).map fun p => (regCols p.1.n p.2, perpCols p.1.n (regCols p.1.n p.2))) with
    | .error e => .error e
    | .ok (t, d') => .ok (some t, d')

/-- `propagate_nullspace_to_child` of a matrix transform (transform.py 233-235): `U' N`. -/
def propagateNull (n : ℕ) (U N : Cols K) : Cols K := ⟨fun a c => ∑ i ∈ range n, U.m i a * N.m i c, N.c⟩

/-- `propagate_nullspace_to_child` of a row masking (transform.py 349-354): the unmasked rows. -/
def propagateNullMask (um : List ℕ) (N : Cols K) : Cols K := ⟨fun a c => N.m (um.getD a 0) c, N.c⟩

/-! ## Vector transform (transform.py 461-503, 773-817) -/

/-- `SDPVectorTransform(parent, A, b)` (transform.py 461-491) -/
def vectorTransform (d : Dual K) (t : Aff K) : Dual K := ⟨t.dim, d.blocks.map fun b => b.subst d.dof t⟩

/-- The equations of `constrain_symmetry` (transform.py 773-788) for one block. -/
def symRows (b : Block K) : List ((ℕ → K) × K) :=
  (List.range b.n).flatMap fun i => (List.range i).map fun j =>
    (fun l => b.sp (i * b.n + j) l - b.sp (j * b.n + i) l, b.x0 (i * b.n + j) - b.x0 (j * b.n + i))

/-- The equations of `constrain_equal_entries` (transform.py 805-812) for one block. -/
def equalRows (b : Block K) (es : List ((ℕ × ℕ) × (ℕ × ℕ))) : List ((ℕ → K) × K) :=
  (es.filter fun e => decide (e.1 ≠ e.2)).map fun e =>
    (fun l => b.sp (e.1.1 * b.n + e.1.2) l - b.sp (e.2.1 * b.n + e.2.2) l,
      b.x0 (e.1.1 * b.n + e.1.2) - b.x0 (e.2.1 * b.n + e.2.2))

/-- `SDPVectorTransform.from_equations` (transform.py 474-480) unless there are no equations, in which case the problem
itself is returned (transform.py 783-784, 813-814). -/
def fromRows (d : Dual K) (rows : List ((ℕ → K) × K)) : Except PyErr (Option (Aff K) × Dual K) :=
  if rows.isEmpty then .ok (none, d)
  else
    match solveEqs d.dof rows with
    | .error e => .error e
    | .ok t => .ok (some t, vectorTransform d t)

def constrainSymmetry (d : Dual K) : Except PyErr (Option (Aff K) × Dual K) := fromRows d (d.blocks.flatMap symRows)

/-- `constrain_equal_entries` (transform.py 790-817); the entry lists are given in block order. -/
def constrainEqual (d : Dual K) (es : List (List ((ℕ × ℕ) × (ℕ × ℕ)))) : Except PyErr (Option (Aff K) × Dual K) :=
  fromRows d ((d.blocks.zip es).flatMap fun p => equalRows p.1 p.2)

end Verif.Sdp
