import Verif.Basic.PyDict
import Verif.Model.Congruence

/-!
# Model of the exact linear solvers (triples/sdp/arithmetic.py)

A matrix is a function of two indices together with its numbers of rows and columns.  The sparse dictionary of
dictionaries used by the code is read as such a function: a missing key is a zero entry.  Explicitly stored zeros make
no difference to the operations modelled here.
-/

namespace Verif.LinSolve
open Verif

variable {K : Type*} [Field K] [DecidableEq K]

abbrev Mat (K : Type*) := ℕ → ℕ → K

/-- `row_swap(i, j)` (arithmetic.py 96-106) -/
def rowSwap (M : Mat K) (i j : ℕ) : Mat K := fun r => if r = i then M j else if r = j then M i else M r

/-- The normalisation of the pivot row (arithmetic.py 157-169): the pivot becomes one and the entries to the right are
divided by its old value. -/
def normRow (M : Mat K) (i j : ℕ) (pv : K) : Mat K := fun r k =>
  if r = i then (if k = j then 1 else if j < k then M r k / pv else M r k) else M r k

/-- `cross_cancel(a, i, b, j)` (arithmetic.py 108-130) with `a = 1`, the only value that occurs when rows are normalised
first (then `gcdab = 1`): `row[i] -= b * row[j]`. -/
def crossCancel (M : Mat K) (i : ℕ) (b : K) (j : ℕ) : Mat K := fun r k => if r = i then M r k - b * M j k else M r k

/-- Body of the loop over rows (arithmetic.py 173-190), `zero_above = True`. -/
def cancelStep (pr pc : ℕ) (M : Mat K) (row : ℕ) : Mat K :=
  if row = pr then M
  else if M row pc = 0 then M
  else crossCancel M row (M row pc) pr

/-- arithmetic.py 172-190 -/
def cancelAll (rows pr pc : ℕ) (M : Mat K) : Mat K := (List.range rows).foldl (cancelStep pr pc) M

/-- `_find_reasonable_pivot_naive` (arithmetic.py 132-138): the first row at or below `pr` with a nonzero entry. -/
def findPivot (M : Mat K) (rows pr pc : ℕ) : Option ℕ :=
  ((List.range rows).drop pr).find? fun row => decide (M row pc ≠ 0)

/-- The whole work for one pivot found in row `row` (arithmetic.py 150-190). -/
def pivotStep (M : Mat K) (rows pr pc row : ℕ) : Mat K :=
  let M1 := if row ≠ pr then rowSwap M pr row else M
  cancelAll rows pr pc (normRow M1 pr pc (M1 pr pc))

/-- The main loop of `_row_reduce_dict` with `normalize_last = False`, `zero_above = True` (arithmetic.py 141-191).  The
column does not advance when a pivot is found, as in the code.  `fuel` bounds the number of iterations;
`rowReduce` supplies `rows + cols`, which is never exhausted (`loop_exit`). -/
def reduceLoop (rows cols : ℕ) : ℕ → Mat K → ℕ → ℕ → List ℕ → Mat K × List ℕ × Bool
  | 0, M, pr, pc, ps => (M, ps, decide (pc < cols ∧ pr < rows))
  | fuel + 1, M, pr, pc, ps =>
    if pc < cols ∧ pr < rows then
      match findPivot M rows pr pc with
      | none => reduceLoop rows cols fuel M pr (pc + 1) ps
      | some row => reduceLoop rows cols fuel (pivotStep M rows pr pc row) (pr + 1) pc (ps ++ [pc])
    else (M, ps, false)

/-- `_row_reduce_dict(mat, rows, cols, normalize_last=False)`: matrix and pivot columns.  The Boolean reports running
out of fuel. -/
def rowReduce (rows cols : ℕ) (M : Mat K) : Mat K × List ℕ × Bool := reduceLoop rows cols (rows + cols) M 0 0 []

/-- `M.hstack(M, B)` (arithmetic.py 321) -/
def hstack (cols : ℕ) (A B : Mat K) : Mat K := fun i j => if j < cols then A i j else B i (j - cols)

/-- position of an index in a list, `permutation[k]` inverted by `_permute_matrix_rows` -/
def posOf (l : List ℕ) (i : ℕ) : ℕ := l.idxOf i

/-- `_permute_matrix_rows(matrix, permutation)` (arithmetic.py 276-306): row `k` moves to row `permutation[k]`. -/
def permuteRows (M : Mat K) (perm : List ℕ) : Mat K := fun i => M (posOf perm i)

/-- `solve_undetermined_linear(M, B)` (arithmetic.py 309-372): `M` has `rows` rows and `cols` columns, `B` has `bcols`
columns.  The result is `(x0, space)`; `space` has `cols - rank` columns, given as the third component.  With
`bcols = 0` the slices of lines 323 and 340 select nothing, so such input is not meant. -/
def solveUndetermined (rows cols bcols : ℕ) (A B : Mat K) : Except PyErr (Mat K × Mat K × ℕ) :=
  let R := rowReduce rows (cols + bcols) (hstack cols A B)
  let M := R.1
  let pivots := R.2.1.filter (· < cols)
  let rank := pivots.length
  let free := (List.range cols).filter (fun c => !pivots.contains c)
  let perm := pivots ++ free
  if ((List.range rows).drop rank).any (fun i => (List.range bcols).any fun j => decide (M i (cols + j) ≠ 0)) then
    .error .valueError
  else
    let V : Mat K := fun i j => if i < rank then M i (free.getD j 0) else if i - rank = j then -1 else 0
    let vt : Mat K := fun i j => if i < rank then M i (cols + j) else 0
    .ok (permuteRows vt perm, permuteRows V perm, free.length)

/-- SymPy's `nullspace` (matrices/subspaces.py `_nullspace`): for every free column a vector with a one there and minus
the reduced entries at the pivots.  External to the repository; its reduced row echelon form is taken to be the one of
`rowReduce`. -/
def sympyNullspace (rows cols : ℕ) (A : Mat K) : List (ℕ → K) :=
  let R := rowReduce rows cols A
  let free := (List.range cols).filter (fun c => !R.2.1.contains c)
  free.map fun f => fun i =>
    if i = f then 1
    else if R.2.1.contains i then - R.1 (posOf R.2.1 i) f else 0

/-- `solve_nullspace(A)` (arithmetic.py 374-387): the columns of `hstack(*A.T.nullspace())`; `A` has `rows` rows. -/
def solveNullspace (rows cols : ℕ) (A : Mat K) : List (ℕ → K) := sympyNullspace cols rows (fun i j => A j i)

/-! ## Groups of equal entries -/

/-- arithmetic.py 419-424 / 559-564: `ufs[i] = group[0]` for every member; an empty group raises `IndexError` at
`groups[group[0]]`. -/
def ufsStep (u : ℕ → ℕ) (g : List ℕ) : ℕ → ℕ := fun i => if i ∈ g then g.headD 0 else u i

def ufs (groups : List (List ℕ)) : ℕ → ℕ := groups.foldl ufsStep id

/-- The dictionary `groups` (arithmetic.py 420-429 / 560-569): the given groups keyed by their heads, then singletons
for the remaining roots. -/
def groupDict (cols : ℕ) (groups : List (List ℕ)) : List (ℕ × List ℕ) :=
  let d := groups.foldl (fun d g => dset d (g.headD 0) g) []
  (List.range cols).foldl (fun d i => if ufs groups i = i ∧ (dget d i).isNone then dset d i [i] else d) d

/-- The general branch of `solve_csr_linear` (arithmetic.py 556-603): columns of a group are added up, the compressed
system is solved and the rows are copied back. -/
def solveCsrGeneral (rows cols : ℕ) (A B : Mat K) (groups : List (List ℕ)) : Except PyErr (Mat K × Mat K × ℕ) :=
  if groups.any (·.isEmpty) then .error .indexError
  else
    let keys := (groupDict cols groups).map (·.1)
    let ind := fun j => posOf keys (ufs groups j)
    let A2 : Mat K := fun i c => ((List.range cols).map fun j => if ind j = c then A i j else 0).sum
    match solveUndetermined rows keys.length 1 A2 B with
    | .error e => .error e
    | .ok (x0, sp, n) => .ok ((fun i => x0 (ind i)), (fun i => sp (ind i)), n)

/-! ## Column separated systems -/

/-- A sparse row: its index and its entries in dictionary order.  Rows without entries are absent. -/
abbrev SRow (K : Type*) := ℕ × List (ℕ × K)

/-- The part of the row loop that extends `x0` (arithmetic.py 443-455).  `x0` is a list of pairs turned into a
dictionary, so the last value for an index wins. -/
def csX0 (u : ℕ → ℕ) (gd : List (ℕ × List ℕ)) (b : ℕ → K) (row : SRow K) : List (ℕ × K) :=
  match row.2 with
  | [] => []
  | p :: _ =>
    let group := (dget gd (u p.1)).getD []
    let w := (group.length : K) * p.2
    if b row.1 = 0 then [] else group.map fun k => (k, b row.1 / w)

/-- One vector of the solution space (arithmetic.py 465-472); later keys overwrite earlier ones. -/
def csVec (group group2 : List ℕ) (w w2 : K) : ℕ → K := fun k =>
  if k ∈ group2 ∧ w ≠ 0 then -w else if k ∈ group ∧ w2 ≠ 0 then w2 else 0

/-- The part of the row loop that extends `spaces` (arithmetic.py 457-472). -/
def csSpace (u : ℕ → ℕ) (gd : List (ℕ × List ℕ)) (row : SRow K) : List (ℕ → K) :=
  match row.2 with
  | [] => []
  | p :: rest =>
    let head := u p.1
    let group := (dget gd head).getD []
    let w := (group.length : K) * p.2
    rest.filterMap fun q =>
      let head2 := u q.1
      if q.1 ≠ head2 ∨ head2 = head then none
      else
        let group2 := (dget gd head2).getD []
        some (csVec group group2 w ((group2.length : K) * q.2))

/-- `solve_column_separated_linear` (arithmetic.py 391-505) for a sparse matrix given by its nonempty rows.  The `else`
branch of lines 474-486 needs an empty row, which a sparse matrix never stores. -/
def solveColumnSep (cols : ℕ) (A : List (SRow K)) (b : ℕ → K) (groups : List (List ℕ)) :
    Except PyErr ((ℕ → K) × List (ℕ → K)) :=
  if groups.any (·.isEmpty) then .error .indexError
  else
    let u := ufs groups
    let gd := groupDict cols groups
    let pairs := A.flatMap (csX0 u gd b)
    .ok (fun k => ((pairs.reverse.find? fun p => p.1 == k).map (·.2)).getD 0, A.flatMap (csSpace u gd))

end Verif.LinSolve
