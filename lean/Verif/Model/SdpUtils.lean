import Verif.Model.Congruence
import Mathlib.Data.Nat.Sqrt
import Mathlib.Algebra.Field.Defs

/-!
# Model of `triples/sdp/utils.py`: `Mat2Vec` and `decompose_matrix`

Matrices are functions on row and column numbers with an explicit size; vectors are lists.  `round(sqrt(m))` is taken in
exact arithmetic (the Python code uses floats; the two agree as long as the float square root is accurate to less than
one half, i.e. for every matrix size that fits in memory).
-/

namespace Verif.SdpUtils
open Verif

/-- `Mat2Vec.DIRECT / UPPER / ISOMETRIC` (sdp/utils.py 126-129) -/
inductive Mode | direct | upper | isometric
  deriving DecidableEq

/-- the nearest integer of the square root -/
def roundSqrt (m : ℕ) : ℕ := if Nat.sqrt m * Nat.sqrt m + Nat.sqrt m < m then Nat.sqrt m + 1 else Nat.sqrt m

/-- `Mat2Vec.length_of_vec` (sdp/utils.py 131-138) -/
def lengthOfVec (n : ℕ) : Mode → ℕ
  | .direct => n ^ 2
  | _ => n * (n + 1) / 2

/-- `Mat2Vec.length_of_mat` (sdp/utils.py 140-147).  `round(sqrt(2m + 1/4) - 1/2)` is the integer part of
`sqrt(2m + 1/4)`, which is that of `sqrt(2m)`. -/
def lengthOfMat (m : ℕ) : Mode → ℕ
  | .direct => roundSqrt m
  | _ => Nat.sqrt (2 * m)

/-- The index pairs of `upper_vec_of_symmetric_matrix(k, return_inds=True)` (sdp/utils.py 242-249). -/
def upperInds (k : ℕ) : List (ℕ × ℕ) := (List.range k).flatMap fun i => (List.range (k - i)).map fun j => (i, i + j)

/-- the same with a `check` filter on rows and columns (sdp/utils.py 242-245) -/
def upperIndsCheck (k : ℕ) (check : ℕ → Bool) : List (ℕ × ℕ) :=
  ((List.range k).filter check).flatMap fun i => (((List.range (k - i)).map fun j => i + j).filter check).map fun j => (i, j)

section
variable {K : Type*} [Field K]

/-- `upper_vec_of_symmetric_matrix(S, mul=mul)` (sdp/utils.py 232-249) -/
def upperVec (k : ℕ) (S : ℕ → ℕ → K) (mul : Option K) : List K :=
  (upperInds k).map fun p => match mul with
    | some c => if p.1 ≠ p.2 then c * S p.1 p.2 else S p.1 p.2
    | none => S p.1 p.2

/-- `S[i,j] = v; S[j,i] = v` (sdp/utils.py 281-283) -/
def setSym (S : ℕ → ℕ → K) (e : (ℕ × ℕ) × K) : ℕ → ℕ → K :=
  fun a b => if (a, b) = (e.1.2, e.1.1) then e.2 else if (a, b) = e.1 then e.2 else S a b

/-- `symmetric_matrix_from_upper_vec` (sdp/utils.py 251-284): size and matrix. -/
def fromUpper (v : List K) : ℕ × (ℕ → ℕ → K) :=
  let n := lengthOfMat v.length .upper
  (n, ((upperInds n).zip v).foldl setSym (fun _ _ => 0))

/-- The kinds of values `mat2vec` can return: a SymPy column, a one-dimensional array, a Python generator. -/
inductive Vec (K : Type*)
  | column (v : List K)
  | array1 (v : List K)
  | generator (v : List K)

/-- whether a matrix is a SymPy matrix or a NumPy array -/
inductive Kind | sympy | numpy

def flatten (r c : ℕ) (S : ℕ → ℕ → K) : List K := (List.range r).flatMap fun i => (List.range c).map fun j => S i j

/-- `Mat2Vec.mat2vec` (sdp/utils.py 150-176) for an `r × c` matrix -/
def mat2vec (kind : Kind) (r c : ℕ) (S : ℕ → ℕ → K) : Mode → Except PyErr (Vec K)
  | .direct => match kind with
    | .sympy => .ok (.column (flatten r c S))
    | .numpy => .ok (.array1 (flatten r c S))
  | .upper => .ok (.generator (upperVec r S none))
  | .isometric => .error (.custom "NotImplementedError")

/-- `v.reshape(n, n)` of a column with `m` entries: both libraries refuse if `n * n ≠ m`. -/
def reshape (v : List K) : Except PyErr (ℕ × (ℕ → ℕ → K)) :=
  let n := roundSqrt v.length
  if n * n = v.length then .ok (n, fun i j => v.getD (i * n + j) 0) else .error .valueError

/-- `Mat2Vec.vec2mat` (sdp/utils.py 178-201).  A one-dimensional array has no `shape[1]`, a generator has no `shape`. -/
def vec2mat : Vec K → Mode → Except PyErr (ℕ × (ℕ → ℕ → K))
  | .column v, .direct => reshape v
  | .array1 _, .direct => .error .indexError
  | .generator _, .direct => .error .attributeError
  | .column v, .upper => .ok (fromUpper v)
  | .array1 v, .upper => .ok (fromUpper v)
  | .generator _, .upper => .error .attributeError
  | _, .isometric => .error (.custom "NotImplementedError")

/-- `Mat2Vec.split_vector` (sdp/utils.py 286-325): empty chunks give no slice. -/
def splitVector (mode : Mode) : ℕ → List ℕ → List (ℕ × ℕ)
  | _, [] => []
  | start, l :: ls => if 0 < l then (start, start + lengthOfVec l mode) :: splitVector mode (start + lengthOfVec l mode) ls
      else splitVector mode start ls

/-- Cutting a long vector into `n²`-blocks (`from_full_x0_and_space`, dual.py 139-145, primal.py 69-74). -/
def cutBlocks : List ℕ → List K → List (List K)
  | [], _ => []
  | n :: ns, v => v.take (n ^ 2) :: cutBlocks ns (v.drop (n ^ 2))

/-! ## decompose_matrix -/

/-- An expanded entry: monomials in the given variables (exponent lists) with coefficients. -/
abbrev Entry (K : Type*) := List (List ℕ × K)

/-- the position of the variable if the monomial is a single variable -/
def varIndex (m : List ℕ) : Option ℕ := if m.sum = 1 then some (m.idxOf 1) else none

/-- One entry of `decompose_matrix` (sdp/utils.py 411-421): the constant term, then one column per variable.  A collected
term that is not a variable is missing from `variable_index` and raises `KeyError`.  `nv` is the number of variables. -/
def decomposeEntry (nv : ℕ) (e : Entry K) : Except PyErr (K × List K) :=
  e.foldlM (fun (acc : K × List K) (t : List ℕ × K) =>
    if t.1.sum = 0 then .ok (t.2, acc.2)
    else match varIndex t.1 with
      | some i => .ok (acc.1, acc.2.set i t.2)
      | none => .error .keyError) (0, List.replicate nv 0)

/-- `decompose_matrix` (sdp/utils.py 373-423) on the list of entries. -/
def decomposeMatrix (nv : ℕ) (es : List (Entry K)) : Except PyErr (List (K × List K)) := es.mapM (decomposeEntry nv)

end
end Verif.SdpUtils
