import Verif.Model.Sdp

/-!
# Model of primal SDP problems and their transformations (triples/sdp/primal.py, triples/sdp/transform.py)

A primal problem asks for positive semidefinite matrices `X_0, …, X_{nb-1}` with `Σ_k <A_{r,k}, X_k> = b_r` for every
equation `r`.  Blocks are numbered in the order of the Python dictionary.
-/

namespace Verif.SdpPrimal
open Verif Verif.Sdp Verif.LinSolve Finset

variable {K : Type*} [Field K] [LinearOrder K]

/-- One equation: the coefficients of every block, stored row by row, and the right-hand side
(`_space[key][r, :]`, `_x0[r]`, primal.py 25-38). -/
structure Row (K : Type*) where
  co : ℕ → ℕ → K
  rhs : K

/-- `SDPPrimal` (primal.py 13-43): block sizes and equations. -/
structure Primal (K : Type*) where
  nb : ℕ
  n : ℕ → ℕ
  eqs : List (Row K)

/-- the left-hand side of an equation -/
def Primal.lhs (p : Primal K) (r : Row K) (X : ℕ → ℕ → ℕ → K) : K :=
  ∑ k ∈ range p.nb, ∑ i ∈ range (p.n k), ∑ j ∈ range (p.n k), r.co k (i * p.n k + j) * X k i j

/-- The new equations for one block and one column of the null space (transform.py 263-272): for every row `j`,
`eq[j*m+k] += v[k]; eq[k*m+j] += v[k]`. -/
def nullEqs (key m : ℕ) (v : ℕ → K) : List (Row K) :=
  (List.range m).map fun j =>
    ⟨fun b e => if b = key then ∑ k ∈ range m, ((if e = j * m + k then v k else 0) + (if e = k * m + j then v k else 0)) else 0, 0⟩

/-- `PrimalMatrixTransform` with null spaces `Ns k` (transform.py 254-288): zero columns are skipped, the matrix sizes
stay. -/
def primalNull (p : Primal K) (Ns : ℕ → Cols K) : Primal K where
  nb := p.nb
  n := p.n
  eqs := p.eqs ++ (List.range p.nb).flatMap fun key => ((List.range (Ns key).c).filter fun c =>
      (List.range (p.n key)).any fun i => decide ((Ns key).m i c ≠ 0)).flatMap fun c => nullEqs key (p.n key) (fun i => (Ns key).m i c)

/-- `PrimalTransformMixin.constrain_symmetry` (transform.py 854-866): every pair of mirrored coefficients is replaced by
its mean (equal pairs are left alone, which is the same). -/
def symCo (n : ℕ → ℕ) (r : Row K) : Row K where
  co := fun k e => if r.co k e ≠ r.co k (e % n k * n k + e / n k) then (r.co k e + r.co k (e % n k * n k + e / n k)) / 2 else r.co k e
  rhs := r.rhs

def primalSym (p : Primal K) : Primal K := { p with eqs := p.eqs.map (symCo p.n) }

/-- The off-diagonal test for one equation (transform.py 877-893): no non-zero coefficient strictly below the diagonal in
rows and columns not yet known to vanish. -/
def offDiagOk (p : Primal K) (zeros : List (ℕ × ℕ)) (r : Row K) : Bool :=
  (List.range p.nb).all fun k => (List.range (p.n k)).all fun i =>
    zeros.contains (k, i) || ((List.range i).all fun j => zeros.contains (k, j) || decide (r.co k (i * p.n k + j) = 0))

/-- The diagonal test (transform.py 894-911): fails on a negative coefficient, otherwise the indices with non-zero
coefficient. -/
def diagZeros (p : Primal K) (zeros : List (ℕ × ℕ)) (r : Row K) : Option (List (ℕ × ℕ)) :=
  let cand := (List.range p.nb).flatMap fun k => ((List.range (p.n k)).map fun i => (k, i)).filter fun q => !zeros.contains q
  if cand.any fun q => decide (r.co q.1 (q.2 * p.n q.1 + q.2) < 0) then none
  else some (cand.filter fun q => decide (r.co q.1 (q.2 * p.n q.1 + q.2) ≠ 0))

/-- new zeros found from one equation, if any -/
def scanEq (p : Primal K) (zeros : List (ℕ × ℕ)) (r : Row K) : Option (List (ℕ × ℕ)) :=
  if offDiagOk p zeros r then
    match diagZeros p zeros r with
    | some (q :: qs) => some (q :: qs)
    | _ => none
  else none

/-- One pass over the remaining homogeneous equations (transform.py 875-916): the first equation that yields new zeros is
removed and its zeros are added. -/
def scanAll (p : Primal K) (zeros : List (ℕ × ℕ)) : List (Row K) → List (Row K) → Option (List (ℕ × ℕ) × List (Row K))
  | _, [] => none
  | done, r :: rs =>
    match scanEq p zeros r with
    | some qs => some (zeros ++ qs, done ++ rs)
    | none => scanAll p zeros (done ++ [r]) rs

/-- `PrimalTransformMixin._get_zero_diagonals` (transform.py 868-917) for a given iteration order of the set of
homogeneous equations; every successful pass removes an equation, so the number of equations bounds the passes. -/
def zeroLoop (p : Primal K) : ℕ → List (ℕ × ℕ) → List (Row K) → List (ℕ × ℕ)
  | 0, zeros, _ => zeros
  | fuel + 1, zeros, rs =>
    match scanAll p zeros [] rs with
    | none => zeros
    | some (zeros', rs') => zeroLoop p fuel zeros' rs'

def zeroDiagonals (p : Primal K) : List (ℕ × ℕ) :=
  let zs := p.eqs.filter fun r => decide (r.rhs = 0)
  zeroLoop p zs.length [] zs

/-- `PrimalRowMasking._init_child_node` (transform.py 412-430) -/
def primalMask (p : Primal K) (masks : ℕ → List ℕ) : Primal K where
  nb := p.nb
  n := fun k => (unmask (p.n k) (masks k)).length
  eqs := p.eqs.map fun r =>
    ⟨fun k e => r.co k ((unmask (p.n k) (masks k)).getD (e / (unmask (p.n k) (masks k)).length) 0 * p.n k
        + (unmask (p.n k) (masks k)).getD (e % (unmask (p.n k) (masks k)).length) 0), r.rhs⟩

/-- `PrimalRowMasking.propagate_to_parent` (transform.py 432-458): the matrix is padded with zero rows and columns … -/
def padMat (um : List ℕ) (X : ℕ → ℕ → K) : ℕ → ℕ → K := fun i j =>
  if i ∈ um ∧ j ∈ um then X (um.idxOf i) (um.idxOf j) else 0

/-- … and so are the columns of the factor `U` of the decomposition (transform.py 448-451). -/
def padCols (um : List ℕ) (U : ℕ → ℕ → K) : ℕ → ℕ → K := fun a i => if i ∈ um then U a (um.idxOf i) else 0

/-- position of a block in the stacked vector -/
def offset (n : ℕ → ℕ) (k : ℕ) : ℕ := ∑ i ∈ range k, n i * n i

/-- block number of a stacked position (used only to read the full space, primal.py 123-130) -/
def blockOf (n : ℕ → ℕ) : ℕ → ℕ → ℕ
  | 0, _ => 0
  | nb + 1, l => if offset n nb ≤ l then nb else blockOf n nb l

/-- one row of `full_space` (primal.py 123-130): the blocks side by side -/
def fullRow (p : Primal K) (r : Row K) : ℕ → K := fun l => r.co (blockOf p.n p.nb l) (l - offset p.n (blockOf p.n p.nb l))

/-- `SDPPrimaltoDual` (transform.py 562-578) = `SDPProblem.from_equations` (dual.py 160-192): solve the equations for the
stacked vector, cut the solution into blocks, then constrain symmetry. -/
def toDual (p : Primal K) : Except PyErr (Dual K) :=
  match solveEqs (offset p.n p.nb) (p.eqs.map fun r => (fullRow p r, - r.rhs)) with
  | .error e => .error e
  | .ok t =>
    match constrainSymmetry ⟨t.dim, (List.range p.nb).map fun k =>
        ⟨p.n k, fun e => t.x0 (offset p.n k + e), fun e m => t.sp (offset p.n k + e) m⟩⟩ with
    | .error e => .error e
    | .ok (_, d) => .ok d

end Verif.SdpPrimal
