import Verif.Basic.UPoly
import Verif.Model.Congruence

/-!
# Model of the univariate prover (triples/core/structsos/pivoting/univariate.py)

Polynomials are ascending coefficient lists.  The parallel lists `coeffs, polys` of a proof are one list of pairs.
Everything numerical (`nroots`, `roots`, rounding to a denominator) is a parameter `Numeric`: the matrices offered
to the exact part are arbitrary.  Floats that survive in a matrix are exact numbers in the model.
-/

namespace Verif.Univariate
open Verif

section
variable {K : Type*} [Field K] [LinearOrder K]

/-- `Σ cᵢ pᵢ²` as the pair of parallel lists `(coeffs, polys)`. -/
abbrev Sos (K : Type*) := List (K × UPoly K)

/-- A raw proof: each entry is `(multiplier, coeffs, polys)`; `true` means multiplier `x`, `false` means `1`. -/
abbrev Raw (K : Type*) := List (Bool × Sos K)

/-- univariate.py 577-591, `sum(coeff[i] * poly[i].as_expr()**2)`, as a value. -/
def sosVal (L : Sos K) (x : K) : K := (L.map fun cp => cp.1 * uev cp.2 x ^ 2).sum

/-- `_raw_to_expr` (univariate.py 577-591), as a value. -/
def rawVal (R : Raw K) (x : K) : K := (R.map fun e => (if e.1 then x else 1) * sosVal e.2 x).sum

/-- The sum in univariate.py 302-303: `sum(M[m-j, m+j] for j in range(1, l+1))`. -/
def evenSum (n : ℕ) (M : ℕ → ℕ → K) (m : ℕ) : K :=
  ((List.range (min m (n - m - 1))).map fun j => M (m - (j+1)) (m + (j+1))).sum

/-- The sum in univariate.py 306-307: `sum(M[m-j, m+j+1] for j in range(1, l+1))`. -/
def oddSum (n : ℕ) (M : ℕ → ℕ → K) (m : ℕ) : K :=
  ((List.range (min m (n - m - 2))).map fun j => M (m - (j+1)) (m + (j+1) + 1)).sum

/-- Loop body of `_determine_diagonal_entries`, matrix case (univariate.py 296-309). -/
def detStep (n : ℕ) (cs : List K) (M : ℕ → ℕ → K) (i : ℕ) : Except PyErr (ℕ → ℕ → K) :=
  let m := i / 2
  if i % 2 = 0 then
    if n ≤ m then .error .indexError
    else .ok fun r c => if r = m ∧ c = m then cs.getD i 0 - evenSum n M m * 2 else M r c
  else
    if n ≤ m + 1 then .error .indexError
    else
      let v := cs.getD i 0 / 2 - oddSum n M m
      .ok fun r c => if (r = m ∧ c = m + 1) ∨ (r = m + 1 ∧ c = m) then v else M r c

/-- `for i in range(len(all_coeffs))` -/
def detLoop (n : ℕ) (cs : List K) : ℕ → ℕ → (ℕ → ℕ → K) → Except PyErr (ℕ → ℕ → K)
  | _, 0, M => .ok M
  | i, k + 1, M => match detStep n cs M i with
    | .error e => .error e
    | .ok M' => detLoop n cs (i + 1) k M'

/-- `_determine_diagonal_entries(M, poly)` for one matrix (univariate.py 291-309). -/
def determine (n : ℕ) (M : ℕ → ℕ → K) (f : UPoly K) : Except PyErr (ℕ → ℕ → K) :=
  detLoop n (allCoeffs f) 0 (allCoeffs f).length M

/-- Coefficient `i` (descending) of `v^T M v` as computed in univariate.py 316-330. -/
def minorCoeff (n : ℕ) (M : ℕ → ℕ → K) (i : ℕ) : K :=
  let m := i / 2
  if i % 2 = 0 then evenSum n M m * 2 + M m m else (oddSum n M m + M m (m + 1)) * 2

/-- `sp.Poly(all_coeffs + [0])` of univariate.py 316-332, ascending. -/
def minorPoly (n : ℕ) (M : ℕ → ℕ → K) : UPoly K :=
  0 :: ((List.range (2 * n - 1)).map (minorCoeff n M)).reverse

/-- `_determine_diagonal_entries(Ms, poly)` for the pair of matrices (univariate.py 310-335). -/
def determinePair (n0 n1 : ℕ) (M0 M1 : ℕ → ℕ → K) (f : UPoly K) : Except PyErr (ℕ → ℕ → K) :=
  determine n0 M0 (padd f (psmul (-1) (minorPoly n1 M1)))

/-- `_rationalize_matrix_simultaneously` with `off_diagonal = True` (univariate.py 252-259): `R` holds the rounded
entries above the second diagonal and the untouched numerical entries elsewhere. -/
def symOff (R : ℕ → ℕ → K) : ℕ → ℕ → K := fun i j => if j + 2 ≤ i then R j i else R i j

/-- The same with `off_diagonal = False`. -/
def symFull (R : ℕ → ℕ → K) : ℕ → ℕ → K := fun i j => if j ≤ i then R j i else R i j

/-- `_create_sos_from_US` (univariate.py 338-365). -/
def sosOfUS (n : ℕ) (U : ℕ → ℕ → K) (S : ℕ → K) : Sos K :=
  (List.range n).map fun k => (S k, (List.range n).map fun i => U k (n - 1 - i))

/-- `M[n-i, n-j] += coeff * poly_coeffs[i] * poly_coeffs[j]` (univariate.py 398-407). -/
def accStep (n : ℕ) (M : ℕ → ℕ → K) (cp : K × UPoly K) : ℕ → ℕ → K :=
  let p := pstrip cp.2
  if cp.1 = 0 ∨ p = [] then M
  else fun r c => if n - r < p.length ∧ n - c < p.length then M r c + cp.1 * p.getD (n - r) 0 * p.getD (n - c) 0 else M r c

/-- `max(_.degree() for _ in poly_list)`; `none` is `-oo`. -/
def maxDeg : Sos K → Option ℕ
  | [] => none
  | cp :: L => match pdeg cp.2, maxDeg L with
    | none, r => r
    | some d, none => some d
    | some d, some e => some (max d e)

/-- `_reduce_sos` (univariate.py 368-425).  If every polynomial is zero the degree is `-oo` and `sp.zeros` raises;
if `congruence` answers `None` the unpacking raises `TypeError`. -/
def reduceSos (L : Sos K) : Except PyErr (Sos K) :=
  if L = [] then .ok []
  else match maxDeg L with
    | none => .error .valueError
    | some n =>
      match congruence (n + 1) (L.foldl (accStep n) fun _ _ => 0) with
      | .error e => .error e
      | .ok none => .error .typeError
      | .ok (some (U, S)) => .ok ((sosOfUS (n + 1) U S).filter fun cp => decide (cp.1 ≠ 0))

/-- `_prove_univariate_simple` (univariate.py 529-574) on a stripped polynomial. -/
def proveSimple : UPoly K → Except PyErr (Option (Raw K))
  | [c] => if 0 ≤ c then .ok (some [(false, [(c, [1])])]) else .ok none
  | [b, a] => if 0 ≤ a ∧ 0 ≤ b then .ok (some [(false, [(b, [1])]), (true, [(a, [1])])]) else .ok none
  | [c, b, a] =>
    if a < 0 then .ok none
    else if 0 < a ∧ b^2 - 4 * a * c < 0 then
      .ok (some [(false, [(a, [b / (2*a), 1]), (c - b^2 / (4*a), [1])])])
    else if 0 < a ∧ 0 ≤ b ∧ 0 ≤ c then
      .ok (some [(false, [(a, [0, 1]), (c, [1])]), (true, [(b, [1])])])
    else .ok none
  | _ => .error .valueError

/-- What the numerical part hands over: whether `nroots` reports a positive real root, whether it reports no real root,
the two matrix sizes, and for every denominator tried (`lcm *= 144`) the two matrices of
`_rationalize_matrix_simultaneously` before symmetrisation. -/
structure Numeric (K : Type*) where
  posRoot : Bool
  noReal : Bool
  n0 : ℕ
  n1 : ℕ
  cands : List ((ℕ → ℕ → K) × (ℕ → ℕ → K))

/-- `x**(monom//2)` -/
def pmonom (k : ℕ) : UPoly K := List.replicate k 0 ++ [1]

/-- The trivial branch of univariate.py 486-495: all coefficients nonnegative. -/
def trivialProof (p : UPoly K) : Raw K :=
  let terms := (List.range p.length).reverse.filterMap fun i =>
    if p.getD i 0 = 0 then none else some (i, p.getD i 0)
  [(false, (terms.filter fun t => t.1 % 2 == 0).map fun t => (t.2, pmonom (t.1 / 2))),
   (true, (terms.filter fun t => t.1 % 2 == 1).map fun t => (t.2, pmonom (t.1 / 2)))]

/-- `all(_ >= 0 for _ in res[1])` -/
def allNonneg (n : ℕ) (S : ℕ → K) : Bool := (List.range n).all fun k => decide (0 ≤ S k)

/-- The loop of univariate.py 500-525 when `positive` is false. -/
def loopReal (f : UPoly K) (n0 : ℕ) : List ((ℕ → ℕ → K) × (ℕ → ℕ → K)) → Except PyErr (Option (Raw K))
  | [] => .ok none
  | R :: rest =>
    match determine n0 (symOff R.1) f with
    | .error e => .error e
    | .ok M =>
      match congruence n0 M with
      | .error e => .error e
      | .ok none => loopReal f n0 rest
      | .ok (some (U, S)) =>
        if allNonneg n0 S then .ok (some [(false, sosOfUS n0 U S)]) else loopReal f n0 rest

/-- The loop of univariate.py 500-525 when `positive` is true. -/
def loopPos (f : UPoly K) (n0 n1 : ℕ) : List ((ℕ → ℕ → K) × (ℕ → ℕ → K)) → Except PyErr (Option (Raw K))
  | [] => .ok none
  | R :: rest =>
    match determinePair n0 n1 (symOff R.1) (symFull R.2) f with
    | .error e => .error e
    | .ok M0 =>
      match congruence n1 (symFull R.2) with
      | .error e => .error e
      | .ok none => loopPos f n0 n1 rest
      | .ok (some (U1, S1)) =>
        if allNonneg n1 S1 then
          match congruence n0 M0 with
          | .error e => .error e
          | .ok none => loopPos f n0 n1 rest
          | .ok (some (U0, S0)) =>
            if allNonneg n0 S0 then .ok (some [(false, sosOfUS n0 U0 S0), (true, sosOfUS n1 U1 S1)])
            else loopPos f n0 n1 rest
        else loopPos f n0 n1 rest

/-- `_prove_univariate_irreducible` (univariate.py 428-526). -/
def proveIrr (f : UPoly K) (nu : Numeric K) : Except PyErr (Option (Raw K)) :=
  if plc f < 0 then .ok none
  else if (pstrip f).length ≤ 3 then proveSimple (pstrip f)
  else if nu.posRoot then .ok none
  else if !nu.noReal && (pstrip f).all (fun c => decide (0 ≤ c)) then .ok (some (trivialProof (pstrip f)))
  else if nu.noReal then loopReal f nu.n0 nu.cands
  else loopPos f nu.n0 nu.n1 nu.cands

/-- Collecting the proofs of the factors (univariate.py 644-657); `none` is `return None`. -/
def collect : List (UPoly K × ℕ × Numeric K) → Except PyErr (Option (List (Raw K)))
  | [] => .ok (some [])
  | (f, k, nu) :: rest =>
    if k % 2 = 0 then
      match collect rest with
      | .ok (some l) => .ok (some ([(false, [(1, ppow f (k / 2))])] :: l))
      | r => r
    else
      match proveIrr f nu with
      | .error e => .error e
      | .ok none => .ok none
      | .ok (some ret) =>
        match collect rest with
        | .ok (some l) =>
          if 1 < k then .ok (some ([(false, [(1, ppow f (k / 2))])] :: ret :: l)) else .ok (some (ret :: l))
        | r => r

/-- `_cross_mul` (univariate.py 664-672); `m` is the polynomial factor `1` or `x`. -/
def crossMul (m : UPoly K) (A B : Sos K) : Sos K :=
  A.flatMap fun a => B.map fun b => (a.1 * b.1, pmul m (pmul a.2 b.2))

/-- One factor of the merge loop before reduction (univariate.py 674-690). -/
def mergeOne (p : Sos K × Sos K) (m : Raw K) : Sos K × Sos K :=
  m.foldl (fun acc e =>
    if e.1 then (acc.1 ++ crossMul [0, 1] p.2 e.2, acc.2 ++ crossMul [1] p.1 e.2)
    else (acc.1 ++ crossMul [1] p.1 e.2, acc.2 ++ crossMul [1] p.2 e.2)) ([], [])

/-- The merge loop (univariate.py 674-692). -/
def mergeAll : List (Raw K) → Sos K × Sos K → Except PyErr (Sos K × Sos K)
  | [], p => .ok p
  | m :: rest, p =>
    match reduceSos (mergeOne p m).1 with
    | .error e => .error e
    | .ok p1 =>
      match reduceSos (mergeOne p m).2 with
      | .error e => .error e
      | .ok p2 => mergeAll rest (p1, p2)

/-- `prove_univariate(poly, return_raw=True)` (univariate.py 594-698) after `factor_list`/`sqf_list` returned `lc` and
`factors`.  The result is the pair of weighted squares belonging to the multipliers `1` and `x`. -/
def proveUnivariate (lc : K) (factors : List (UPoly K × ℕ × Numeric K)) : Except PyErr (Option (Sos K × Sos K)) :=
  if lc < 0 then .ok none
  else match collect factors with
    | .error e => .error e
    | .ok none => .ok none
    | .ok (some l) =>
      match mergeAll l ([(lc, [1])], []) with
      | .error e => .error e
      | .ok p => .ok (some p)

end
end Verif.Univariate
