import Mathlib.Algebra.Order.Field.Basic
import Mathlib.Algebra.BigOperators.Group.Finset.Basic

/-!
# Model of `congruence` (triples/sdp/utils.py 11-65) and `congruence_with_perturbation` (68-105)

Matrices are `ℕ → ℕ → K` together with an explicit size `n`; entries outside `n × n` are never read.
The `ndarray` (floating point) instantiation of the Python code is not modelled.
-/

namespace Verif

/-- Python exceptions that the modelled code can raise (only the kinds that occur in the model). -/
inductive PyErr where
  | indexError | typeError | valueError | keyError | attributeError | zeroDivision | assertionError
  | custom (name : String)
  deriving DecidableEq, Repr

/-- Mutable locals of the loop in `congruence`: the working copy of `M`, and `U`, `S`
(triples/sdp/utils.py 42-49: `M = M.copy()`, `U, S = zeros`). -/
structure CongState (K : Type*) where
  M : ℕ → ℕ → K
  U : ℕ → ℕ → K
  S : ℕ → K

section
variable {K : Type*} [Field K] [LinearOrder K]

/-- One pass of the loop body, triples/sdp/utils.py 51-61.  `none` is the Python `return None`.
`signfunc` is the default comparison (line 40) or the radical-aware one of
triples/core/structsos/utils.py 35-45, which for exact numbers computes the same sign. -/
def congStep (n i : ℕ) (st : CongState K) : Option (CongState K) :=
  if 0 < st.M i i then
    -- lines 53-57: S[i] = M[i,i]; U[i,i+1:] = M[i,i+1:]/S[i]; U[i,i] = 1; M[i+1:,i+1:] -= ...
    let s := st.M i i
    let U' : ℕ → ℕ → K := fun r c =>
      if r = i then
        (if c = i then 1 else if i < c ∧ c < n then st.M i c / s else st.U r c)
      else st.U r c
    let M' : ℕ → ℕ → K := fun r c =>
      if (i < r ∧ r < n) ∧ (i < c ∧ c < n) then st.M r c - U' i r * (U' i c * s) else st.M r c
    let S' : ℕ → K := fun r => if r = i then s else st.S r
    some ⟨M', U', S'⟩
  else if st.M i i < 0 then
    none                                             -- lines 58-59
  else if (List.range n).any (fun r => decide (i < r) && decide (st.M r i ≠ 0)) then
    none                                             -- lines 60-61
  else
    some st

/-- `for i in range(i, i+k)` of the loop at triples/sdp/utils.py 50. -/
def congLoop (n : ℕ) : ℕ → ℕ → CongState K → Option (CongState K)
  | _, 0, st => some st
  | i, k + 1, st => (congStep n i st).bind (congLoop n (i + 1) k)

/-- `congruence(M)`, triples/sdp/utils.py 11-65.  For `n = 0` the test `M[0,0]` (line 44) raises
`IndexError`. -/
def congruence (n : ℕ) (M : ℕ → ℕ → K) : Except PyErr (Option ((ℕ → ℕ → K) × (ℕ → K))) :=
  if n = 0 then .error .indexError
  else
    match congLoop n 0 (n - 1) ⟨M, fun _ _ => 0, fun _ => 0⟩ with
    | none => .ok none
    | some st =>
      -- lines 62-65: U[-1,-1] = One; S[-1] = M[-1,-1]; if signfunc(S[-1]) < 0: return None
      let U' : ℕ → ℕ → K := fun r c => if r = n - 1 ∧ c = n - 1 then 1 else st.U r c
      let S' : ℕ → K := fun r => if r = n - 1 then st.M (n - 1) (n - 1) else st.S r
      if S' (n - 1) < 0 then .ok none else .ok (some (U', S'))

/-- `congruence_with_perturbation(M, perturb=False)`, triples/sdp/utils.py 68-105 (the perturbing
branch depends on floating point eigenvalues and is not modelled). The empty matrix is answered
before calling `congruence` (line 90-91). -/
def congruenceNoPerturb (n : ℕ) (M : ℕ → ℕ → K) :
    Except PyErr (Option ((ℕ → ℕ → K) × (ℕ → K))) :=
  if n = 0 then .ok (some (fun _ _ => 0, fun _ => 0)) else congruence n M

end
end Verif
