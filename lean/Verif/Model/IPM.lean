import Verif.Model.Congruence
import Mathlib.LinearAlgebra.Matrix.Trace
import Mathlib.Data.Matrix.Block
import Mathlib.Analysis.Real.Sqrt

/-!
# Model of the interior point method (triples/sdp/ipm.py)

Matrices have exact real entries.  The matrices are taken as one block; with `blocks` the code does the same on the diagonal blocks of
block diagonal matrices.  `lam` is the solution of the linear system that `linsolve` returns.
-/

namespace Verif.IPM

open Matrix

variable {ι : Type*} [Fintype ι] [DecidableEq ι] {m : ℕ}

/-- The arguments `A`, `b`, `C` of `sdp_ipm` (ipm.py 155-168). -/
structure Prob (ι : Type*) (m : ℕ) where
  A : Fin m → Matrix ι ι ℝ
  b : Fin m → ℝ
  C : Matrix ι ι ℝ

/-- `z` (ipm.py 263). -/
def Prob.z (P : Prob ι m) (X : Matrix ι ι ℝ) : ℝ := (P.C * X).trace

/-- `cxax` (ipm.py 261); `F.inner(x, y)` is the trace of the product (38-40, 83-87, 103-105, 118-120). -/
def Prob.cxax (P : Prob ι m) (X : Matrix ι ι ℝ) (i : Fin m) : ℝ := (P.C * X * (P.A i * X)).trace

/-- `cxcx` (ipm.py 264). -/
def Prob.cxcx (P : Prob ι m) (X : Matrix ι ι ℝ) : ℝ := (P.C * X * (P.C * X)).trace

/-- `M` (ipm.py 260). -/
def Prob.M (P : Prob ι m) (X : Matrix ι ι ℝ) (i j : Fin m) : ℝ := (P.A i * X * (P.A j * X)).trace

/-- `F.linsolve(M + bbT, d)` (ipm.py 282-283): `lam` solves the system. -/
def Prob.Solved (P : Prob ι m) (X : Matrix ι ι ℝ) (lam : Fin m → ℝ) : Prop :=
  ∀ i, ∑ j, (P.M X i j + P.b i * P.b j) * lam j = P.b i * (-P.z X) - P.cxax X i

/-- `v` (ipm.py 284). -/
def Prob.v (P : Prob ι m) (X : Matrix ι ι ℝ) (lam : Fin m → ℝ) : ℝ := -∑ j, P.b j * lam j - P.z X

/-- `VX` (ipm.py 291-293). -/
def Prob.VX (P : Prob ι m) (X : Matrix ι ι ℝ) (lam : Fin m → ℝ) : Matrix ι ι ℝ := P.C * X + ∑ j, lam j • (P.A j * X)

/-- `eig_mean` (ipm.py 296, 300). -/
noncomputable def Prob.mean (P : Prob ι m) (X : Matrix ι ι ℝ) (lam : Fin m → ℝ) : ℝ := (P.VX X lam).trace / Fintype.card ι

/-- `eig_std` (ipm.py 295, 301). -/
noncomputable def Prob.std (P : Prob ι m) (X : Matrix ι ι ℝ) (lam : Fin m → ℝ) : ℝ :=
  Real.sqrt ((P.VX X lam * P.VX X lam).trace / Fintype.card ι - P.mean X lam ^ 2)

/-- The denominator of `beta` (ipm.py 302). -/
noncomputable def Prob.top (P : Prob ι m) (X : Matrix ι ι ℝ) (lam : Fin m → ℝ) : ℝ :=
  max (P.v X lam) (P.mean X lam + P.std X lam * Real.sqrt (Fintype.card ι - 1))

/-- `beta` (ipm.py 302). -/
noncomputable def Prob.beta (P : Prob ι m) (rho : ℝ) (X : Matrix ι ι ℝ) (lam : Fin m → ℝ) : ℝ := rho / P.top X lam

/-- `r` (ipm.py 313). -/
noncomputable def Prob.r (P : Prob ι m) (rho : ℝ) (X : Matrix ι ι ℝ) (lam : Fin m → ℝ) : ℝ := 1 / (1 - P.beta rho X lam * P.v X lam)

/-- The new `Xk` (ipm.py 315-318): `Xk *= r`, then `Xk -= beta * (Xk @ VX)`. -/
noncomputable def Prob.next (P : Prob ι m) (rho : ℝ) (X : Matrix ι ι ℝ) (lam : Fin m → ℝ) : Matrix ι ι ℝ :=
  P.r rho X lam • X - P.beta rho X lam • ((P.r rho X lam • X) * P.VX X lam)

/-- `diff` (ipm.py 323). -/
noncomputable def Prob.diff (P : Prob ι m) (rho : ℝ) (X : Matrix ι ι ℝ) (lam : Fin m → ℝ) : ℝ :=
  P.beta rho X lam * (P.cxcx X + ∑ j, P.cxax X j * lam j - P.z X * P.v X lam) * P.r rho X lam

open Classical in
/-- `sdp_ipm` (ipm.py 229-342) without `callback`.  `ls` is the linear solver.  A zero denominator gives `nan` with numpy, which a later pass
reports, and another exception with SymPy and mpmath; the end of the loop raises `SDPConvergenceError` (338-340). -/
noncomputable def Prob.ipm (P : Prob ι m) (ls : Matrix ι ι ℝ → Fin m → ℝ) (rho eps : ℝ) : ℕ → Matrix ι ι ℝ → Except PyErr (Matrix ι ι ℝ × (Fin m → ℝ))
  | 0, _ => .error (.custom "SDPConvergenceError")
  | k + 1, X =>
    if P.top X (ls X) = 0 then .error (.custom "SDPNumericalError")
    else if P.diff rho X (ls X) < eps then .ok (P.next rho X (ls X), ls X)
    else Prob.ipm P ls rho eps k (P.next rho X (ls X))

/-- `_pad` (ipm.py 421-425). -/
def pad (X : Matrix ι ι ℝ) (t : ℝ) : Matrix (ι ⊕ Unit) (ι ⊕ Unit) ℝ := fromBlocks X 0 0 (of fun _ _ => t)

/-- The problem that `sdp_ipm_feasible` gives to `sdp_ipm` (ipm.py 413-439). -/
def padProb (A : Fin m → Matrix ι ι ℝ) (b : Fin m → ℝ) (X0 : Matrix ι ι ℝ) : Prob (ι ⊕ Unit) m :=
  ⟨fun i => pad (A i) (b i - (A i * X0).trace), b, pad 0 1⟩

/-- `sdp_ipm_feasible` (ipm.py 410-444); `X0 = None` is the identity.  The blocks `[n, 1]` are taken as one block of size `n + 1`. -/
noncomputable def ipmFeasible (A : Fin m → Matrix ι ι ℝ) (b : Fin m → ℝ) (X0 : Matrix ι ι ℝ) (ls : Matrix (ι ⊕ Unit) (ι ⊕ Unit) ℝ → Fin m → ℝ)
    (rho eps : ℝ) (maxIter : ℕ) : Except PyErr (Matrix ι ι ℝ) :=
  if m = 0 then .error .valueError
  else
    match (padProb A b X0).ipm ls rho eps maxIter (pad X0 1) with
    | .error e => .error e
    | .ok r => .ok r.1.toBlocks₁₁

/-- `sdp_dual_feasible` (ipm.py 499-509). -/
noncomputable def dualFeasible (C : Matrix ι ι ℝ) (A : Fin m → Matrix ι ι ℝ) (ls : Matrix ι ι ℝ → Fin m → ℝ) (rho eps : ℝ) (maxIter : ℕ) :
    Except PyErr (Matrix ι ι ℝ × (Fin m → ℝ)) :=
  if m = 0 then .error .valueError
  else (Prob.mk A (fun i => (A i).trace) C).ipm ls rho eps maxIter 1

end Verif.IPM
