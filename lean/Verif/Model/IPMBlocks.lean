import Verif.Model.IPM

/-!
# Model of the interior point method on blocks (triples/sdp/ipm.py)

The arguments are lists of diagonal blocks.  The loop works on each block and adds up the scalars, as in the code.
-/

namespace Verif.IPM

open Matrix

variable {β : Type*} [Fintype β] [DecidableEq β] {ι : β → Type*} [∀ k, Fintype (ι k)] [∀ k, DecidableEq (ι k)] {m : ℕ}

/-- The diagonal blocks of a matrix, `X[block]` (ipm.py 252-255). -/
abbrev Blocks {β : Type*} (ι : β → Type*) := ∀ k, Matrix (ι k) (ι k) ℝ

/-- The arguments of `sdp_ipm` by blocks (ipm.py 252-257). -/
structure BProb {β : Type*} (ι : β → Type*) (m : ℕ) where
  A : Fin m → Blocks ι
  b : Fin m → ℝ
  C : Blocks ι

/-- The part of the program on one block (ipm.py 254-257). -/
def BProb.at (P : BProb ι m) (k : β) : Prob (ι k) m := ⟨fun i => P.A i k, P.b, P.C k⟩

/-- `z` (ipm.py 250, 263). -/
def BProb.z (P : BProb ι m) (X : Blocks ι) : ℝ := ∑ k, (P.at k).z (X k)

/-- `cxcx` (ipm.py 251, 264). -/
def BProb.cxcx (P : BProb ι m) (X : Blocks ι) : ℝ := ∑ k, (P.at k).cxcx (X k)

/-- `cxax` (ipm.py 261, 271). -/
def BProb.cxax (P : BProb ι m) (X : Blocks ι) (i : Fin m) : ℝ := ∑ k, (P.at k).cxax (X k) i

/-- `M` (ipm.py 260, 270). -/
def BProb.M (P : BProb ι m) (X : Blocks ι) (i j : Fin m) : ℝ := ∑ k, (P.at k).M (X k) i j

/-- `F.linsolve(M + bbT, d)` (ipm.py 282-283). -/
def BProb.Solved (P : BProb ι m) (X : Blocks ι) (lam : Fin m → ℝ) : Prop :=
  ∀ i, ∑ j, (P.M X i j + P.b i * P.b j) * lam j = P.b i * (-P.z X) - P.cxax X i

/-- `v` (ipm.py 284). -/
def BProb.v (P : BProb ι m) (X : Blocks ι) (lam : Fin m → ℝ) : ℝ := -∑ j, P.b j * lam j - P.z X

/-- `n`, the size of the whole matrix (ipm.py 233, 236). -/
def size {β : Type*} [Fintype β] (ι : β → Type*) [∀ k, Fintype (ι k)] : ℕ := ∑ k, Fintype.card (ι k)

/-- `eig_mean` (ipm.py 296, 300). -/
noncomputable def BProb.mean (P : BProb ι m) (X : Blocks ι) (lam : Fin m → ℝ) : ℝ := (∑ k, ((P.at k).VX (X k) lam).trace) / size ι

/-- `eig_std` (ipm.py 295, 301). -/
noncomputable def BProb.std (P : BProb ι m) (X : Blocks ι) (lam : Fin m → ℝ) : ℝ :=
  Real.sqrt ((∑ k, ((P.at k).VX (X k) lam * (P.at k).VX (X k) lam).trace) / size ι - P.mean X lam ^ 2)

/-- The denominator of `beta` (ipm.py 302). -/
noncomputable def BProb.top (P : BProb ι m) (X : Blocks ι) (lam : Fin m → ℝ) : ℝ :=
  max (P.v X lam) (P.mean X lam + P.std X lam * Real.sqrt (size ι - 1))

/-- `beta` (ipm.py 302). -/
noncomputable def BProb.beta (P : BProb ι m) (rho : ℝ) (X : Blocks ι) (lam : Fin m → ℝ) : ℝ := rho / P.top X lam

/-- `r` (ipm.py 313). -/
noncomputable def BProb.r (P : BProb ι m) (rho : ℝ) (X : Blocks ι) (lam : Fin m → ℝ) : ℝ := 1 / (1 - P.beta rho X lam * P.v X lam)

/-- The new `Xk`, block by block (ipm.py 315-318). -/
noncomputable def BProb.next (P : BProb ι m) (rho : ℝ) (X : Blocks ι) (lam : Fin m → ℝ) : Blocks ι := fun k =>
  P.r rho X lam • X k - P.beta rho X lam • ((P.r rho X lam • X k) * (P.at k).VX (X k) lam)

/-- `diff` (ipm.py 323). -/
noncomputable def BProb.diff (P : BProb ι m) (rho : ℝ) (X : Blocks ι) (lam : Fin m → ℝ) : ℝ :=
  P.beta rho X lam * (P.cxcx X + ∑ j, P.cxax X j * lam j - P.z X * P.v X lam) * P.r rho X lam

open Classical in
/-- `sdp_ipm` (ipm.py 229-342) with `blocks` and `callback`; `cb` gets the new point, the multipliers and `diff` out of the dictionary of
lines 333-334.  A zero denominator is as in `Prob.ipm`. -/
noncomputable def BProb.ipm (P : BProb ι m) (ls : Blocks ι → Fin m → ℝ) (cb : Blocks ι → (Fin m → ℝ) → ℝ → Bool) (rho eps : ℝ) :
    ℕ → Blocks ι → Except PyErr (Blocks ι × (Fin m → ℝ))
  | 0, _ => .error (.custom "SDPConvergenceError")
  | k + 1, X =>
    if P.top X (ls X) = 0 then .error (.custom "SDPNumericalError")
    else if P.diff rho X (ls X) < eps then .ok (P.next rho X (ls X), ls X)
    else if cb (P.next rho X (ls X)) (ls X) (P.diff rho X (ls X)) then .ok (P.next rho X (ls X), ls X)
    else BProb.ipm P ls cb rho eps k (P.next rho X (ls X))

end Verif.IPM
