import Mathlib.Algebra.MvPolynomial.PDeriv
import Mathlib.Algebra.MvPolynomial.Rename
import Mathlib.Data.List.OfFn

/-!
# Model of `kkt` (triples/utils/roots/findroot.py 171-234)

The problem has `n` variables, `p` constraints `g >= 0` and `q` constraints `h = 0`, all of them polynomials.  The symbols of the system are
`symbs0 + lambs + mus` (findroot.py 228).
-/

namespace Verif.KKT

open MvPolynomial

variable {K : Type*} [CommRing K] {n p q : ℕ}

/-- `symbs` (findroot.py 228): the variables, the multipliers `λ`, the multipliers `μ`. -/
abbrev Sym (n p q : ℕ) := Fin n ⊕ (Fin p ⊕ Fin q)

/-- An expression in the variables, seen as one in all the symbols. -/
noncomputable def lift (f : MvPolynomial (Fin n) K) : MvPolynomial (Sym n p q) K := rename Sum.inl f

/-- The symbol `λ_j` (findroot.py 219). -/
noncomputable def lam (j : Fin p) : MvPolynomial (Sym n p q) K := X (Sum.inr (Sum.inl j))

/-- The symbol `μ_k` (findroot.py 220). -/
noncomputable def mu (k : Fin q) : MvPolynomial (Sym n p q) K := X (Sum.inr (Sum.inr k))

/-- `lag` (findroot.py 221-222). -/
noncomputable def lag (f : MvPolynomial (Fin n) K) (g : Fin p → MvPolynomial (Fin n) K) (h : Fin q → MvPolynomial (Fin n) K) :
    MvPolynomial (Sym n p q) K :=
  lift f - ((List.finRange p).map fun j => lam j * lift (g j)).sum + ((List.finRange q).map fun k => mu k * lift (h k)).sum

/-- `kkt(f, ineq_constraints, eq_constraints, with_self)` (findroot.py 211-234): the system. -/
noncomputable def kkt (f : MvPolynomial (Fin n) K) (g : Fin p → MvPolynomial (Fin n) K) (h : Fin q → MvPolynomial (Fin n) K)
    (withSelf : Bool) : List (MvPolynomial (Sym n p q) K) :=
  ((List.finRange n).map fun i => pderiv (Sum.inl i) (lag f g h)) ++ ((List.finRange p).map fun j => lam j * lift (g j)) ++
    ((List.finRange q).map fun k => lift (h k)) ++ (if withSelf then [lift f] else [])

end Verif.KKT
