import Verif.Model.Shared
import Verif.Basic.Terms
import Mathlib.Data.List.Sort

/-!
# Model of triples/core/symsos: pivoting and the symmetric changes of variables

`basic.py` (`extract_factor`, `prove_by_pivoting`), `symmetric.py` (three variables), `representation.py` (`sym_transform`)
and the driver `symsos.py`.  A polynomial is the list of generators (symbols are numbers) and the list of terms.
-/

namespace Verif.SymSOS

open Verif TermsPoly MonoMgr Shared

variable {K : Type*}

/-! ### `prove_by_pivoting` -/

/-- Expressions returned by `prove_by_pivoting` (basic.py 85-152).  `ext b hom` is an answer `b` of
`structural_sos_2vars` in which the homogenizer, if any, is replaced by `1`; `addTerm s g k rest` is `s * g**k + rest`. -/
inductive PivE (β K : Type*) where
  | num : K → PivE β K
  | ext : β → Option ℕ → PivE β K
  | zero : PivE β K
  | addTerm : PivE β K → ℕ → ℕ → PivE β K → PivE β K

/-- `poly.degree(gen)` for a nonzero polynomial, `gen` given by its position. -/
def degAt (i : ℕ) (p : Terms K) : ℕ := (p.map fun t => t.1.getD i 0).foldl max 0

/-- `coeff.as_poly(rest_gens)` for the coefficient of `gen**k` in `poly.as_poly(gen)` (basic.py 125, 129-130). -/
def coeffAt (i k : ℕ) (p : Terms K) : Terms K :=
  (p.filter fun t => t.1.getD i 0 == k).map fun t => (t.1.eraseIdx i, t.2)

/-- `poly_gen.monoms()`: the exponents of `gen`, in descending order. -/
def expsAt (i : ℕ) (p : Terms K) : List ℕ := ((p.map fun t => t.1.getD i 0).dedup).insertionSort (· ≥ ·)

/-- `priority` (basic.py 117-118): sorted by degree and then by nonnegativity (`False` first); the sort is stable. -/
def priority (nonneg gens : List ℕ) (p : Terms K) : List (ℕ × Bool × ℕ) :=
  ((List.range gens.length).map fun i => (degAt i p, nonneg.contains (gens.getD i 0), i)).insertionSort fun a b =>
    a.1 < b.1 ∨ (a.1 = b.1 ∧ (a.2.1 = false ∨ b.2.1 = true))

/-- The loop over the terms (basic.py 128-136): `none` when some coefficient has no proof. -/
def pivTerms {β : Type*} (rec : List ℕ → Terms K → Option (PivE β K)) (gens : List ℕ) (p : Terms K) (i : ℕ) :
    List ℕ → Option (PivE β K)
  | [] => some .zero
  | k :: ks =>
    match rec (gens.eraseIdx i) (coeffAt i k p) with
    | none => none
    | some s => (pivTerms rec gens p i ks).map fun r => .addTerm s (gens.getD i 0) k r

/-- The loop over the generators (basic.py 119-152). -/
def pivLoop {β : Type*} (rec : List ℕ → Terms K → Option (PivE β K)) (gens : List ℕ) (p : Terms K) :
    List (ℕ × Bool × ℕ) → Option (PivE β K)
  | [] => none
  | (d, nn, i) :: rest =>
    if d = 0 then rec (gens.eraseIdx i) (p.map fun t => (t.1.eraseIdx i, t.2))
    else if nn || (expsAt i p).all (fun k => k % 2 == 0) then
      match pivTerms rec gens p i (expsAt i p) with
      | some e => some e
      | none => pivLoop rec gens p rest
    else pivLoop rec gens p rest

/-- `prove_by_pivoting(poly, nonnegative_symbols)` (basic.py 85-152).  `biv gens poly nonneg` is `structural_sos_2vars` with
the constraints `gen >= 0` for the listed generators; `fresh g` is the symbol `'_' + gen.name`.  The first argument bounds
the depth of the recursion. -/
def proveByPivoting [Zero K] [LE K] [DecidableRel (α := K) (· ≤ ·)] {β : Type*}
    (biv : List ℕ → Terms K → List ℕ → Option β) (fresh : ℕ → ℕ) (nonneg : List ℕ) :
    ℕ → List ℕ → Terms K → Option (PivE β K)
  | 0, _, _ => none
  | n + 1, gens, p =>
    if p.all fun t => t.1.sum == 0 then
      let c := (dget p (List.replicate gens.length 0)).getD 0
      if 0 ≤ c then some (.num c) else none
    else if (List.range gens.length).any fun i => !(nonneg.contains (gens.getD i 0)) && degAt i p % 2 == 1 then none
    else if gens.length = 1 then
      let h := fresh (gens.getD 0 0)
      (biv (gens ++ [h]) (homogenizeNew 1 p) ((gens ++ [h]).filter fun g => nonneg.contains g)).map fun b => .ext b (some h)
    else if gens.length = 2 ∧ isHomogeneous p = true then
      (biv gens p (gens.filter fun g => nonneg.contains g)).map fun b => .ext b none
    else pivLoop (proveByPivoting biv fresh nonneg n) gens p (priority nonneg gens p)

/-! ### `extract_factor` -/

/-- The loop of `extract_factor` (basic.py 67-81) after the test for zero; `dm` is `divmod(poly, factor)`, `vanish` tells
whether the polynomial is zero at the given points.  The first argument bounds the number of rounds. -/
def extractLoop (dm : Terms K → Terms K × Terms K) (vanish : Terms K → Bool) : ℕ → ℕ → Terms K → Option (ℕ × Terms K)
  | 0, _, _ => none
  | n + 1, d, p =>
    if !(vanish p) then some (d, p)
    else if (dm p).2.isEmpty then extractLoop dm vanish n (d + 1) (dm p).1
    else some (d, p)

/-- `extract_factor(poly, factor, points)` (basic.py 44-81). -/
def extractFactor (dm : Terms K → Terms K × Terms K) (vanish : Terms K → Bool) (n : ℕ) (p : Terms K) :
    Option (ℕ × Terms K) :=
  if p.isEmpty then some (0, p) else extractLoop dm vanish n 0 p

/-! ### the changes of variables -/

section Trans
variable [Field K] [DecidableEq K]

/-- `f(A, B, C)` for `Poly` objects in three new generators. -/
def comp3 (f : Terms K) (A B C : Terms K) : Terms K :=
  collect (f.flatMap fun t =>
    pmul (pconst 3 t.2) (pmul (ppow 3 A (t.1.getD 0 0)) (pmul (ppow 3 B (t.1.getD 1 0)) (ppow 3 C (t.1.getD 2 0)))))

/-- `degree` (symmetric.py 39, 214): the weighted degree of the leading term. -/
def pqrDegree (f : Terms K) : ℕ :=
  match f with
  | [] => 0
  | t :: _ => t.1.getD 0 0 + 2 * t.1.getD 1 0 + 3 * t.1.getD 2 0

/-- `poly_pqr.subs(p, 1).as_poly(q, r)` (symmetric.py 43, 218). -/
def polyQR (f : Terms K) : Terms K := collect (f.map fun t => (t.1.drop 1, t.2))

/-- `x`, `y`, `z` as polynomials. -/
def vx : Terms K := [([1, 0, 0], 1)]
def vy : Terms K := [([0, 1, 0], 1)]
def vz : Terms K := [([0, 0, 1], 1)]

/-- The three polynomials substituted by `SymmetricPositive` (symmetric.py 45-49), multiplied out:
`y*((x+y)*(4*x+y)+z)`, `x*y**2`, `z*(x+4*y)+4*(x+y)**3`. -/
def posQ : Terms K := [([2, 1, 0], 4), ([1, 2, 0], 5), ([0, 3, 0], 1), ([0, 1, 1], 1)]
def posR : Terms K := [([1, 2, 0], 1)]
def posP : Terms K := [([3, 0, 0], 4), ([2, 1, 0], 12), ([1, 2, 0], 12), ([0, 3, 0], 4), ([1, 0, 1], 1), ([0, 1, 1], 4)]

/-- The three polynomials substituted by `_symmetric_real_3vars` (symmetric.py 220-224), multiplied out:
`9*x*(x**2-y**2-z)`, `x**3+(2*y-3*x)*(y**2+z)`, `27*x**3`. -/
def realQ : Terms K := [([3, 0, 0], 9), ([1, 2, 0], -9), ([1, 0, 1], -9)]
def realR : Terms K := [([3, 0, 0], 1), ([0, 3, 0], 2), ([0, 1, 1], 2), ([1, 2, 0], -3), ([1, 0, 1], -3)]
def realP : Terms K := [([3, 0, 0], 27)]

/-- `SymmetricPositive._transform_pqr` with `return_poly` (symmetric.py 34-72): the numerator and the exponents of `p0`
and `w0` in the denominator.  The zero polynomial (whose degree is `-oo`) is not modelled. -/
def transPos (dm : Terms K → Terms K × Terms K) (vanish : Terms K → Bool) (n : ℕ) (f : Terms K) :
    Option (Terms K × ℤ × ℤ) :=
  let qr := polyQR f
  let h := totalDegree 2 qr
  let num := comp3 (homogenizeNew 2 qr) posQ posR posP
  (extractFactor dm vanish n num).map fun e => (e.2, 3 * (h : ℤ) - pqrDegree f, (h : ℤ) - e.1)

/-- The smallest exponent of `x` (symmetric.py 238). -/
def minX (p : Terms K) : ℕ :=
  match p with
  | [] => 0
  | t :: l => (l.map fun t => t.1.getD 0 0).foldl min (t.1.getD 0 0)

/-- Division by `x**m` (symmetric.py 241). -/
def divX (m : ℕ) (p : Terms K) : Terms K := p.map fun t => ((t.1.getD 0 0 - m) :: t.1.drop 1, t.2)

/-- `_symmetric_real_3vars` with `return_poly` (symmetric.py 210-256). -/
def transReal (dm : Terms K → Terms K × Terms K) (vanish : Terms K → Bool) (n : ℕ) (f : Terms K) :
    Option (Terms K × ℤ × ℤ) :=
  let qr := polyQR f
  let h := totalDegree 2 qr
  let num := pmul (pconst 3 ((27 ^ h)⁻¹)) (comp3 (homogenizeNew 2 qr) realQ realR realP)
  let m := minX num
  (extractFactor dm vanish n (divX m num)).map fun e =>
    (e.2, 3 * (h : ℤ) - pqrDegree f - m, 3 * (h : ℤ) - m - 3 * e.1)

/-- The two methods of `_METHOD_TO_TRANSFORM` (representation.py 9-12). -/
inductive Method where
  | real
  | positive
  deriving DecidableEq

/-- External polynomial arithmetic: division by `y**2 + z` and by `(y-2*x)**2 + z`, with the tests at the points
`(3,2,-4)` and `(2,1,-9)`. -/
structure Arith (K : Type*) where
  dm : Method → Terms K → Terms K × Terms K
  vanish : Method → Terms K → Bool

/-- `trans.transform(poly, symbols, return_poly=True)` (representation.py 105-106, basic.py 12-16) on the `p, q, r` form. -/
def transform (A : Arith K) (n : ℕ) : Method → Terms K → Option (Terms K × ℤ × ℤ)
  | .real => transReal (A.dm .real) (A.vanish .real) n
  | .positive => transPos (A.dm .positive) (A.vanish .positive) n

/-- `_nonnegative_vars` on one transformed constraint (symsos.py 14-22): a monomial of degree one with a nonnegative
coefficient gives its variable (`0`, `1`, `2` for `x`, `y`, `z`). -/
def nonnegVar [LE K] [DecidableRel (α := K) (· ≤ ·)] (p : Terms K) : Option ℕ :=
  match p with
  | [t] => if t.1.sum = 1 ∧ 0 ≤ t.2 then t.1.findIdx? (· == 1) else none
  | _ => none

/-- `get_default_constraints` (symmetric.py 90-96, 191-195). -/
def defaultNonneg : Method → List ℕ
  | .real => [2]
  | .positive => [0, 1, 2]

/-- The answer for one method: the expression for the numerator, and the exponents of the denominator. -/
structure SymAns (β K : Type*) where
  method : Method
  num : PivE β K
  pdeg : ℤ
  wdeg : ℤ

/-- One round of the loop of `SymmetricSOS` (symsos.py 76-84) with `sym_transform` (representation.py 99-127): `cons` are
the `p, q, r` forms of the symmetric constraints.  Dummy symbols are `0, 1, 2`. -/
def symMethod [LE K] [DecidableRel (α := K) (· ≤ ·)] {β : Type*} (A : Arith K)
    (biv : List ℕ → Terms K → List ℕ → Option β) (fresh : ℕ → ℕ) (n : ℕ) (cons : List (Terms K)) (f : Terms K)
    (m : Method) : Option (SymAns β K) :=
  (transform A n m f).bind fun r =>
    let nonneg := (cons.filterMap fun c => (transform A n m c).bind fun t => nonnegVar t.1) ++ defaultNonneg m
    (proveByPivoting biv fresh nonneg 4 [0, 1, 2] r.1).map fun e => ⟨m, e, r.2.1, r.2.2⟩

end Trans

end Verif.SymSOS
