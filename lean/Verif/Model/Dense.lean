import Verif.Model.Acute
import Verif.Model.Univariate

/-!
# The solvers for dense symmetric polynomials in three variables

Model of `triples/core/structsos/ternary/dense_symmetric.py` and of the decorator `sos_struct_handle_uncentered`
(`triples/core/structsos/ternary/utils.py` 102-142).

Simplifications.  Polynomials are lists of terms; `Poly.div`, the univariate prover and the general cyclic solver are the fields of `DenseExt`.
The subtracted expressions `_subtractor1`, `_subtractor2` are polynomials and stand in the answer with their value.  The recursion is bounded by
`fuel`; the degree falls with every call.
-/

namespace Verif.Dense

open Verif.Ternary Verif.TermsPoly Verif.Acute
open Verif.Univariate (Sos Raw)

variable {K : Type*} [Field K] [LinearOrder K]

/-- A polynomial as a list of terms. -/
abbrev TP (K : Type*) := List (List ℕ × K)

/-- What the solvers call in other files. -/
structure DenseExt (K : Type*) where
  /-- `_structural_sos_3vars_cyclic` (dense_symmetric.py 32). -/
  ternary : Coeff K → Option (Cert K)
  /-- `Poly.div` (dense_symmetric.py 136, 159, 207, 211, 289, 305). -/
  div : TP K → TP K → TP K × TP K
  /-- `prove_univariate(_, return_raw=True)` (dense_symmetric.py 149). -/
  prove : TP K → Option (Raw K)

/-- `Coeff(poly)` for a polynomial in three variables (coeff.py 25-36): the zero polynomial has the single term `((0,0,0), 0)`. -/
def coeffOf (p : TP K) : Coeff K := if p = [] then ⟨[([0, 0, 0], 0)], 3⟩ else ⟨p, 3⟩

/-! ### `sos_struct_handle_uncentered` -/

/-- `coeff[key] -= x` (ternary/utils.py 129-131). -/
def dsub (d : TP K) (k : List ℕ) (x : K) : Except PyErr (TP K) :=
  match dget d k with
  | none => .error .keyError
  | some v => .ok (dset d k (v - x))

/-- The three exponents (ternary/utils.py 122-123). -/
def centerKey (d : ℕ) : ℕ × ℕ × ℕ := (d / 3, d / 3 + (if 2 ≤ d % 3 then 1 else 0), d / 3 + (if d % 3 ≠ 0 then 1 else 0))

/-- The new coefficients (ternary/utils.py 124-131). -/
def centered (cs : TP K) (i j k : ℕ) (bias : K) : Except PyErr (TP K) := do
  let c0 := if dget cs [i, j, k] = none then dset (dset (dset cs [i, j, k] 0) [j, k, i] 0) [k, i, j] 0 else cs
  let c1 ← dsub c0 [i, j, k] (bias / 3)
  let c2 ← dsub c1 [j, k, i] (bias / 3)
  dsub c2 [k, i, j] (bias / 3)

/-- `total_degree` (coeff.py 169-173). -/
def totalDegree (co : Coeff K) : Except PyErr ℕ :=
  match co.coeffs with
  | [] => .error .valueError
  | t :: ts => .ok (ts.foldl (fun m u => max m u.1.sum) t.1.sum)

/-- `sos_struct_handle_uncentered` (ternary/utils.py 102-142). -/
def uncentered (solver : Coeff K → Except PyErr (Option (Cert K))) (co : Coeff K) : Except PyErr (Option (Cert K)) :=
  let bias := (co.coeffs.map Prod.snd).sum
  if bias < 0 then .ok none
  else
    match totalDegree co with
    | .error e => .error e
    | .ok d =>
      let t := centerKey d
      match centered co.coeffs t.1 t.2.1 t.2.2 bias with
      | .error e => .error e
      | .ok cs =>
        (solver ⟨cs, co.nvars⟩).map fun r => r.map fun s =>
          if d % 3 = 0 then s.add bias (cycp3 fun a _ _ => a ^ t.1)
          else s.add (bias / 3) (cyc3 fun a b c => a ^ t.1 * b ^ t.2.1 * c ^ t.2.2)

/-! ### The trivial case and the homogenisation of the axis -/

/-- `(i > j and i > k) or (i == j and i > k)` (dense_symmetric.py 51). -/
def isRep : List ℕ → Bool
  | [i, j, k] => decide ((j < i ∧ k < i) ∨ (i = j ∧ k < i))
  | _ => false

/-- `_sos_struct_trivial_additive` (dense_symmetric.py 43-61). -/
def trivialAdditive (co : Coeff K) : Option (Cert K) :=
  if co.coeffs.any fun t => decide (t.2 < 0) then none
  else
    let e := (co.coeffs.filter fun t => isRep t.1).map fun t => (t.2, cyc3 fun a b c => Coeff.evalMonom t.1 [a, b, c])
    let d := co.degree
    let v := co.call [d / 3, d / 3, d / 3]
    let e' : List (K × Val3 K) := if d % 3 = 0 ∧ v ≠ 0 then [(v / 3, cyc3 fun a b c => a ^ (d / 3) * b ^ (d / 3) * c ^ (d / 3))] else []
    some (.plain (e ++ e'))

/-- One term of `_homogenize_sym_axis` (dense_symmetric.py 79-85). -/
def homTerm (d : ℕ) (m : ℕ) (v : K) : TP K :=
  let k := (d - m) / 2
  if (d - m) % 2 = 0 then [([m, k, k], v)] else [([m, k + 1, k], v / 2), ([m, k, k + 1], v / 2)]

/-- `_homogenize_sym_axis` (dense_symmetric.py 74-86). -/
def homAxis (s : TP K) (d : ℕ) : TP K := s.flatMap fun t => homTerm d (t.1.getD 0 0) t.2

/-- The terms of an ascending coefficient list. -/
def uterms (v : UPoly K) : TP K := (v.zipIdx.map fun t => ([t.2], t.1)).filter fun t => decide (t.2 ≠ 0)

/-- `v.degree()`; the zero polynomial has none. -/
def udeg (v : UPoly K) : Option ℕ := ((uterms v).map fun t => t.1.getD 0 0).max?

/-- One square of `_homogenize_sym_proof` (dense_symmetric.py 97-100).  For a zero polynomial, or one of too large a degree, the expression is not a
polynomial; this is reported as an error. -/
def homSquare (d ld : ℕ) (kv : K × UPoly K) : Except PyErr (TP K) :=
  match udeg kv.2 with
  | none => .error .valueError
  | some e =>
    if d < ld + 2 * e then .error .valueError
    else
      let v2 := homAxis (uterms kv.2) e
      let rd := (d - ld - e * 2) / 2
      .ok (TermsPoly.pmul (TermsPoly.pmul (pconst 3 kv.1) (TermsPoly.pmul v2 v2)) [([0, rd, rd], 1)])

/-- The squares of one part, added (dense_symmetric.py 96-101). -/
def homSquares (d ld : ℕ) : List (K × UPoly K) → Except PyErr (TP K)
  | [] => .ok []
  | kv :: l => do
    let p ← homSquare d ld kv
    let q ← homSquares d ld l
    .ok (p ++ q)

/-- One part of `_homogenize_sym_proof` (dense_symmetric.py 94-106). -/
def homPart (d : ℕ) (e : Bool × Sos K) : Except PyErr (TP K) := do
  let ld := if e.1 then 1 else 0
  if d < ld then .error .valueError
  else
    let p ← homSquares d ld e.2
    let q := TermsPoly.pmul p [([ld, 0, 0], 1)]
    .ok (if (d - ld) % 2 = 1 then TermsPoly.pmul q [([0, 1, 0], 1 / 2), ([0, 0, 1], 1 / 2)] else q)

/-- `_homogenize_sym_proof` (dense_symmetric.py 88-107). -/
def homProof (d : ℕ) : Raw K → Except PyErr (TP K)
  | [] => .ok []
  | e :: l => do
    let p ← homPart d e
    let q ← homProof d l
    .ok (p ++ q)

/-- The leading coefficient of a univariate polynomial. -/
def lcT (s : TP K) : K := (s.foldl (fun (m : Option (ℕ × K)) t => match m with | none => some (t.1.getD 0 0, t.2) | some e => if e.1 < t.1.getD 0 0 then some (t.1.getD 0 0, t.2) else some e) none).elim 0 Prod.snd

/-- `LC() < 0 or p(0) < 0 or p(1) < 0` (dense_symmetric.py 139, 294). -/
def badSigns (s : TP K) : Bool := decide (lcT s < 0 ∨ Coeff.evalDict s [0] < 0 ∨ Coeff.evalDict s [1] < 0)

/-- `(a - 1)^2` and `(a - 1)^4` (dense_symmetric.py 136, 211, 289). -/
def sq1 : TP K := [([2], 1), ([1], -2), ([0], 1)]

/-- `(a - 1)^4` (dense_symmetric.py 289). -/
def sq2 : TP K := [([4], 1), ([3], -4), ([2], 6), ([1], -4), ([0], 1)]

/-- The homogenised quotient of the axis (dense_symmetric.py 146-152). -/
def liftedSym (X : DenseExt K) (s : TP K) (d : ℕ) : Except PyErr (Option (TP K)) :=
  if s.all fun t => decide (0 ≤ t.2) then .ok (some (homAxis s d))
  else
    match X.prove s with
    | none => .ok none
    | some R => (homProof d R).map some

/-! ### The lift -/

/-- `CyclicSum((a-b)**2)/2` as a polynomial (dense_symmetric.py 163). -/
def mulT : TP K := TermsPoly.pmul (cycT (TermsPoly.pmul abT abT)) (pconst 3 (1 / 2))

/-- The answer of `_sos_struct_lift_for_six` (dense_symmetric.py 171-174). -/
def liftAns (l : TP K) (s : Cert K) : Cert K :=
  over (Cert.add (times discV s) 1 (cyc3 fun a b c => (a - b) ^ 2 * (a - c) ^ 2 * polyVal l a b c)) (polyVal mulT)

/-- `_sos_struct_lift_for_six` without its decorator (dense_symmetric.py 111-174); `rec` is `_sos_struct_dense_symmetric`. -/
def liftForSix (X : DenseExt K) (rec : Coeff K → Except PyErr (Option (Cert K))) (co : Coeff K) : Except PyErr (Option (Cert K)) :=
  let d := co.degree
  if d < 8 then .ok none
  else
    let dv := X.div (symAxis co) sq1
    if dv.2 ≠ [] then .ok none
    else if badSigns dv.1 then .ok none
    else
      match liftedSym X dv.1 (d - 2) with
      | .error e => .error e
      | .ok none => .ok none
      | .ok (some l) =>
        let diff := (X.div (collect (TermsPoly.pmul co.coeffs mulT ++ pneg (cycT (liftT l)))) discT).1
        (rec (coeffOf diff)).map fun r => r.map (liftAns l)

/-! ### The lift without a multiplier -/

/-- `b + c - a` as a polynomial. -/
def bcaT : TP K := [([0, 1, 0], 1), ([0, 0, 1], 1), ([1, 0, 0], -1)]

/-- `b - c` as a polynomial. -/
def bcT : TP K := [([0, 1, 0], 1), ([0, 0, 1], -1)]

/-- `CyclicProduct(a**m) * CyclicSum(p) / k`. -/
def cycMix (m : ℕ) (p : TP K) (k : K) : TP K := TermsPoly.pmul (TermsPoly.pmul [([m, m, m], 1)] (cycT p)) (pconst 3 (1 / k))

/-- `a*b + a*c - b**2 - c**2` as a polynomial. -/
def tightT : TP K := [([1, 1, 0], 1), ([1, 0, 1], 1), ([0, 2, 0], -1), ([0, 0, 2], -1)]

/-- `_subtractor1` (dense_symmetric.py 236-250); `none` is the missing return value. -/
def subtractor1 (n m : ℕ) : Option (TP K) :=
  if m ≤ n then
    if (n - m) % 2 = 0 then some (cycMix m (TermsPoly.pmul (TermsPoly.ppow 3 bcaT (n - m)) (TermsPoly.pmul bcT bcT)) 2)
    else if n = m + 1 ∧ 1 ≤ m then some (cycMix (m - 1) (TermsPoly.pmul [([2, 0, 0], 1)] (TermsPoly.pmul tightT tightT)) 6)
    else if 1 ≤ m then some (cycMix (m - 1) (TermsPoly.pmul (TermsPoly.pmul [([2, 0, 0], 1)] (TermsPoly.pmul bcT bcT)) (TermsPoly.ppow 3 bcaT (n - m + 1))) 2)
    else none
  else some (cycMix n (TermsPoly.pmul [([2 * (m - n), 0, 0], 1)] (TermsPoly.pmul bcT bcT)) 2)

/-- `_subtractor2` (dense_symmetric.py 251-261). -/
def subtractor2 (n m : ℕ) : TP K :=
  if m ≤ n then
    if (n - m) % 2 = 0 then cycMix m (TermsPoly.pmul (TermsPoly.pmul [([1, 0, 0], 1)] (TermsPoly.ppow 3 bcaT (n - m))) (TermsPoly.pmul bcT bcT)) 2
    else cycMix m (TermsPoly.pmul (TermsPoly.pmul [([0, 1, 1], 1)] (TermsPoly.pmul bcT bcT)) (TermsPoly.ppow 3 bcaT (n - m - 1))) 2
  else cycMix n (TermsPoly.pmul [([2 * (m - n) + 1, 0, 0], 1)] (TermsPoly.pmul bcT bcT)) 2

/-- The choice of `n` (dense_symmetric.py 222-233); `floor` is the floor of a number. -/
def chooseN (floor : K → ℤ) (d : ℕ) (u v : K) : Option (ℕ × K × K) :=
  if u + v ≤ 0 ∨ u < 0 then none
  else
    let expected : ℤ := ((d + 1) / 3 : ℕ) - 1
    let n : ℤ :=
      if -v ≤ (expected : K) * (u + v) ∧ (expected : K) * (u + v) ≤ u then expected
      else if u < (expected : K) * (u + v) then floor (u / (u + v))
      else floor ((-v - 1) / (u + v)) + 1
    let u2 := u - (u + v) * (n : K)
    let v2 := v + (u + v) * (n : K)
    if n ≤ (d : ℤ) - 3 ∧ 0 ≤ n ∧ 0 ≤ u2 ∧ 0 ≤ v2 then some (n.toNat, u2, v2) else none

/-- The subtracted polynomial (dense_symmetric.py 235, 263-270).  Outer `none` is the return of `None`; a missing subtractor raises `TypeError`. -/
def subtractor (d n : ℕ) (u2 v2 : K) : Except PyErr (Option (TP K)) :=
  let m := (d - n - 3) / 2
  if (d - n - 3) % 2 = 0 then
    if m ≤ n ∧ m = 0 then .ok none
    else
      match subtractor1 (n + 1) m with
      | none => .error .typeError
      | some p => .ok (some (TermsPoly.pmul (pconst 3 u2) p ++ TermsPoly.pmul (pconst 3 v2) (subtractor2 n m)))
  else
    match subtractor1 n (m + 1) with
    | none => .error .typeError
    | some p => .ok (some (TermsPoly.pmul (pconst 3 u2) (subtractor2 (n + 1) m) ++ TermsPoly.pmul (pconst 3 v2) p))

/-- `_sos_struct_liftfree_for_six_ord4` after the computation of `div2` (dense_symmetric.py 294-311). -/
def ord4Core (X : DenseExt K) (rec : Coeff K → Except PyErr (Option (Cert K))) (co : Coeff K) (div2 : TP K) : Except PyErr (Option (Cert K)) :=
  if badSigns div2 then .ok none
  else if div2.all fun t => decide (0 ≤ t.2) then
    let l := homAxis div2 (co.degree - 4)
    let diff := (X.div (collect (co.coeffs ++ pneg (cycT (liftT l)))) discT).1
    (rec (coeffOf diff)).map fun r => r.map fun s => Cert.add (times discV s) 1 (cyc3 fun a b c => (a - b) ^ 2 * (a - c) ^ 2 * polyVal l a b c)
  else .ok none

/-- `_sos_struct_liftfree_for_six_ord4(coeff)` without `div2` (dense_symmetric.py 286-292). -/
def ord4 (X : DenseExt K) (rec : Coeff K → Except PyErr (Option (Cert K))) (co : Coeff K) : Except PyErr (Option (Cert K)) :=
  let dv := X.div (symAxis co) sq2
  if dv.2 ≠ [] then .ok none else ord4Core X rec co dv.1

/-- `sos_struct_liftfree_for_six` without its decorator (dense_symmetric.py 178-274). -/
def liftFree (X : DenseExt K) (floor : K → ℤ) (rec : Coeff K → Except PyErr (Option (Cert K))) (co : Coeff K) : Except PyErr (Option (Cert K)) :=
  let d := co.degree
  if d < 6 then .ok none
  else
    let dv := X.div (symAxis co) sq1
    if dv.2 ≠ [] then .ok none
    else
      let dv2 := X.div dv.1 sq1
      if dv2.2 = [] then ord4Core X rec co dv2.1
      else
        match chooseN floor d ((dget dv2.2 [1]).getD 0) ((dget dv2.2 [0]).getD 0) with
        | none => .ok none
        | some (n, u2, v2) =>
          match subtractor d n u2 v2 with
          | .error e => .error e
          | .ok none => .ok none
          | .ok (some p) =>
            (ord4 X rec (coeffOf (collect (co.coeffs ++ pneg p)))).map fun r => r.map fun s => s.add 1 (polyVal p)

/-- `_sos_struct_dense_symmetric` (dense_symmetric.py 23-40). -/
def dense (X : DenseExt K) (floor : K → ℤ) : ℕ → Coeff K → Except PyErr (Option (Cert K))
  | 0, _ => .error (.custom "RecursionError")
  | fuel + 1, co =>
    match trivialAdditive co with
    | some C => .ok (some C)
    | none =>
      if co.degree < 8 then .ok (X.ternary co)
      else
        match uncentered (liftFree X floor (dense X floor fuel)) co with
        | .error e => .error e
        | .ok (some C) => .ok (some C)
        | .ok none => uncentered (liftForSix X (dense X floor fuel)) co

/-- `sos_struct_dense_symmetric` (dense_symmetric.py 12-19). -/
def denseSolve (X : DenseExt K) (floor : K → ℤ) (fuel : ℕ) (co : Coeff K) : Except PyErr (Option (Cert K)) :=
  if co.degree < 8 then .ok none
  else
    match co.isSymmetricDefault with
    | .error e => .error e
    | .ok false => .ok none
    | .ok true => dense X floor fuel co

end Verif.Dense
