import Verif.Model.TernaryPH

/-!
# The heuristic solver for sparse cyclic ternary polynomials

Model of `sos_struct_heuristic` (triples/core/structsos/ternary/sparse.py 655-794).  The solvers it calls are parameters: `dense` is `sos_struct_dense_symmetric`,
`recur` is `_structural_sos_3vars_cyclic` inside `_separate_product_wrapper` (sparse.py 436-481, which only rearranges a product and keeps its value), `prover` is
`prove_univariate` on the dictionary of a polynomial in one variable.
-/

namespace Verif.Ternary

open Verif

variable {K : Type*} [Field K] [LinearOrder K]

/-- `border1` (sparse.py 685-691): the terms without `a`, from the end of the dictionary. -/
def border1 (l : List (List ℕ × K)) : List (ℕ × K) :=
  (((l.reverse.takeWhile fun kv => decide (kv.1.getD 0 0 = 0)).filter fun kv => decide (kv.2 ≠ 0)).map fun kv => (kv.1.getD 1 0, kv.2)).reverse

/-- `border2` (sparse.py 693-697): the terms with the largest power of `a`, from the start of the dictionary. -/
def border2 (i0 : ℕ) (l : List (List ℕ × K)) : List (ℕ × K) :=
  ((l.takeWhile fun kv => decide (kv.1.getD 0 0 = i0)).filter fun kv => decide (kv.2 ≠ 0)).map fun kv => (kv.1.getD 1 0, kv.2)

/-- The exponent of the entry `n` of a border. -/
def bexp (l : List (ℕ × K)) (n : ℕ) : ℕ := (l.map Prod.fst).getD n 0

/-- `gap11, gap12` (sparse.py 732-737), or `gap21, gap22` (sparse.py 739-744); `total` is `degree` or `degree - i0`. -/
def hexGaps (l : List (ℕ × K)) (total : ℤ) : ℤ × ℤ :=
  if 3 ≤ l.length ∧ (bexp l 1 : ℤ) + bexp l (l.length - 2) = total then ((bexp l 0 : ℤ) - bexp l 1, (bexp l 0 : ℤ) - bexp l (l.length - 2))
  else if l.length ≤ 2 then (0, 0)
  else (-1, -1)

/-- Subtract `Pnrms`, call the recursion and add the expression again (sparse.py 753-755, 772-774).  Exponents are nonnegative for sorted dictionaries. -/
def tryP (recur : Coeff K → Option (Val3 K)) (co : Coeff K) (n r m s : ℤ) (v : K) : Option (Val3 K) :=
  (recur (co.sub (pCoeff n.toNat r.toNat m.toNat s.toNat v))).map fun e => fun a b c => e a b c + pExpr n.toNat r.toNat m.toNat s.toNat v a b c

/-- Subtract `Hnmr`, call the recursion and add the expression again (sparse.py 763-765, 783-785). -/
def tryH (recur : Coeff K → Option (Val3 K)) (co : Coeff K) (n m r : ℤ) (v : K) : Option (Val3 K) :=
  (recur (co.sub (hCoeff n m.toNat r.toNat v))).map fun e => fun a b c => e a b c + hExpr n m.toNat r.toNat v a b c

/-- The body of the loop of the second case (sparse.py 758-774). -/
def hexOuter (recur : Coeff K → Option (Val3 K)) (co : Coeff K) (d j0 : ℤ) (c0 : K) (r : ℤ) : Option (Val3 K) :=
  let n := j0 - 2 * r
  let m := d - j0
  (if 0 ≤ n ∧ 0 ≤ m ∧ m ≤ n + r then tryH recur co n m r (if m ≠ 0 then c0 else c0 / 2) else none).or
  (if r < m ∧ m < n + r then tryP recur co (2 * r) r n (m - r) c0 else none)

/-- The body of the loop of the third case (sparse.py 777-785). -/
def hexInner (recur : Coeff K → Option (Val3 K)) (co : Coeff K) (d j0 : ℤ) (c0 : K) (r : ℤ) : Option (Val3 K) :=
  let n := d - j0 - r
  let m := 2 * j0 - d
  if 0 ≤ n ∧ 0 ≤ m then tryH recur co (-n) m r (if m ≠ 0 then c0 else c0 / 2) else none

/-- The three cases of the symmetric hexagon (sparse.py 747-785). -/
def heurHexagon (recur : Coeff K → Option (Val3 K)) (co : Coeff K) (d j0 : ℤ) (c0 : K) (g1 g2 : ℤ × ℤ) : Option (Val3 K) :=
  if g1.1 ≠ -1 ∧ g2.1 ≠ -1 then
    if g1.1 ≠ 0 ∧ g2.1 ≠ 0 then
      (tryP recur co (g2.1 + g1.1) g2.1 (g2.2 + g1.2) g2.2 c0).or (tryP recur co (g2.1 + g1.2) g2.1 (g2.2 + g1.1) g2.2 c0)
    else if g1.1 ≠ 0 then (hexOuter recur co d j0 c0 g1.1).or (hexOuter recur co d j0 c0 g1.2)
    else if g2.1 ≠ 0 then (hexInner recur co d j0 c0 g2.1).or (hexInner recur co d j0 c0 g2.2)
    else none
  else none

/-- The part after the borders are known (sparse.py 722-794). -/
def heurHex (recur : Coeff K → Option (Val3 K)) (co : Coeff K) (i0 : ℕ) (b1 b2 : List (ℕ × K)) : Except PyErr (Option (Val3 K)) :=
  match b1.head?, b1.getLast? with
  | some f, some l =>
    if f.2 < 0 ∨ l.2 < 0 then .ok none
    else if f.1 + l.1 = co.degree ∧ f.2 = l.2 ∧ i0 = f.1 then
      if b1.length ≤ 4 ∧ b2.length ≤ 4 then
        .ok (heurHexagon recur co co.degree f.1 f.2 (hexGaps b1 co.degree) (hexGaps b2 ((co.degree : ℤ) - i0)))
      else .ok none
    else .ok none
  | _, _ => .error .indexError

/-- `sos_struct_heuristic` (sparse.py 655-794).  Keys are triples; the substitution into the proof of a border is evaluated at points without zeros. -/
def heuristic (dense recur : Coeff K → Option (Val3 K)) (prover : List (ℕ × K) → Option (K → K)) (co : Coeff K) : Except PyErr (Option (Val3 K)) :=
  if co.degree ≤ 6 then .ok none
  else
    match dense co with
    | some e => .ok (some e)
    | none =>
      if co.call [co.degree, 0, 0] ≠ 0 then .ok none
      else
        match co.coeffs.head?, co.coeffs.getLast? with
        | some f, some l =>
          if f.2 < 0 ∨ l.2 < 0 ∨ l.1.getD 0 0 ≠ 0 then .ok none
          else
            let i0 := f.1.getD 0 0
            let b1 := border1 co.coeffs
            let b2 := border2 i0 co.coeffs
            if b1.length = 1 ∧ bexp b1 0 * 2 = co.degree then .ok none
            else if b1.length * 3 = co.coeffs.length then
              .ok ((prover b1).map fun p => cyc3 fun a b _ => p (a / b) * b ^ co.degree)
            else if b2.length * 3 = co.coeffs.length then
              .ok ((prover b2).map fun p => cyc3 fun a b c => p (b / c) * a ^ i0 * c ^ (co.degree - i0))
            else heurHex recur co i0 b1 b2
        | _, _ => .error .indexError

end Verif.Ternary
