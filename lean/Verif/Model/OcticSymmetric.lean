import Verif.Model.Nonic
import Verif.Model.QuinticSymmetric

/-!
# The solver of symmetric ternary octics

Model of `triples/core/structsos/ternary/octic_symmetric.py`.  Conventions as in `TernarySeptic`: `radsimp`, `together`, `expand` and `as_coeff_Mul` do not change a value.
A solution in which a quotient `0/0` or `x/0` was stored is the error `nan`: the code returns an expression that contains `nan`.
-/

namespace Verif.Ternary

open Verif Verif.Acute Verif.Univariate

variable {K : Type*} [Field K] [LinearOrder K]

/-- `_solve_inverse_quartic` (octic_symmetric.py 12-49). -/
def inverseQuartic (m p n r : K) : Option (Cert K) :=
  if 0 ≤ m ∧ 0 ≤ m + 2 * p + n + r then
    if m ≠ 0 ∧ 0 ≤ n - ((p / m) ^ 2 - 1) * m then
      some (.plain (sumY [(m / 2, cyc3 fun a b c => a ^ 2 * (b - c) ^ 2 * (a * b + a * c + p / m * b * c) ^ 2),
        ((n - ((p / m) ^ 2 - 1) * m) / 2, fun a b c => prodA a b c ^ 2 * sd3 a b c),
        (m + 2 * p + n + r, cyc3 fun a b c => a ^ 3 * b ^ 3 * c ^ 2)]))
    else if 0 ≤ p + m ∧ 0 ≤ n + 2 * (p + m) then
      some (.plain (sumY [(m / 2, cyc3 fun a b c => a ^ 2 * (b - c) ^ 2 * (a * b + a * c - b * c) ^ 2),
        (p + m, fun a b c => prodA a b c * cyc3 (fun a b c => a ^ 3 * (b - c) ^ 2) a b c),
        ((n + 2 * (p + m)) / 2, fun a b c => prodA a b c ^ 2 * sd3 a b c),
        (m + 2 * p + n + r, cyc3 fun a b c => a ^ 3 * b ^ 3 * c ^ 2)]))
    else none
  else none

/-! ### The semidefinite method for hexagons -/

/-- The seven coefficients (octic_symmetric.py 102) and `w1`, `w2`, `w4` (106-108). -/
structure Hex (K : Type*) where
  c620 : K
  c530 : K
  c440 : K
  c611 : K
  c521 : K
  c431 : K
  c422 : K

def Hex.w1 (h : Hex K) : K := h.c521 + h.c611 + 2 * h.c620
def Hex.w2 (h : Hex K) : K := h.c431 + 2 * h.c440 + 3 * h.c530 - h.c611
def Hex.w4 (h : Hex K) : K := h.c422 + 4 * h.c431 + 5 * h.c440 + 8 * h.c521 + 12 * h.c530 + 8 * h.c611 + 18 * h.c620

/-- The matrix `[[M00, M01, M02], [M01, M00, M02], [M02, M02, M22]]` (octic_symmetric.py 118-123). -/
structure QForm (K : Type*) where
  m00 : K
  m01 : K
  m02 : K
  m22 : K

/-- What the parameter searches return: `u210, u102, u201, u111, r, quad_form`. -/
structure HexSol (K : Type*) where
  u210 : K
  u102 : K
  u201 : K
  u111 : K
  r : K
  q : QForm K

/-- `s(a^3b + ab^3 - 2a^2bc)` (octic_symmetric.py 145). -/
def octP : Val3 K := cyc3 fun a b c => a ^ 3 * b + a * b ^ 3 - a ^ 2 * b * c - a * b ^ 2 * c

/-- `s(a^2b^2 - a^2bc)` (octic_symmetric.py 146). -/
def octQ : Val3 K := cyc3 fun a b c => a ^ 2 * b ^ 2 - a * b * c ^ 2

/-- `mapping` (octic_symmetric.py 137-147). -/
def octMap (x y : K) : Val3 K :=
  if x = 1 ∧ y = 2 then fun a b c => sumA a b c ^ 2 * cyc3 (fun a b c => a * (b - c) ^ 2) a b c ^ 2
  else if x = 1 ∧ y = -2 then fun a b c => cyc3 (fun a b _ => a * b * (a - b) ^ 2) a b c ^ 2
  else if x = 0 ∧ y = 1 then fun a b c => cyc3 (fun a b c => a ^ 2 * (b - c) ^ 2) a b c ^ 2 / 4
  else fun a b c => (cyc3 (fun a b c => x * (a ^ 3 * b + a * b ^ 3 - a ^ 2 * b * c - a * b ^ 2 * c) + y * (a ^ 2 * b ^ 2 - a * b * c ^ 2)) a b c) ^ 2

/-- `_compute_quad_form_sol` (octic_symmetric.py 125-157). -/
def hexQuad (q : QForm K) : Option (List (K × Val3 K)) :=
  (quadraticWeighting ((q.m00 + q.m01) / 2) (q.m02 * 2) q.m22).map fun l =>
    ((q.m00 - q.m01) / 2, fun a b c => sumA a b c ^ 2 * discV3 a b c) :: l.map fun w => (w.1, octMap w.2.1 w.2.2)

/-- `ker` (octic_symmetric.py 166). -/
def hexKer (s : HexSol K) : Val3 K := fun a b c =>
  (a - b) * (s.u102 * c ^ 2 * (b + a) + s.u210 * (a * b * (a + b) - c ^ 3) + s.u201 * c * (a ^ 2 + b ^ 2 + c ^ 2) + s.u111 * a * b * c)

/-- `_sol_to_result` (octic_symmetric.py 159-167). -/
def hexResult : Option (HexSol K) → Option (Cert K)
  | none => none
  | some s =>
    match hexQuad s.q with
    | none => none
    | some l => if 0 ≤ s.r then some (.plain ((s.r, cyc3 fun a b c => hexKer s a b c ^ 2) :: l)) else none

/-- The error that stands for a returned expression with `nan` or `zoo` in it. -/
def nanErr : PyErr := .custom "nan"

/-- `_sol_to_result` when one of `u102`, `u201`, `u111` is `nan` or `zoo` (octic_symmetric.py 159-167). -/
def hexResultNan (r : K) (q : QForm K) : Except PyErr (Option (Cert K)) :=
  match hexQuad q with
  | none => .ok none
  | some _ => if 0 ≤ r then .error nanErr else .ok none

/-- Quotient and remainder by `t - r`; ascending coefficients. -/
def divLin (r : K) (p : UPoly K) : UPoly K × K := p.foldr (fun c s => (s.2 :: s.1, c + r * s.2)) ([], 0)

/-- The four polynomials of `_nondegenerated_hessian` (octic_symmetric.py 179-209); the lists of the code are descending. -/
def nhM00 (h : Hex K) : UPoly K :=
  let c620 := h.c620
  let w1 := h.w1
  let w2 := h.w2
  let w4 := h.w4
  [81*c620*w1^2*w2^2*w4 - w1^4*w4^2 - 15*w1^3*w2^2*w4 + w1^3*w2*w4^2 - 117*w1^2*w2^4 - 9*w1^2*w2^3*w4 - 63*w1*w2^5 + 18*w1*w2^4*w4 + w1*w2^3*w4^2 - 9*w2^6 + 6*w2^5*w4 - w2^4*w4^2,
   -w1*(-162*c620*w1*w2^2*w4 + 4*w1^3*w4^2 + 36*w1^2*w2^2*w4 - 3*w1^2*w2*w4^2 + 45*w1*w2^4 + 9*w1*w2^3*w4 + 9*w2^5 - w2^3*w4^2),
   -3*w1^2*(-27*c620*w2^2*w4 + 2*w1^2*w4^2 + 9*w1*w2^2*w4 - w1*w2*w4^2 + 3*w2^4),
   -w1^3*w4*(4*w1*w4 + 6*w2^2 - w2*w4),
   -w1^4*w4^2].reverse

/-- `_M01` (octic_symmetric.py 187-193). -/
def nhM01 (h : Hex K) : UPoly K :=
  let c611 := h.c611
  let w1 := h.w1
  let w2 := h.w2
  let w4 := h.w4
  [(81*c611*w1^2*w2^2*w4 + w1^4*w4^2 + 42*w1^3*w2^2*w4 + 2*w1^3*w2*w4^2 + 198*w1^2*w2^4 - 6*w1^2*w2^2*w4^2 + 90*w1*w2^5 - 36*w1*w2^4*w4 + 2*w1*w2^3*w4^2 + 9*w2^6 - 6*w2^5*w4 + w2^4*w4^2)/2,
   w1*(81*c611*w1*w2^2*w4 + 2*w1^3*w4^2 + 45*w1^2*w2^2*w4 + 3*w1^2*w2*w4^2 + 63*w1*w2^4 + 9*w1*w2^3*w4 - 6*w1*w2^2*w4^2 + 18*w2^5 - 9*w2^4*w4 + w2^3*w4^2),
   3*w1^2*(27*c611*w2^2*w4 + 2*w1^2*w4^2 + 18*w1*w2^2*w4 + 2*w1*w2*w4^2 + 3*w2^4 + 6*w2^3*w4 - 2*w2^2*w4^2)/2,
   w1^3*w4*(2*w1*w4 + 3*w2^2 + w2*w4),
   w1^4*w4^2/2].reverse

/-- `_M02` (octic_symmetric.py 195-201). -/
def nhM02 (h : Hex K) : UPoly K :=
  let c530 := h.c530
  let w1 := h.w1
  let w2 := h.w2
  let w4 := h.w4
  [(81*c530*w1^2*w2^2*w4 + 2*w1^4*w4^2 + 48*w1^3*w2^2*w4 + w1^3*w2*w4^2 + 126*w1^2*w2^4 - 6*w1^2*w2^2*w4^2 + 99*w1*w2^5 - 36*w1*w2^4*w4 + w1*w2^3*w4^2 + 18*w2^6 - 12*w2^5*w4 + 2*w2^4*w4^2)/2,
   w1*(162*c530*w1*w2^2*w4 + 8*w1^3*w4^2 + 99*w1^2*w2^2*w4 + 3*w1^2*w2*w4^2 - 45*w1*w2^4 + 9*w1*w2^3*w4 - 12*w1*w2^2*w4^2 - 9*w2^5 + w2^3*w4^2)/2,
   3*w1^2*(27*c530*w2^2*w4 + 4*w1^2*w4^2 + 18*w1*w2^2*w4 + w1*w2*w4^2 - 3*w2^4 + 3*w2^3*w4 - 2*w2^2*w4^2)/2,
   w1^3*w4*(8*w1*w4 + 3*w2^2 + w2*w4)/2,
   w1^4*w4^2].reverse

/-- `_M22` (octic_symmetric.py 203-209). -/
def nhM22 (h : Hex K) : UPoly K :=
  let c440 := h.c440
  let c611 := h.c611
  let w1 := h.w1
  let w2 := h.w2
  let w4 := h.w4
  [81*c440*w1^2*w2^2*w4 - 81*c611*w1^2*w2^2*w4 - 4*w1^4*w4^2 - 78*w1^3*w2^2*w4 - 2*w1^3*w2*w4^2 - 441*w1^2*w2^4 - 36*w1^2*w2^3*w4 + 12*w1^2*w2^2*w4^2 - 252*w1*w2^5 + 90*w1*w2^4*w4 - 2*w1*w2^3*w4^2 - 36*w2^6 + 24*w2^5*w4 - 4*w2^4*w4^2,
   -2*w1*(-81*c440*w1*w2^2*w4 + 81*c611*w1*w2^2*w4 + 8*w1^3*w4^2 + 72*w1^2*w2^2*w4 + 3*w1^2*w2*w4^2 + 63*w1*w2^4 + 45*w1*w2^3*w4 - 12*w1*w2^2*w4^2 + 18*w2^5 - 9*w2^4*w4 + w2^3*w4^2),
   -3*w1^2*(-27*c440*w2^2*w4 + 27*c611*w2^2*w4 + 8*w1^2*w4^2 + 18*w1*w2^2*w4 + 2*w1*w2*w4^2 + 3*w2^4 + 18*w2^3*w4 - 4*w2^2*w4^2),
   -2*w1^3*w4*(8*w1*w4 - 6*w2^2 + w2*w4),
   -4*w1^4*w4^2].reverse

/-- `M22t * (M00t + M01t) - 2*M02t**2` (octic_symmetric.py 212, 303). -/
def detPoly (M00 M01 M02 M22 : UPoly K) : UPoly K := padd (pmul M22 (padd M00 M01)) (psmul (-2) (pmul M02 M02))

/-- `sp.sign`. -/
def sgn (x : K) : K := if 0 < x then 1 else if x < 0 then -1 else 0

/-- `_is_valid` of `_nondegenerated_hessian` (octic_symmetric.py 215-216). -/
def nhValid (h : Hex K) (t : K) : Bool :=
  let det := (divLin (-1) (divLin 0 (detPoly (nhM00 h) (nhM01 h) (nhM02 h) (nhM22 h))).1).1
  decide (0 ≤ sgn (uev det t) * sgn t * sgn (t + 1)) && decide (|uev (nhM01 h) t| ≤ uev (nhM00 h) t)

/-- The parameters for `t ≠ -1` (octic_symmetric.py 225-244). -/
def nhParams (h : Hex K) (t : K) : HexSol K :=
  let w1 := h.w1
  let w2 := h.w2
  let w4 := h.w4
  let p4 := (w1*w4 + 3*w2^2 - w2*w4)*t + w1*w4
  let reg := 81*t^2*w1^2*w2^2*(t + 1)^2*w4
  let q : QForm K := ⟨uev (nhM00 h) t / reg, uev (nhM01 h) t / reg, uev (nhM02 h) t / reg, uev (nhM22 h) t / reg⟩
  let u111' := -(5*t^2*w1^2*w4 - 12*t^2*w1*w2^2 + 3*t^2*w1*w2*w4 - 3*t^2*w2^3 + t^2*w2^2*w4 + 10*t*w1^2*w4 - 3*t*w1*w2^2 + 3*t*w1*w2*w4 + 5*w1^2*w4)
  if p4 ≠ 0 then
    let x := -w2/w1/(t+1)*(p4 + 9*t*w1*w2)/p4
    ⟨1, 2 + w2/w1 + x, x * t, u111'/(w1*(t + 1)*p4), p4^2/(162*t^2*w2^2*w4), q⟩
  else
    let x := -w2/w1/(t+1)*(p4 + 9*t*w1*w2)
    ⟨0, 1, t, u111'/(-w2*(p4 + 9*t*w1*w2)), x^2/(162*t^2*w2^2*w4), q⟩

/-- The parameters for `t = -1` (octic_symmetric.py 245-258); `u111` is `0/0` if `w2 = 0`. -/
def nhLimit (h : Hex K) : HexSol K :=
  let w1 := h.w1
  let w2 := h.w2
  let x := -(3*w1 + w2)/(3*w1)
  ⟨1, 2 + w2/w1 + x, x * -1, -(-9*w1*w2 - 2*w2^2)/(3*w1*w2), w1^2/(6*(3*w1 + w2)),
    ⟨-(-81*h.c620*w1 - 27*h.c620*w2 + 9*w1^2 + 3*w1*w2 + w2^2)/(27*(3*w1 + w2)),
     -(-81*h.c611*w1 - 27*h.c611*w2 + 18*w1^2 + 6*w1*w2 - w2^2)/(54*(3*w1 + w2)),
     -(-81*h.c530*w1 - 27*h.c530*w2 + 9*w1^2 + 12*w1*w2 + 4*w2^2)/(54*(3*w1 + w2)),
     (81*h.c440*w1 + 27*h.c440*w2 - 81*h.c611*w1 - 27*h.c611*w2 + 18*w1^2 - 12*w1*w2 - 7*w2^2)/(27*(3*w1 + w2))⟩⟩

/-- `_nondegenerated_hessian` (octic_symmetric.py 170-262), followed by `_sol_to_result`; `ts` are the numbers tried by `rationalize_func`. -/
def nhSolve (ts : List (Cand K)) (h : Hex K) : Except PyErr (Option (Cert K)) :=
  match rationalizeFunc (fun _ => 0) 0 (fun t => .ok (nhValid h t)) ts with
  | .error e => .error e
  | .ok none => .ok none
  | .ok (some t) =>
    if t ≠ -1 then .ok (hexResult (some (nhParams h t)))
    else if h.w2 = 0 then hexResultNan (nhLimit h).r (nhLimit h).q
    else .ok (hexResult (some (nhLimit h)))

/-- The polynomials of `_nondegenerated_hessian_degen_w1` (octic_symmetric.py 274-304). -/
def ndM00 (h : Hex K) : UPoly K :=
  [-2*(3*h.w2 - h.w4)^2, 2*(3*h.w2 - h.w4)*(3*h.w2 + h.w4), -18*(-9*h.c620*h.w4 + h.w2^2), 2*h.w4*(6*h.w2 - h.w4), -2*h.w4^2].reverse

def ndM01 (h : Hex K) : UPoly K :=
  [(3*h.w2 - h.w4)^2, -2*(3*h.w2 - h.w4)*(6*h.w2 - h.w4), 3*(27*h.c611*h.w4 + 3*h.w2^2 + 6*h.w2*h.w4 - 2*h.w4^2), -2*h.w4*(3*h.w2 + h.w4), h.w4^2].reverse

def ndM02 (h : Hex K) : UPoly K :=
  [2*(3*h.w2 - h.w4)^2, (3*h.w2 - h.w4)*(3*h.w2 + h.w4), -3*(-27*h.c530*h.w4 + 3*h.w2^2 - 3*h.w2*h.w4 + 2*h.w4^2), -h.w4*(3*h.w2 + h.w4), 2*h.w4^2].reverse

def ndM22 (h : Hex K) : UPoly K :=
  [-8*(3*h.w2 - h.w4)^2, 4*(3*h.w2 - h.w4)*(6*h.w2 - h.w4), -6*(-27*h.c440*h.w4 + 27*h.c611*h.w4 + 3*h.w2^2 + 18*h.w2*h.w4 - 4*h.w4^2), -4*h.w4*(6*h.w2 - h.w4), -8*h.w4^2].reverse

/-- `_is_valid` (octic_symmetric.py 310-311). -/
def ndValid (h : Hex K) (t : K) : Bool :=
  let det := (divLin 0 (detPoly (ndM00 h) (ndM01 h) (ndM02 h) (ndM22 h))).1
  decide (t ≠ 0) && decide (0 ≤ sgn (uev det t) * sgn t) && decide (|uev (ndM01 h) t| ≤ uev (ndM00 h) t)

/-- The parameters (octic_symmetric.py 317-324). -/
def ndParams (h : Hex K) (t : K) : HexSol K :=
  let w2 := h.w2
  let w4 := h.w4
  let d := 3*t*w2 - t*w4 - w4
  let reg := 162*t^2*w4
  ⟨1, -(t + 1)*(3*t*w2 - t*w4 + 2*w4)/d, t, -(3*t^2*w2 - t^2*w4 - 3*t*w2 + 3*t*w4 - 5*w4)/d, d^2/reg,
    ⟨uev (ndM00 h) t / reg, uev (ndM01 h) t / reg, uev (ndM02 h) t / reg, uev (ndM22 h) t / reg⟩⟩

/-- `_nondegenerated_hessian_degen_w1` (octic_symmetric.py 265-326), followed by `_sol_to_result`. -/
def ndSolve (ts : List (Cand K)) (h : Hex K) : Except PyErr (Option (Cert K)) :=
  match rationalizeFunc (fun _ => 0) 0 (fun t => .ok (ndValid h t)) ts with
  | .error e => .error e
  | .ok none => .ok none
  | .ok (some t) =>
    if 3*t*h.w2 - t*h.w4 - h.w4 = 0 then hexResultNan (ndParams h t).r (ndParams h t).q
    else .ok (hexResult (some (ndParams h t)))

/-- `quad_form.is_positive_semidefinite` (octic_symmetric.py 364), exact for rational entries. -/
def QForm.psd (q : QForm K) : Bool :=
  decide (0 ≤ q.m00 - q.m01) && decide (0 ≤ q.m00 + q.m01) && decide (0 ≤ q.m22) && decide (2 * q.m02 ^ 2 ≤ q.m22 * (q.m00 + q.m01))

/-- `_compute_params` (octic_symmetric.py 346-365).  If `reg` is zero the matrix has entries `zoo` or `nan` and is not found semidefinite. -/
def dhParams (h : Hex K) (x y : K) : Option (HexSol K) :=
  let w1 := h.w1
  let u201 := y
  let u102 := x / (-w1) - y - 1
  let u111 := -2*u102 - 3*u201 - 1
  let reg := 3*u201*(u102 + u201 + 1)
  let q : QForm K := ⟨(3*h.c620*u102*u201 + 3*h.c620*u201^2 + 3*h.c620*u201 + u201^2*w1 - u201*w1 + w1)/reg,
    (3*h.c611*u102*u201/2 + 3*h.c611*u201^2/2 + 3*h.c611*u201/2 - u201^2*w1/2 + 2*u201*w1 - w1/2)/reg,
    (3*h.c530*u102*u201/2 + 3*h.c530*u201^2/2 + 3*h.c530*u201/2 + u102*u201*w1 - u102*w1/2)/reg,
    (3*h.c440*u102*u201 + 3*h.c440*u201^2 + 3*h.c440*u201 - 3*h.c611*u102*u201 - 3*h.c611*u201^2 - 3*h.c611*u201 + u102^2*w1 + 3*u201^2*w1 - 6*u201*w1)/reg⟩
  if reg = 0 then none
  else if q.psd then some ⟨1, u102, u201, u111, -w1/(2*reg), q⟩ else none

/-- `w5` of `_degenerated_hessian` (octic_symmetric.py 371). -/
def Hex.w5 (h : Hex K) : K :=
  h.c440*h.c611 + 2*h.c440*h.c620 - h.c521^2 - 2*h.c521*h.c530 - 4*h.c521*h.c611 - 8*h.c521*h.c620 - h.c530^2 - 2*h.c530*h.c611 - 4*h.c530*h.c620 - 4*h.c611^2 -
    14*h.c611*h.c620 - 12*h.c620^2

/-- `func_z_sym` (octic_symmetric.py 377-381). -/
def zSym (h : Hex K) : UPoly K :=
  [(2*h.c530*h.w1 + 4*h.c611*h.w1 + 8*h.c620*h.w1 + 2*h.w1^2 + 3*h.w5)/(2*(h.c611 + 2*h.c620)), h.w1*(h.c530 - h.c611 - 2*h.c620 + h.w1)/(h.c611 + 2*h.c620), 0].reverse

/-- `func_z_det` (octic_symmetric.py 383-389). -/
def zDet (h : Hex K) : UPoly K :=
  [h.w5*(12*h.c530*h.w1 + 24*h.c611*h.w1 + 48*h.c620*h.w1 + 8*h.w1^2 + 9*h.w5)/(4*(h.c611 + 2*h.c620)^2), h.w1*h.w5*(3*h.c530 - 3*h.c611 - 6*h.c620 + h.w1)/(h.c611 + 2*h.c620)^2,
    -h.w1^2*h.w5/(h.c611 + 2*h.c620)^2, 0, 0].reverse

/-- `func_z_sym_lb` (octic_symmetric.py 391). -/
def zSymLb (h : Hex K) : UPoly K := padd (zSym h) (psmul (-(h.w1^2 / (2*h.c620 - h.c611))) [1, -2, 1])

/-- `_is_valid` of `_strict_psd` (octic_symmetric.py 403-405). -/
def strictValid (h : Hex K) (y : K) : Bool :=
  let u := uev (zSymLb h) y
  let v := uev (zDet h) y
  decide (y ≠ 0) && decide (0 ≤ v) && (decide (0 ≤ u) || decide (u ^ 2 ≤ v))

/-- The loop that doubles `y_` (octic_symmetric.py 412-418). -/
def doubling (valid : K → Bool) : ℕ → K → Option K
  | 0, _ => none
  | n + 1, y => if valid y then some y else doubling valid n (y * 2)

/-- The numbers that the searches of `_degenerated_hessian` try: near the roots of `func_y_diff` (octic_symmetric.py 421-422), of the quadratic (427), and of the derivative of
`eq1 * eq2` (465). -/
structure HexCands (K : Type*) where
  ydiff : List (Cand K)
  bdry : List (Cand K)
  w5 : List (Cand K)

/-- `_strict_psd` (octic_symmetric.py 375-436).  If `2*c620 = c611` the code builds a polynomial from `zoo`; this is an exception. -/
def strictPsd (X : HexCands K) (h : Hex K) : Except PyErr (Option (HexSol K)) :=
  if 2 * h.c620 - h.c611 = 0 then .error nanErr
  else
    let d0 := (zDet h).getD 4 0
    let d1 := (zDet h).getD 3 0
    let d2 := (zDet h).getD 2 0
    let lc := (zSymLb h).getD 2 0
    if d0 < 0 ∧ d1 ^ 2 - 4 * d0 * d2 < 0 then .ok none
    else
      let y1 := if 0 < d0 ∧ (0 ≤ lc ∨ lc ^ 2 < d0) then doubling (strictValid h) 100 1 else none
      let y2 : Except PyErr (Option K) := match y1 with
        | some y => .ok (some y)
        | none => rationalizeFunc (fun _ => 0) 0 (fun y => .ok (strictValid h y)) X.ydiff
      match y2 with
      | .error e => .error e
      | .ok y2 =>
        let y3 : Except PyErr (Option K) := match y2 with
          | some y => .ok (some y)
          | none => if d0 ≠ 0 then rationalizeFunc (fun y => d0 * y ^ 2 + d1 * y + d2) 1 (fun y => .ok (strictValid h y)) X.bdry else .ok none
        match y3 with
        | .error e => .error e
        | .ok none => .ok none
        | .ok (some y) =>
          let z := max (max (h.w1^2 * (y - 1)^2 / (2*h.c620 - h.c611)) (h.w1^2 * (y + 1)^2 / 3 / (2*h.c620 + h.c611))) (uev (zSym h) y)
          .ok (dhParams h (z / y) y)

/-- `eq1` and `eq2` of `_degenerated_w5` (octic_symmetric.py 447-456). -/
def w5Valid (h : Hex K) (y : K) : Bool :=
  let w1 := h.w1
  let eq1 : UPoly K := [-3*w1*(h.c530*h.c611 - 2*h.c530*h.c620 + 2*h.c611^2 + 2*h.c611*w1 - 8*h.c620^2),
    3*w1*(-h.c530*h.c611 + 2*h.c530*h.c620 + h.c611^2 + h.c611*w1 - 4*h.c620^2 + 6*h.c620*w1), -3*w1^2*(h.c611 + 2*h.c620)].reverse
  let eq2 : UPoly K := [w1*(3*h.c530 + 6*h.c611 + 12*h.c620 + 2*w1)/2, w1*(3*h.c530 - 3*h.c611 - 6*h.c620 + w1)/2, -w1^2/2].reverse
  decide (0 ≤ uev eq1 y) && decide (0 ≤ uev eq2 y)

/-- `_degenerated_w5` (octic_symmetric.py 438-466).  If `c611 + 2*c620 = 0` then `x_` is `nan` and the matrix is not found semidefinite. -/
def degeneratedW5 (X : HexCands K) (h : Hex K) : Except PyErr (Option (HexSol K)) :=
  match rationalizeFunc (fun _ => 0) 0 (fun y => .ok (w5Valid h y)) X.w5 with
  | .error e => .error e
  | .ok none => .ok none
  | .ok (some y) =>
    if h.c611 + 2*h.c620 = 0 then .ok none
    else .ok (dhParams h (h.w1*(h.c530*y + h.c530 + 2*h.c611*y - h.c611 + 4*h.c620*y - 2*h.c620 + h.w1*y + h.w1)/(h.c611 + 2*h.c620)) y)

/-- `_degenerated_hessian` (octic_symmetric.py 328-483), followed by `_sol_to_result`; `_degenerated_M00_M01` returns nothing. -/
def dhSolve (X : HexCands K) (h : Hex K) : Except PyErr (Option (Cert K)) :=
  if h.w5 < 0 then .ok none
  else (if 0 < h.w5 then strictPsd X h else degeneratedW5 X h).map hexResult

/-- `_degenerated_hessian_degen_w1` (octic_symmetric.py 485-525), followed by `_sol_to_result`.  If `c611 + 2*c620 = 0` then `u102` is overwritten by a quotient with
denominator zero. -/
def ddSolve (h : Hex K) : Except PyErr (Option (Cert K)) :=
  let w5 := h.c440*h.c611 + 2*h.c440*h.c620 - h.c530^2 - h.c611^2 - 2*h.c611*h.c620
  if w5 < 0 then .ok none
  else if h.c611 + 2*h.c620 = 0 then hexResultNan 0 ⟨h.c620, -h.c620, h.c530/2, h.c440 + 2*h.c620⟩
  else
    let u102 := -h.c530/(h.c611 + 2*h.c620)
    if 0 ≤ h.c611 + h.c620 then
      .ok (hexResult (some ⟨1, u102, 0, -2*u102 - 1, (2*h.c620 - h.c611)/6,
        ⟨(h.c611 + h.c620)/3, (h.c611 + h.c620)/3, 2*h.c530*(h.c611 + h.c620)/(3*(h.c611 + 2*h.c620)),
          (4*h.c530^2*(h.c611 + h.c620) + 3*w5*(h.c611 + 2*h.c620))/(3*(h.c611 + 2*h.c620)^2)⟩⟩))
    else
      .ok (hexResult (some ⟨1, u102, 0, -2*u102 - 1, (2*h.c620 + h.c611)/2, ⟨-(h.c611 + h.c620), h.c611 + h.c620, 0, w5 / (h.c611 + 2*h.c620)⟩⟩))

/-- What the octic solver gets from SymPy: the numbers tried by `rationalize_func`, and the left ends of the intervals of `sp.polys.intervals` (octic_symmetric.py 653). -/
structure OctSymExt (K : Type*) where
  nh : Hex K → List (Cand K)
  nd : Hex K → List (Cand K)
  dh : Hex K → HexCands K
  hexagram : Octic K → List K

/-- The numbers read (octic_symmetric.py 102). -/
def Octic.hex (f : Octic K) : Hex K := ⟨f.c620, f.c530, f.c440, f.c611, f.c521, f.c431, f.c422⟩

/-- `coeff.poly111()`. -/
def Octic.poly111 (f : Octic K) : K :=
  3 * (f.c800 + f.c710 + f.c701 + f.c620 + f.c611 + f.c602 + f.c530 + f.c521 + f.c512 + f.c503 + f.c440 + f.c431 + f.c422 + f.c413 + f.c332)

/-- `_sos_struct_octic_symmetric_hexagon_sdp` (octic_symmetric.py 67-527), for rational coefficients. -/
def octHexagonSdp (X : OctSymExt K) (f : Octic K) : Except PyErr (Option (Cert K)) :=
  let h := f.hex
  if h.c620 ≤ 0 ∨ f.poly111 ≠ 0 then .ok none
  else if h.w4 < 0 then .ok none
  else if 0 < h.w4 then (if h.w1 ≠ 0 then nhSolve (X.nh h) h else ndSolve (X.nd h) h)
  else if h.w2 = 0 then (if h.w1 ≠ 0 then dhSolve (X.dh h) h else ddSolve h)
  else .ok none

/-! ### Hexagrams -/

/-- The numbers of `_sos_struct_octic_symmetric_hexagram` (octic_symmetric.py 626-635). -/
structure Gram (K : Type*) where
  x : K
  y : K
  u : K
  v : K
  balance : K
  rem : K

def Octic.gram (f : Octic K) : Gram K :=
  let y := f.c521 + f.c611
  let u := f.c431 + f.c440 + y
  ⟨f.c611, y, u, f.c440, f.c422 - f.c611 + 2 * u + 2 * y, f.c611 + f.c521 * 2 + f.c431 * 2 + f.c440 + f.c422 + f.c332⟩

/-- What the loop over the intervals finds: `t`, `h`, `c2`, `c3`, `c4`. -/
structure GramT (K : Type*) where
  t : K
  h : K
  c2 : K
  c3 : K
  c4 : K

/-- `det` (octic_symmetric.py 655). -/
def Gram.det (g : Gram K) (t : K) : K :=
  (2*t^3*g.x^3 + 2*t*g.u*g.x*g.y - 2*t*g.v*g.x^2 - g.u^2*g.x - g.v*g.y^2) + g.balance * (g.x*(g.v - t^2*g.x))

/-- The loop (octic_symmetric.py 661-689). -/
def gramLoop (g : Gram K) : List K → Option (GramT K)
  | [] => none
  | t :: ts =>
    let bound := g.v - g.x * t^2
    if 0 < bound ∧ 0 ≤ g.det t then
      some ⟨t, (g.u - g.y*t)/(t^2*g.x - g.v)/2, g.v - g.x*t^2,
        (2*t^3*g.x^3 + 2*t*g.u*g.x*g.y - 2*t*g.v*g.x^2 - g.u^2*g.x - g.v*g.y^2)/(g.x*(g.v - t^2*g.x)) + g.balance, 0⟩
    else if bound = 0 ∧ 0 ≤ g.balance - (2*t*g.x^2 + g.y^2) / g.x ∧ 0 ≤ g.u - t * g.y then
      some ⟨t, 0, 0, g.balance - (2*t*g.x^2 + g.y^2) / g.x, g.u - t * g.y⟩
    else gramLoop g ts

/-- `_sos_struct_octic_symmetric_hexagram` (octic_symmetric.py 593-747). -/
def octHexagram (X : OctSymExt K) (f : Octic K) : Except PyErr (Option (Cert K)) :=
  let g := f.gram
  if g.x ≤ 0 ∨ g.v < 0 ∨ g.rem < 0 then .ok none
  else
    match gramLoop g (X.hexagram f) with
    | none => .ok none
    | some T =>
      let r1 := g.y / (2 * g.x)
      let r2 := T.t
      let d0 := g.v
      let d1 := g.x * (-r1^2 + 2*r1*r2 + r2^2 + 1) + T.c2 * (-T.h^2 - 2*T.h + 1) + T.c4
      if 0 ≤ d0 + d1 then
        .ok (some ⟨sumY [
          (1, cyc3 fun a b c => b*c * ((2*g.x)*(a^2 + r1*a*b + r1*a*c + r2*b*c)^2 + T.c2*2*(b*c - T.h*a*b - T.h*a*c)^2 + T.c3*2*a^2*b*c + T.c4*2*a*b*c*(b+c)) * (a-b)^2*(a-c)^2),
          (1, fun a b c => discV3 a b c * (d0 * cyc3 (fun a b c => a^2*(b-c)^2) a b c + 2*(d1 + d0) * cyc3 (fun a b c => a^2*b*c) a b c)),
          (g.rem, fun a b c => prodA a b c ^ 2 * sab3 a b c * sd3 a b c)], sd3⟩)
      else
        let e3 := g.x
        let e2 := g.x * (2*(r1 - r2) + 1)
        let e1 := g.x * 3*((r1 - r2)^2 + 1) + T.c2 * 3*(T.h+1)^2 + T.c3 + T.c4
        if 0 ≤ e2 + e3 ∧ 0 ≤ e3*3 + e2*6 + e1 then
          match (schur 3 : Option (Cert K)) with
          | none => .error .typeError
          | some S =>
            let mult : Val3 K := cyc3 fun a b c => a^2*(b-c)^2
            let E : Val3 K := fun a b c => prodA a b c * discV3 a b c
            let fin := ((S.smul e3).add (e2 + e3) (cyc3 fun a b c => a*(b-c)^2)).add (e3*3 + e2*6 + e1) prodA
            let main : Cert K := .plain [
              (g.x * 2, fun a b c => cyc3 (fun a b c => b*c * (a^2 + r1*a*b + r1*a*c + r2*b*c) * (a-b)*(a-c)) a b c ^ 2),
              (T.c2 * 2, fun a b c => cyc3 (fun a b c => b*c * (b*c - T.h*a*b - T.h*a*c) * (a-b)*(a-c)) a b c ^ 2),
              (T.c3 * 2, fun a b c => prodA a b c ^ 2 * cyc3 (fun a b c => b*c*(a-b)^2*(a-c)^2) a b c),
              (T.c4 * 2, fun a b c => prodA a b c * cyc3 (fun a b c => a^5*(b-c)^4) a b c),
              (g.rem, fun a b c => prodA a b c ^ 2 * sab3 a b c * mult a b c)]
            .ok (some ((main.plus ⟨fin.terms.map fun t => (2 * t.1, fun a b c => E a b c * t.2 a b c), fin.den⟩).quot (.plain [(1, mult)])))
        else .ok none

/-! ### Hexagons -/

/-- `solution + e1 + e2` without denominators. -/
def Cert.more (C : Cert K) (l : List (K × Val3 K)) : Cert K := ⟨C.terms ++ l.map fun t => (t.1, fun a b c => t.2 a b c * C.den a b c), C.den⟩

/-- Case 1 of `_sos_struct_octic_symmetric_hexagon` (octic_symmetric.py 545-564). -/
def hexagonCase1 (f : Octic K) : Option (Cert K) :=
  let c1 := f.c620
  let c2 := f.c530
  let c3 := f.c611
  let c4 := f.c521
  let x := c1/2 + c3/4
  let y := c1 + c2/4 + c3/2 + c4/4
  let z := c1/2 - c3/4
  let w := -c1 + 3*c2/4 - 3*c3/2 - c4/4
  if 0 ≤ x ∧ 0 ≤ z ∧ 0 ≤ x + y ∧ 0 ≤ z + w then
    (inverseQuartic (f.c440 - (-2*w + 2*x + 2*y + 2*z)) (f.c431 - (w - 8*x - 7*y)) (f.c422 - (2*w + 44*x - 18*y - 4*z)) (f.c332 - (-2*w - 18*x + 22*y + 2*z))).map fun C =>
      C.more [(1, fun a b c => cyc3 (fun a b c => a*(b-c)^2) a b c ^ 2 * cyc3 (fun a b c => x*a^2 + y*b*c) a b c),
        (1, fun a b c => discV3 a b c * cyc3 (fun a b c => z*a^2 + w*b*c) a b c)]
  else none

/-- Case 2 (octic_symmetric.py 566-585). -/
def hexagonCase2 (f : Octic K) : Option (Cert K) :=
  let c1 := f.c620
  let c2 := f.c530
  let c3 := f.c611
  let c4 := f.c521
  let x := (2*c1 + c3)/8
  let y := if 2*c1 + c3 ≠ 0 then -2*(2*c1 + c2 + c3 + c4)/(2*c1 + c3) else 0
  let z := (2*c1 - c3)/4
  let w := (10*c1 + 6*c2 + c3 + 2*c4)/4
  if 0 ≤ x ∧ 0 ≤ z ∧ 0 ≤ z + w then
    (inverseQuartic (f.c440 - (-2*w + 2*x*y^2 - 4*x*y + 2*z)) (f.c431 - (w - 4*x*y^2 + 6*x*y + 2*x)) (f.c422 - (2*w + 6*x*y^2 + 20*x*y + 4*x - 4*z))
        (f.c332 - (-2*w - 20*x*y + 2*z))).map fun C =>
      C.more [(x, cyc3 fun a b c => (a-b)^2 * (a^2*b+a^2*c+a*b^2+(y-1)*a*c^2+b^2*c+(y-1)*b*c^2-2*y*a*b*c)^2),
        (1, fun a b c => discV3 a b c * cyc3 (fun a b c => z*a^2 + w*b*c) a b c)]
  else none

/-- `_sos_struct_octic_symmetric_hexagon` (octic_symmetric.py 529-590). -/
def octHexagon (X : OctSymExt K) (f : Octic K) : Except PyErr (Option (Cert K)) :=
  if f.c620 < 0 ∨ 2*f.c620 + f.c611 < 0 then .ok none
  else
    match octHexagonSdp X f with
    | .error e => .error e
    | .ok (some C) => .ok (some C)
    | .ok none =>
      match hexagonCase1 f with
      | some C => .ok (some C)
      | none =>
        match hexagonCase2 f with
        | some C => .ok (some C)
        | none => if f.c620 = 0 ∧ f.c530 = 0 then octHexagram X f else .ok none

/-- `sos_struct_octic_symmetric` (octic_symmetric.py 52-65).  `_sos_struct_octic_symmetric_quadratic_form` returns at once (772). -/
def octicSymmetric (X : OctSymExt K) (rational : Bool) (f : Octic K) : Except PyErr (Option (Cert K)) :=
  if ¬ (f.c710 = f.c701 ∧ f.c620 = f.c602 ∧ f.c530 = f.c503 ∧ f.c521 = f.c512 ∧ f.c431 = f.c413) then .ok none
  else if rational = false then .ok none
  else if f.c800 = 0 ∧ f.c710 = 0 then
    if f.c620 = 0 ∧ f.c530 = 0 then octHexagram X f else octHexagon X f
  else .ok none

end Verif.Ternary
