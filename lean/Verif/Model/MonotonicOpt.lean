import Mathlib.Algebra.BigOperators.Fin
import Mathlib.Algebra.Order.Field.Basic
import Mathlib.Data.Fin.Tuple.Basic
import Mathlib.Data.List.FinRange
import Verif.Model.Congruence

/-!
# Global minimisation by reverse polyblocks

Model of `triples/utils/roots/monotonic_opt.py`.  Numbers are exact: the model has an ordered field in place of floats.  The search along a segment
(`root_solver`, by default `_find_sup`, lines 13-45) is a parameter, and so is the random choice of a vertex.  `np.inf` is `none`.
-/

namespace Verif.Rpa

open Verif

variable {K : Type*} [Field K] [LinearOrder K] {n : ℕ}

/-- A point of the domain, an array of floats (monotonic_opt.py 188). -/
abbrev Pt (K : Type*) (n : ℕ) := Fin n → K

/-- The three functions that `rpa_monotonic` gets (monotonic_opt.py 117). -/
structure Prob (K : Type*) (n : ℕ) where
  f : Pt K n → K
  g : Pt K n → K
  h : Pt K n → K

/-- `root_solver(phi, 0, 1)` (monotonic_opt.py 100, 112, 211); it may raise. -/
abbrev Root (K : Type*) := (K → K) → Except PyErr K

/-- `root_solver(phi, 0, 1) if phi(1) >= 0 else 1.` (monotonic_opt.py 100, 112, 211). -/
def reach (rs : Root K) (φ : K → K) : Except PyErr K := if 0 ≤ φ 1 then rs φ else .ok 1

/-- `v < cbv` (monotonic_opt.py 215, 219, 233), where `cbv` may be `np.inf`. -/
def less (v : K) : Option K → Bool
  | none => true
  | some c => decide (v < c)

/-- `max(f(a) - cbv, g(a))` (monotonic_opt.py 99). -/
def gap (P : Prob K n) (cbv : Option K) (x : Pt K n) : K :=
  match cbv with
  | none => P.g x
  | some c => max (P.f x - c) (P.g x)

/-- The first loop of `_red` (monotonic_opt.py 94-102); `a` is changed and restored there. -/
def redUp (P : Prob K n) (rs : Root K) (cbv : Option K) (a : Pt K n) : List (Fin n) → Pt K n → Except PyErr (Pt K n)
  | [], b => .ok b
  | i :: is, b =>
    match reach rs fun α => gap P cbv (Function.update a i (a i + α * (b i - a i))) with
    | .error e => .error e
    | .ok r => redUp P rs cbv a is (Function.update b i (a i + r * (b i - a i)))

/-- The second loop of `_red` (monotonic_opt.py 107-114); `b` is changed and restored there. -/
def redDown (P : Prob K n) (rs : Root K) (b : Pt K n) : List (Fin n) → Pt K n → Except PyErr (Pt K n)
  | [], a => .ok a
  | i :: is, a =>
    match reach rs fun α => -P.h (Function.update b i (b i - α * (b i - a i))) with
    | .error e => .error e
    | .ok r => redDown P rs b is (Function.update a i (b i - r * (b i - a i)))

/-- `_red` (monotonic_opt.py 48-115); `rtol` is the constant of line 11. -/
def red (P : Prob K n) (rs : Root K) (rtol : K) (cbv : Option K) (a b : Pt K n) : Except PyErr (Pt K n × Pt K n) :=
  match redUp P rs cbv a (List.finRange n) b with
  | .error e => .error e
  | .ok b' =>
    if P.h b' ≤ -rtol then .ok (b', b')
    else match redDown P rs b' (List.finRange n) a with
      | .error e => .error e
      | .ok a' => .ok (a', b')

/-- The variables of the loop (monotonic_opt.py 188-195). -/
structure St (K : Type*) (n : ℕ) where
  a : Pt K n
  b : Pt K n
  T : List (Pt K n)
  best : Option (Pt K n)
  cbv : Option K

/-- `z` is kept after an improvement (monotonic_opt.py 219). -/
def keep (P : Prob K n) (tol c : K) (a b z : Pt K n) : Bool :=
  decide (∀ i, a i ≤ z i) && decide (∀ i, z i ≤ b i) && decide (P.f z < c - tol) && decide (P.g z ≤ 0)

/-- The new vertices (monotonic_opt.py 226-234). -/
def split (P : Prob K n) (tol : K) (cbv : Option K) (z x : Pt K n) : List (Pt K n) :=
  (List.finRange n).filterMap fun i =>
    if z i = x i then none
    else
      let w := Function.update z i (x i)
      if less (P.f w) (cbv.map (· - tol)) ∧ P.g w ≤ 0 then some w else none

/-- The point of the segment from `b` to `z` (monotonic_opt.py 210, 212). -/
def onRay (b z : Pt K n) (α : K) : Pt K n := fun i => b i + α * (z i - b i)

/-- The update of the best point (monotonic_opt.py 214-219); printing is left out. -/
def improve (P : Prob K n) (rs : Root K) (rtol tol : K) (s : St K n) (x : Pt K n) (rest : List (Pt K n)) : Except PyErr (St K n) :=
  if P.g x ≤ 0 ∧ less (P.f x) s.cbv then
    match red P rs rtol (some (P.f x)) s.a s.b with
    | .error e => .error e
    | .ok (a', b') => .ok ⟨a', b', rest.filter (keep P tol (P.f x) a' b'), some x, some (P.f x)⟩
  else .ok { s with T := rest }

/-- One pass of the loop for the vertex with the index `i` (monotonic_opt.py 204-234). -/
def step (P : Prob K n) (rs : Root K) (rtol tol : K) (s : St K n) (i : ℕ) : Except PyErr (St K n) :=
  match s.T[i]? with
  | none => .error .indexError
  | some z =>
    match reach rs fun α => -P.h (onRay s.b z α) with
    | .error e => .error e
    | .ok α =>
      match improve P rs rtol tol s (onRay s.b z α) (s.T.eraseIdx i) with
      | .error e => .error e
      | .ok s' => .ok { s' with T := s'.T ++ split P tol s'.cbv z (onRay s.b z α) }

/-- The loop (monotonic_opt.py 197-234).  `pick k` is the random number of the pass `k`; the result has the last value of `k`. -/
def loop (P : Prob K n) (rs : Root K) (rtol tol : K) (pick : ℕ → ℕ) : ℕ → ℕ → St K n → Except PyErr (ℕ × St K n)
  | 0, k, s => .ok (k - 1, s)
  | fuel + 1, k, s =>
    if s.T = [] then .ok (k, s)
    else match step P rs rtol tol s (pick k % s.T.length) with
      | .error e => .error e
      | .ok s' => loop P rs rtol tol pick fuel (k + 1) s'

/-- `RPAResult` (monotonic_opt.py 8). -/
structure Result (K : Type*) (n : ℕ) where
  x : Option (Pt K n)
  f : Option K
  iterations : ℕ
  converged : Bool
  a : Pt K n
  b : Pt K n

/-- The test at the start (monotonic_opt.py 191); `cbv` is the argument, `f(a) > cbv` there. -/
def hopeless (P : Prob K n) (cbv : Option K) (a b : Pt K n) : Bool :=
  decide (0 < P.g a) || decide (P.h b < 0) || match cbv with
    | none => false
    | some c => decide (c < P.f a)

/-- The end (monotonic_opt.py 236-238). -/
def finish (r : ℕ × St K n) : Result K n :=
  ⟨r.2.best, if r.2.best = none then none else r.2.cbv, r.1, r.2.T.isEmpty, r.2.a, r.2.b⟩

/-- The state before the loop for an input that is not hopeless (monotonic_opt.py 188-195). -/
def start (P : Prob K n) (rs : Root K) (rtol tol : K) (cbv : Option K) (a b : Pt K n) : Except PyErr (St K n) :=
  match red P rs rtol (cbv.map (· + tol)) a b with
  | .error e => .error e
  | .ok (a', b') => .ok ⟨a', b', [a'], none, cbv.map (· + tol)⟩

/-- `rpa_monotonic` (monotonic_opt.py 117-238).  With `max_iter = 0` the variable `k` has no value in line 238. -/
def rpa (P : Prob K n) (rs : Root K) (rtol tol : K) (pick : ℕ → ℕ) (maxIter : ℕ) (cbv : Option K) (a b : Pt K n) :
    Except PyErr (Result K n) :=
  if hopeless P cbv a b then (loop P rs rtol tol pick maxIter 1 ⟨a, b, [], none, none⟩).map finish
  else match start P rs rtol tol cbv a b with
    | .error e => .error e
    | .ok s => if maxIter = 0 then .error (.custom "UnboundLocalError") else (loop P rs rtol tol pick maxIter 1 s).map finish

/-- `np.concatenate([x, [t, u]])` (monotonic_opt.py 342-343). -/
def lift (x : Pt K n) (t u : K) : Pt K (n + 2) := fun i => if h : i.1 < n then x ⟨i.1, h⟩ else if i.1 = n then t else u

/-- `x_t_u[:n]` (monotonic_opt.py 330, 334, 337-338). -/
def low (p : Pt K (n + 2)) : Pt K n := fun i => p ⟨i.1, by omega⟩

/-- `x_t_u[n]`. -/
def slackT (p : Pt K (n + 2)) : K := p ⟨n, by omega⟩

/-- `x_t_u[n+1]`. -/
def slackU (p : Pt K (n + 2)) : K := p ⟨n + 1, by omega⟩

/-- A list of pairs of functions `(g_i, h_i)` (monotonic_opt.py 241). -/
abbrev Pairs (K : Type*) (n : ℕ) := List ((Pt K n → K) × (Pt K n → K))

/-- `h` (monotonic_opt.py 313-314, 322-323). -/
def hSum (gh : Pairs K n) (x : Pt K n) : K := (gh.map fun p => p.2 x).sum

/-- `g` (monotonic_opt.py 317-320, 325-326). -/
def gMax (gh : Pairs K n) (x : Pt K n) : K :=
  match gh.map fun p => p.1 x - p.2 x + hSum gh x with
  | [] => 0
  | v :: vs => vs.foldl max v

/-- `F`, `G` and `H` (monotonic_opt.py 328-339). -/
def gmopProb (f1 f2 : Pt K n → K) (gh : Pairs K n) : Prob K (n + 2) where
  f p := f1 (low p) + slackU p
  g p := gMax gh (low p) + slackT p
  h p := min (hSum gh (low p) + slackT p) (f2 (low p) + slackU p)

/-- The new result (monotonic_opt.py 349-355). -/
def lower (f1 f2 : Pt K n → K) (r : Result K (n + 2)) : Result K n :=
  ⟨r.x.map low, r.x.map fun p => f1 (low p) - f2 (low p), r.iterations, r.converged, low r.a, low r.b⟩

/-- `rpa_gmop` (monotonic_opt.py 241-355). -/
def gmop (f1 f2 : Pt K n → K) (gh : Pairs K n) (rs : Root K) (rtol tol : K) (pick : ℕ → ℕ) (maxIter : ℕ) (cbv : Option K) (a b : Pt K n) :
    Except PyErr (Result K n) :=
  (rpa (gmopProb f1 f2 gh) rs rtol tol pick maxIter cbv (lift a (-gMax gh b) (-f2 b)) (lift b (-gMax gh a) (-f2 a))).map (lower f1 f2)

/-- A polynomial: `terms()`, in decreasing lexicographic order of the exponents (monotonic_opt.py 381). -/
abbrev Terms (K : Type*) (n : ℕ) := List ((Fin n → ℕ) × K)

/-- The value of a polynomial, which `vectorized_lambdify` computes (monotonic_opt.py 464-466). -/
def Terms.eval (p : Terms K n) (x : Pt K n) : K := (p.map fun t => t.2 * ∏ i, x i ^ t.1 i).sum

/-- The positive terms (monotonic_opt.py 382). -/
def Terms.pos (p : Terms K n) : Terms K n := p.filter fun t => decide (0 ≤ t.2)

/-- The negative terms with the opposite sign (monotonic_opt.py 383, 385). -/
def Terms.neg (p : Terms K n) : Terms K n := (p.filter fun t => decide (t.2 < 0)).map fun t => (t.1, -t.2)

/-- `poly_as_dm(poly, a)` (monotonic_opt.py 359-389) as a pair of functions; `shift p v` is SymPy's `shift_list`, the polynomial `p(x + v)`.
Shifting back is written as a shift of the argument. -/
def asDm (shift : Terms K n → Pt K n → Terms K n) (p : Terms K n) (a : Pt K n) : (Pt K n → K) × (Pt K n → K) :=
  let m : Pt K n := fun i => min (a i) 0
  (fun x => (shift p m).pos.eval (x - m), fun x => (shift p m).neg.eval (x - m))

/-- `ineq.degree()` (monotonic_opt.py 475, 479): the degree in the first generator.  The zero polynomial has degree `-oo`; the model has `0`, and only `<= 0` is asked. -/
def Terms.degree [NeZero n] (p : Terms K n) : ℕ := (p.map fun t => t.1 0).foldl max 0

/-- `ineq.LC()` (monotonic_opt.py 476). -/
def Terms.lc (p : Terms K n) : K := match p with
  | [] => 0
  | t :: _ => t.2

/-- `coeff_monomial` (monotonic_opt.py 482-483). -/
def Terms.coeff (p : Terms K n) (e : Fin n → ℕ) : K := ((p.filter fun t => decide (t.1 = e)).map Prod.snd).sum

/-- `len(ineq.free_symbols)` (monotonic_opt.py 479). -/
def Terms.used (p : Terms K n) : List (Fin n) := (List.finRange n).filter fun i => p.any fun t => decide (0 < t.1 i)

/-- `eq + eqtol` (monotonic_opt.py 471); the constant term is the last one. -/
def Terms.addConst (p : Terms K n) (c : K) : Terms K n :=
  (p.filter fun t => decide (t.1 ≠ 0)) ++ if p.coeff 0 + c = 0 then [] else [(0, p.coeff 0 + c)]

/-- `-eq` (monotonic_opt.py 472). -/
def Terms.minus (p : Terms K n) : Terms K n := p.map fun t => (t.1, -t.2)

/-- What the loop over the constraints has collected: the bounds and the pairs (monotonic_opt.py 468-492). -/
structure Box (K : Type*) (n : ℕ) where
  a : Pt K n
  b : Pt K n
  gh : Pairs K n

/-- One constraint (monotonic_opt.py 474-492); `none` is the return of line 477.  `free_symbols.pop()` is the only element. -/
def addIneq [NeZero n] (shift : Terms K n → Pt K n → Terms K n) (p : Terms K n) (B : Box K n) : Option (Box K n) :=
  if p.degree ≤ 0 then if p.lc < 0 then none else some B
  else if p.degree = 1 ∧ p.used.length = 1 then
    let i := p.used.headD 0
    let lc := p.coeff (Pi.single i 1)
    let const := p.coeff 0
    if 0 < lc then some { B with a := Function.update B.a i (max (B.a i) (-const / lc)) }
    else some { B with b := Function.update B.b i (min (B.b i) (-const / lc)) }
  else
    let d := asDm shift p B.a
    some { B with gh := B.gh ++ [(d.2, d.1)] }

/-- The loop over the constraints (monotonic_opt.py 473-492): the box, or the box at the return of line 477. -/
def addAll [NeZero n] (shift : Terms K n → Pt K n → Terms K n) : List (Terms K n) → Box K n → Box K n ⊕ Box K n
  | [], B => .inl B
  | p :: ps, B => match addIneq shift p B with
    | none => .inr B
    | some B' => addAll shift ps B'

/-- The constraints with the relaxed equations (monotonic_opt.py 468-472). -/
def relaxed (ineqs eqs : List (Terms K n)) (eqtol : K) : List (Terms K n) :=
  ineqs ++ eqs.flatMap fun e => [e.addConst eqtol, e.minus.addConst eqtol]

/-- `rpa_polyopt` (monotonic_opt.py 392-497). -/
def polyopt [NeZero n] (shift : Terms K n → Pt K n → Terms K n) (rs : Root K) (rtol tol eqtol : K) (pick : ℕ → ℕ) (maxIter : ℕ) (cbv : Option K)
    (f : Terms K n) (ineqs eqs : List (Terms K n)) (a b : Pt K n) : Except PyErr (Result K n) :=
  match addAll shift (relaxed ineqs eqs eqtol) ⟨a, b, []⟩ with
  | .inr B => .ok ⟨none, none, 1, true, B.a, B.b⟩
  | .inl B =>
    let d := asDm shift f B.a
    gmop d.1 d.2 B.gh rs rtol tol pick maxIter cbv B.a B.b

end Verif.Rpa
