import Mathlib.Algebra.Order.Field.Basic
import Mathlib.Data.Rat.Defs
import Mathlib.Algebra.BigOperators.Group.List.Basic

/-!
# Model of `SolutionStructural._extract_nonnegative_exprs` (triples/core/structsos/solution.py 21-96)
and of its use in `structural_sos_3vars`/`structural_sos_4vars` (structsos/quarternary/solver.py 115-134)
-/

namespace Verif.Extract

/-- Expression trees.  `const` is a number, `sym i` a symbol, `mark i` the placeholder `G(sym i)`,
`add`/`mul` are n-ary, `pow b e` has a rational exponent (symbolic exponents are not modelled),
`cyc isProd b syms perms` is `CyclicSum`/`CyclicProduct` of `b` over the group elements `perms`, and `fn k` is
any other SymPy expression with free symbols. -/
inductive Ex (K : Type*) where
  | const (c : K)
  | sym (i : ℕ)
  | mark (i : ℕ)
  | fn (k : ℕ)
  | add (l : List (Ex K))
  | mul (l : List (Ex K))
  | pow (b : Ex K) (e : ℚ)
  | cyc (isProd : Bool) (b : Ex K) (syms : List ℕ) (perms : List (List ℕ))

/-- `dict(zip(symbols, p(symbols)))` (utils/expression/cyclic.py 67-72): the renaming of symbols by `p`. -/
def rename (syms : List ℕ) (p : List ℕ) (s : ℕ) : ℕ :=
  match syms.findIdx? (· == s) with
  | some i => syms.getD (p.getD i i) s
  | none => s

section
variable {K : Type*} [Field K] [LinearOrder K]

/-- Semantics data: `frac b e` is the value of `b ** e` for a non-integer rational `e`, and `fn k ρ` the value
of an unmodelled expression. -/
structure Sem (K : Type*) where
  frac : K → ℚ → K
  fn : ℕ → (ℕ → K) → K

mutual
/-- The value of an expression: `ρ` assigns the symbols, `γ` the placeholders. -/
def eval (S : Sem K) : Ex K → (ℕ → K) → (ℕ → K) → K
  | .const c, _, _ => c
  | .sym i, ρ, _ => ρ i
  | .mark i, _, γ => γ i
  | .fn k, ρ, _ => S.fn k ρ
  | .add l, ρ, γ => evalAdd S l ρ γ
  | .mul l, ρ, γ => evalMul S l ρ γ
  | .pow b e, ρ, γ => if e.den = 1 then eval S b ρ γ ^ e.num else S.frac (eval S b ρ γ) e
  | .cyc isProd b syms perms, ρ, γ =>
    let vals := perms.map fun p => eval S b (ρ ∘ rename syms p) (γ ∘ rename syms p)
    if isProd then vals.prod else vals.sum
def evalAdd (S : Sem K) : List (Ex K) → (ℕ → K) → (ℕ → K) → K
  | [], _, _ => 0
  | a :: l, ρ, γ => eval S a ρ γ + evalAdd S l ρ γ
def evalMul (S : Sem K) : List (Ex K) → (ℕ → K) → (ℕ → K) → K
  | [], _, _ => 1
  | a :: l, ρ, γ => eval S a ρ γ * evalMul S l ρ γ
end

mutual
/-- `len(arg.free_symbols) == 0`. -/
def closed : Ex K → Bool
  | .const _ => true
  | .sym _ => false
  | .mark _ => false
  | .fn _ => false
  | .add l => closedL l
  | .mul l => closedL l
  | .pow b _ => closed b
  | .cyc _ b syms _ => syms.isEmpty && closed b
def closedL : List (Ex K) → Bool
  | [] => true
  | a :: l => closed a && closedL l
end

/-- The numerical value of a closed expression, used for `arg < 0` and `x >= 0`. -/
def closedVal (S : Sem K) (e : Ex K) : K := eval S e (fun _ => 0) (fun _ => 0)

/-- `is_pow2` (structsos/solution.py 69-79): a power whose exponent has an even numerator, or a nonnegative
closed expression that is not a power. -/
def isPow2 (S : Sem K) : Ex K → Bool
  | .pow _ e => decide (e.num % 2 = 0)
  | e => closed e && decide (0 ≤ closedVal S e)

/-- `isinstance(base, Mul) and all(is_pow2(_) for _ in base.args)` (structsos/solution.py 82). -/
def isMulPow2 (S : Sem K) : Ex K → Bool
  | .mul l => l.all (isPow2 S)
  | _ => false

mutual
/-- `dfs` (structsos/solution.py 37-89); `none` is `_rewriting_exception`.  `extra` is `extra_checker`.
`expandOk arg` stands for line 85 (`each_args = [dfs(_) for _ in arg.doit(deep=False).args]`, whose value is
unused): it can only raise, so it is an arbitrary predicate here.  `arg.func(...)` is taken to build the tree
without automatic simplification.  The branch for rational bases (62-64) needs a symbolic exponent and does not
occur in this tree type. -/
def dfs (S : Sem K) (extra : Ex K → Option (Ex K)) (expandOk : Ex K → Bool) : Ex K → Option (Ex K)
  | .const c =>
    match extra (.const c) with
    | some r => some r
    | none => if c < 0 then none else some (.const c)
  | .sym i =>
    match extra (.sym i) with
    | some r => some r
    | none => some (.mark i)
  | .mark i =>
    match extra (.mark i) with
    | some r => some r
    | none => some (.mark i)
  | .fn k =>
    match extra (.fn k) with
    | some r => some r
    | none => some (.fn k)
  | .add l =>
    match extra (.add l) with
    | some r => some r
    | none =>
      if closedL l then (if closedVal S (.add l) < 0 then none else some (.add l))
      else (dfsL S extra expandOk l).map .add
  | .mul l =>
    match extra (.mul l) with
    | some r => some r
    | none =>
      if closedL l then (if closedVal S (.mul l) < 0 then none else some (.mul l))
      else (dfsL S extra expandOk l).map .mul
  | .pow b e =>
    match extra (.pow b e) with
    | some r => some r
    | none =>
      if closed b then (if closedVal S (.pow b e) < 0 then none else some (.pow b e))
      else if e.den = 1 then
        if e.num % 2 = 0 then some (.pow b e)
        else match dfs S extra expandOk b with
          | none => none
          | some b' =>
            if e = -1 then some (.pow b' (-1))
            else if 0 < e then some (.mul [b', .pow b (e - 1)])
            else some (.mul [.pow b (e + 1), .pow b' (-1)])
      else match dfs S extra expandOk b with
        | none => none
        | some b' => some (.pow b' e)
  | .cyc isProd b syms perms =>
    match extra (.cyc isProd b syms perms) with
    | some r => some r
    | none =>
      if syms.isEmpty && closed b then
        (if closedVal S (.cyc isProd b syms perms) < 0 then none else some (.cyc isProd b syms perms))
      else if isPow2 S b then some (.cyc isProd b syms perms)
      else if isMulPow2 S b then some (.cyc isProd b syms perms)
      else if expandOk (.cyc isProd b syms perms) then
        match dfs S extra expandOk b with
        | none => none
        | some b' => some (.cyc isProd b' syms perms)
      else none
/-- `dfs` over the arguments of a sum or product. -/
def dfsL (S : Sem K) (extra : Ex K → Option (Ex K)) (expandOk : Ex K → Bool) :
    List (Ex K) → Option (List (Ex K))
  | [] => some []
  | a :: l =>
    match dfs S extra expandOk a with
    | none => none
    | some a' =>
      match dfsL S extra expandOk l with
      | none => none
      | some l' => some (a' :: l')
end

mutual
/-- The symbols `s` whose placeholder `G(s)` occurs when all cyclic sums and products are expanded. -/
def needed : Ex K → List ℕ
  | .const _ => []
  | .sym _ => []
  | .mark i => [i]
  | .fn _ => []
  | .add l => neededL l
  | .mul l => neededL l
  | .pow b _ => needed b
  | .cyc _ b syms perms => perms.flatMap fun p => (needed b).map (rename syms p)
def neededL : List (Ex K) → List ℕ
  | [] => []
  | a :: l => needed a ++ neededL l
end

/-- A monomial constraint `lc * x_s ** d >= 0` with the user's expression for it (quarternary/solver.py 125-127
looks only at constraints in one symbol that are monomials with `LC() >= 0`). -/
structure MonoCon (K : Type*) where
  sym : ℕ
  deg : ℕ
  lc : K

/-- The end of `structural_sos_3vars`/`_4vars` (quarternary/solver.py 115-134): placeholders are replaced by
the constraint expressions; if a placeholder remains the answer is `None`.  The returned expression keeps the
placeholders here; their value is that of the constraint expression divided by `LC`. -/
def finish (S : Sem K) (expandOk : Ex K → Bool) (cons : List (MonoCon K)) (e : Ex K) : Option (Ex K) :=
  match dfs S (fun _ => none) expandOk e with
  | none => none
  | some e' =>
    if (needed e').all fun s => cons.any fun c => c.sym == s && decide (0 ≤ c.lc) then some e' else none

end
end Verif.Extract
