import Mathlib.Algebra.BigOperators.Group.List.Basic
import Mathlib.Algebra.BigOperators.Ring.List
import Mathlib.Algebra.Order.BigOperators.Group.List
import Mathlib.Algebra.Order.Ring.Rat
import Mathlib.Tactic.Ring
import Mathlib.Tactic.FieldSimp
import Mathlib.Tactic.Linarith
import Verif.Model.LinCollect
import Verif.Props.SdpSOS

/-!
# C91: the expression written by LinearSOS has the value of the certificate
-/

namespace Verif.LinCollect

open Verif

set_option linter.unusedSectionVars false

variable {A K : Type*} [Field K] [LinearOrder K] [IsStrictOrderedRing K] [DecidableEq A]

/-- The point seen by an expression after the symbols have been permuted (utils/monomials.py 283-286). -/
def act (g : List ℕ) (x : ℕ → K) : ℕ → K := fun i => x (g.getD i i)

/-- The value of an argument. -/
def facVal (av : A → (ℕ → K) → K) (x : ℕ → K) : Fac A → K
  | .atom a => av a x
  | .pow a n => av a x ^ n

/-- The value of an expression at a point, for the values `av` of the constraints and the group `gs`. -/
def val (av : A → (ℕ → K) → K) (gs : List (List ℕ)) : Ex A K → (ℕ → K) → K
  | .num c, _ => c
  | .sym i, x => x i
  | .fac f, x => facVal av x f
  | .add a b, x => val av gs a x + val av gs b x
  | .mul a b, x => val av gs a x * val av gs b x
  | .spow a n, x => val av gs a x ^ n
  | .cyc e, x => (gs.map fun g => val av gs e (act g x)).sum
  | .quot a b, x => val av gs a x / val av gs b x

/-- What is assumed about SymPy: `together` keeps the value, `as_content_primitive` splits off a positive constant. -/
structure Ext.Sound (av : A → (ℕ → K) → K) (gs : List (List ℕ)) (E : Ext A K) : Prop where
  together : ∀ e x, val av gs (E.together e) x = val av gs e x
  content : ∀ e x, (E.content e).1 * val av gs (E.content e).2 x = val av gs e x
  pos : ∀ e, 0 < (E.content e).1

/-- A tangent as SymPy keeps it: no argument twice, no power with exponent zero. -/
def Tan.Ok (t : Tan A K) : Prop := t.args.Nodup ∧ ∀ a n, Fac.pow a n ∈ t.args → 1 ≤ n

/-- All tangents of a list of bases are as SymPy keeps them. -/
def BasesOk (yb : List (K × Base A K)) : Prop := ∀ v p t, (v, Base.tangent p t) ∈ yb → t.Ok

section
variable (av : A → (ℕ → K) → K) (gs : List (List ℕ))

/-- The cyclic sum of a function. -/
def cs (f : (ℕ → K) → K) (x : ℕ → K) : K := (gs.map fun g => f (act g x)).sum

/-- The multipliers with their coefficients: `sum (z_j * cyc m_j)`. -/
def multSum (yb : List (K × Base A K)) (x : ℕ → K) : K :=
  (yb.map fun t => match t.2 with
    | .mult m => t.1 * cs gs (val av gs m) x
    | _ => 0).sum

/-- The other bases with their coefficients: `sum (y_i * cyc b_i)`. -/
def baseSum (yb : List (K × Base A K)) (x : ℕ → K) : K :=
  (yb.map fun t => match t.2 with
    | .mult _ => 0
    | b => t.1 * cs gs (val av gs b.expr) x).sum

theorem val_addAll (l : List (Ex A K)) (x : ℕ → K) : val av gs (addAll l) x = (l.map fun e => val av gs e x).sum := by
  induction l with
  | nil => rfl
  | cons a l ih =>
    change val av gs a x + val av gs (addAll l) x = _
    rw [ih]; rfl

theorem val_mulAll (l : List (Ex A K)) (x : ℕ → K) : val av gs (mulAll l) x = (l.map fun e => val av gs e x).prod := by
  induction l with
  | nil => rfl
  | cons a l ih =>
    change val av gs a x * val av gs (mulAll l) x = _
    rw [ih]; simp

theorem val_cyc (e : Ex A K) (x : ℕ → K) : val av gs (.cyc e) x = cs gs (val av gs e) x := rfl

theorem cs_smul (c : K) (f : (ℕ → K) → K) (x : ℕ → K) : cs gs (fun x => c * f x) x = c * cs gs f x := by
  unfold cs; rw [← List.sum_map_mul_left]

theorem cs_sum {α : Type*} (l : List α) (f : α → (ℕ → K) → K) (x : ℕ → K) :
    cs gs (fun x => (l.map fun a => f a x).sum) x = (l.map fun a => cs gs (f a) x).sum := by
  unfold cs
  induction gs with
  | nil => simp
  | cons g l' ih => simp only [List.map_cons, List.sum_cons, ih, ← List.sum_map_add]

theorem cs_congr {f f' : (ℕ → K) → K} (h : ∀ x, f x = f' x) (x : ℕ → K) : cs gs f x = cs gs f' x := by
  rw [show f = f' from funext h]

/-! ## The multipliers -/

theorem multSum_eq (yb : List (K × Base A K)) (x : ℕ → K) :
    cs gs (val av gs (addAll (multTerms yb))) x = multSum av gs yb x := by
  rw [cs_congr gs (fun x => val_addAll av gs _ x), cs_sum]
  unfold multSum multTerms
  induction yb with
  | nil => rfl
  | cons t l ih =>
    obtain ⟨v, b⟩ := t
    cases b with
    | mult m =>
      simp only [List.filterMap_cons, List.map_cons, List.sum_cons, ih]
      congr 1
      exact cs_smul gs v (val av gs m) x
    | tangent p t => simpa using ih
    | other e => simpa using ih

/-- The denominator is the sum of the multipliers divided by their content. -/
theorem multiplier_val {E : Ext A K} (hE : E.Sound av gs) (yb : List (K × Base A K)) (x : ℕ → K) :
    ∃ r : K, 0 < r ∧ r * val av gs (collectMultipliers E yb).1 x = multSum av gs yb x ∧
      ∀ t ∈ (collectMultipliers E yb).2, ∃ v, (v, t.2) ∈ yb ∧ t.1 = v / r := by
  refine ⟨_, hE.pos (addAll (multTerms yb)), ?_, ?_⟩
  rotate_left
  · intro t ht
    simp only [collectMultipliers, List.mem_map, List.mem_filter] at ht
    obtain ⟨t', ⟨h1, h2⟩, rfl⟩ := ht
    exact ⟨t'.1, h1, rfl⟩
  · rw [← multSum_eq av gs yb x]
    change _ * cs gs _ x = _
    rw [← cs_smul]
    exact cs_congr gs (fun x => hE.content _ x) x

theorem baseSum_rest (r : K) (yb : List (K × Base A K)) (x : ℕ → K) :
    baseSum av gs ((yb.filter fun t => match t.2 with
      | .mult _ => false
      | _ => true).map fun t => (t.1 / r, t.2)) x = baseSum av gs yb x / r := by
  unfold baseSum
  induction yb with
  | nil => simp
  | cons t l ih =>
    obtain ⟨v, b⟩ := t
    cases b with
    | mult m => simpa using ih
    | tangent p t =>
      simp only [List.filter_cons, List.map_cons, List.sum_cons, ih, if_true]
      rw [add_div]; congr 1; ring
    | other e =>
      simp only [List.filter_cons, List.map_cons, List.sum_cons, ih, if_true]
      rw [add_div]; congr 1; ring

/-! ## The equality constraints -/

theorem val_facs (l : List (Fac A)) (x : ℕ → K) : val av gs (mulAll (l.map Ex.fac)) x = (l.map (facVal av x)).prod := by
  rw [val_mulAll, List.map_map]; rfl

theorem hasEqLoop_val {keys : List A} (x : ℕ → K) : ∀ (l pre : List (Fac A)) {a : A} {r : List (Fac A)},
    (∀ a n, Fac.pow a n ∈ l → 1 ≤ n) → hasEqLoop keys pre l = some (a, r) →
    a ∈ keys ∧ av a x * (r.map (facVal av x)).prod = ((pre ++ l).map (facVal av x)).prod := by
  intro l
  induction l with
  | nil => intro pre a r _ h; simp [hasEqLoop] at h
  | cons f l ih =>
    intro pre a r hn h
    rw [hasEqLoop] at h
    split_ifs at h with hf
    · simp only [Option.some.injEq, Prod.mk.injEq] at h
      obtain ⟨rfl, rfl⟩ := h
      refine ⟨hf, ?_⟩
      have key : av f.base x * (f.less.map (facVal av x)).prod = facVal av x f := by
        cases f with
        | atom a => simp [Fac.base, Fac.less, facVal]
        | pow a n =>
          have := hn a n (by simp)
          simp only [Fac.base, Fac.less, List.map_cons, List.map_nil, List.prod_cons, List.prod_nil, facVal, mul_one]
          rw [← pow_succ', Nat.sub_add_cancel this]
      simp only [List.map_append, List.prod_append, List.map_cons, List.prod_cons]
      rw [← key]; ring
    · obtain ⟨h1, h2⟩ := ih (pre ++ [f]) (fun a n h => hn a n (List.mem_cons_of_mem _ h)) h
      exact ⟨h1, by simpa using h2⟩

theorem hasEq_val {keys : List A} {t rest : Tan A K} {a : A} (ht : t.Ok) (h : hasEq keys t = some (a, rest)) (x : ℕ → K) :
    a ∈ keys ∧ av a x * val av gs rest.expr x = val av gs t.expr x := by
  unfold hasEq at h
  cases h' : hasEqLoop keys [] t.args with
  | none => rw [h'] at h; simp at h
  | some q =>
    obtain ⟨b, l⟩ := q
    rw [h'] at h
    simp only [Option.some.injEq, Prod.mk.injEq] at h
    obtain ⟨rfl, rfl⟩ := h
    obtain ⟨h1, h2⟩ := hasEqLoop_val av x t.args [] ht.2 h'
    refine ⟨h1, ?_⟩
    simp only [Tan.expr, val, val_facs]
    rw [List.nil_append] at h2
    rw [← h2]; ring

/-- The equality part has the value of its terms, each times its constraint. -/
theorem collectEq_val {E : Ext A K} (hE : E.Sound av gs) {isCyc : A → Bool}
    (hc : ∀ a, isCyc a = true → ∀ g ∈ gs, ∀ x, av a (act g x) = av a x) (d : List (A × List (Ex A K))) (x : ℕ → K) :
    val av gs (collectEq E isCyc d) x
      = (d.map fun t => (t.2.map fun e => cs gs (fun x => av t.1 x * val av gs e x) x).sum).sum := by
  unfold collectEq
  rw [val_addAll, List.map_map]
  congr 1
  apply List.map_congr_left
  intro t _
  have e1 : cs gs (fun x => av t.1 x * val av gs (E.together (addAll t.2)) x) x
      = (t.2.map fun e => cs gs (fun x => av t.1 x * val av gs e x) x).sum := by
    rw [← cs_sum]
    apply cs_congr
    intro x
    rw [hE.together, val_addAll, List.sum_map_mul_left]
  rw [← e1]
  simp only [Function.comp]
  split_ifs with h
  · simp only [val, facVal, cs]
    rw [← List.sum_map_mul_left]
    congr 1
    apply List.map_congr_left
    intro g hg
    rw [hc t.1 h g hg x]
  · rfl

/-! ## The selection of common factors -/

/-- Every row goes into exactly one group. -/
theorem optimalLoop_perm (c : List ℕ) (m nz : ℕ) : ∀ (it : ℕ) (rows : List (ℕ × List ℕ)),
    ((optimalLoop c m nz it rows).flatMap Prod.snd).Perm (rows.map Prod.fst) := by
  intro it
  induction it with
  | zero => intro rows; simp [optimalLoop]
  | succ it ih =>
    intro rows
    rw [optimalLoop]
    split_ifs with h
    · simp
    · rw [List.flatMap_cons]
      refine ((ih _).append_left _).trans ?_
      rw [← List.map_append]
      exact (List.filter_append_perm (fun r : ℕ × List ℕ => contains r.2 _) rows).map _

/-- Every row of a group contains the factors of the group. -/
theorem optimalLoop_contains (c : List ℕ) (m nz : ℕ) : ∀ (it : ℕ) (rows : List (ℕ × List ℕ)),
    ∀ g ∈ optimalLoop c m nz it rows, ∀ i ∈ g.2, ∃ row, (i, row) ∈ rows ∧ contains row g.1 = true := by
  intro it
  induction it with
  | zero =>
    intro rows g hg i hi
    simp only [optimalLoop, List.mem_singleton] at hg
    subst hg
    simp only [List.mem_map] at hi
    obtain ⟨r, hr, rfl⟩ := hi
    exact ⟨r.2, hr, by simp [contains]⟩
  | succ it ih =>
    intro rows g hg i hi
    rw [optimalLoop] at hg
    split_ifs at hg with h
    · simp only [List.mem_singleton] at hg
      subst hg
      simp only [List.mem_map] at hi
      obtain ⟨r, hr, rfl⟩ := hi
      exact ⟨r.2, hr, by simp [contains]⟩
    · rcases List.mem_cons.1 hg with rfl | hg
      · simp only [List.mem_map, List.mem_filter] at hi
        obtain ⟨r, ⟨hr, hc⟩, rfl⟩ := hi
        exact ⟨r.2, hr, hc⟩
      · obtain ⟨row, hr, hc⟩ := ih _ g hg i hi
        exact ⟨row, (List.mem_filter.1 hr).1, hc⟩

/-! ## The inequality constraints -/

theorem prod_filter {α : Type*} (l : List α) (p : α → Bool) (f : α → K) :
    ((l.filter p).map f).prod = (l.map fun a => if p a then f a else 1).prod := by
  induction l with
  | nil => rfl
  | cons a l ih =>
    by_cases h : p a
    · simp [List.filter_cons, h, ih]
    · simp [List.filter_cons, h, ih]

/-- A product over chosen positions is a product over all of them. -/
theorem prod_positions (factors : List (Fac A)) (p : ℕ → Bool) (x : ℕ → K) :
    val av gs (mulAll (((List.range factors.length).filter p).filterMap fun j => (factors[j]?).map Ex.fac)) x
      = ((List.range factors.length).map fun j => if p j then ((factors[j]?).elim 1 (facVal av x)) else 1).prod := by
  rw [val_mulAll]
  generalize hL : List.range factors.length = L
  have hlt : ∀ j ∈ L, j < factors.length := by subst hL; simp
  clear hL
  induction L with
  | nil => rfl
  | cons j L ih =>
    have hj := hlt j (by simp)
    have ih' := ih (fun j h => hlt j (List.mem_cons_of_mem _ h))
    have e : factors[j]? = some factors[j] := by simp [hj]
    by_cases h : p j
    · simp only [List.filter_cons, h, if_true, List.filterMap_cons, e, Option.map_some, List.map_cons, List.prod_cons, ih', Option.elim]
      rfl
    · simp only [List.filter_cons, h, List.map_cons, List.prod_cons, ih', Bool.false_eq_true, if_false, one_mul]

/-- A product without repetitions over some of the factors. -/
theorem prod_args {factors args : List (Fac A)} (hf : factors.Nodup) (ha : args.Nodup) (hs : ∀ f ∈ args, f ∈ factors) (x : ℕ → K) :
    (args.map (facVal av x)).prod
      = ((List.range factors.length).map fun j => if 0 < (degreeRow factors args).getD j 0 then ((factors[j]?).elim 1 (facVal av x)) else 1).prod := by
  have e1 : ((List.range factors.length).map fun j => if 0 < (degreeRow factors args).getD j 0 then ((factors[j]?).elim 1 (facVal av x)) else 1)
      = factors.map fun f => if f ∈ args then facVal av x f else 1 := by
    apply List.ext_getElem
    · simp
    · intro j h1 h2
      have hj : j < factors.length := by simpa using h2
      simp only [List.getElem_map, List.getElem_range]
      have e : factors[j]? = some factors[j] := by simp [hj]
      have e' : (degreeRow factors args).getD j 0 = args.count factors[j] := by
        simp [degreeRow, List.getD, hj]
      rw [e, e', Option.elim]
      simp only [List.count_pos_iff]
  have e2 : (factors.filter fun f => decide (f ∈ args)).Perm args := by
    rw [List.perm_ext_iff_of_nodup (hf.filter _) ha]
    intro f
    simp only [List.mem_filter, decide_eq_true_eq]
    exact ⟨fun h => h.2, fun h => ⟨hs f h, h⟩⟩
  rw [e1, ← (e2.map (facVal av x)).prod_eq, prod_filter]
  simp

/-- One group has the value of its terms. -/
theorem group_val {E : Ext A K} (hE : E.Sound av gs) {factors : List (Fac A)} (hf : factors.Nodup)
    {te : List (List (Fac A) × Ex A K)} (hte : ∀ t ∈ te, t.1.Nodup ∧ ∀ f ∈ t.1, f ∈ factors)
    (g : List ℕ × List ℕ) (hg : ∀ i ∈ g.2, ∃ row, (i, row) ∈ ((te.map fun t => degreeRow factors t.1).zipIdx.map fun t => (t.2, t.1)) ∧ contains row g.1 = true)
    (x : ℕ → K) :
    ((group E factors (te.map fun t => degreeRow factors t.1) te g).map fun e => val av gs e x).sum
      = (g.2.map fun i => cs gs (val av gs (.mul (mulAll ((te.getD i ([], .num 0)).1.map Ex.fac)) (te.getD i ([], .num 0)).2)) x).sum := by
  unfold group
  dsimp only
  split_ifs with h
  swap
  · rw [List.map_map]; rfl
  rw [List.map_singleton, List.sum_singleton, val_cyc, ← cs_sum]
  apply cs_congr
  intro x
  simp only [val]
  rw [hE.together, val_addAll, List.map_map, ← List.sum_map_mul_left]
  congr 1
  apply List.map_congr_left
  intro i hi
  obtain ⟨row, hr, hc⟩ := hg i hi
  simp only [List.mem_map, Prod.mk.injEq] at hr
  obtain ⟨⟨row', i'⟩, hm, h1, h2⟩ := hr
  dsimp only at h1 h2
  subst h1 h2
  rw [List.mem_zipIdx_iff_getElem?] at hm
  simp only [List.getElem?_map, Option.map_eq_some_iff] at hm
  obtain ⟨t, ht, rfl⟩ := hm
  have eT : te.getD i' ([], .num 0) = t := by simp [List.getD, ht]
  have eD : (te.map fun t => degreeRow factors t.1).getD i' [] = degreeRow factors t.1 := by simp [List.getD, ht]
  have htm : t ∈ te := List.mem_of_getElem? ht
  simp only [Function.comp, val]
  rw [eT, eD, ← mul_assoc, val_facs, prod_args av hf (hte t htm).1 (hte t htm).2 x, prod_positions, prod_positions, ← List.prod_map_mul]
  congr 2
  apply List.map_congr_left
  intro j hj
  have hle : (degreeRow factors t.1).getD j 0 ≤ 1 := by
    have hj' : j < factors.length := by simpa using hj
    simp only [degreeRow, List.getD, List.getElem?_map, List.getElem?_eq_getElem hj', Option.map_some, Option.getD_some]
    exact List.nodup_iff_count_le_one.1 (hte t htm).1 _
  by_cases hjs : j ∈ g.1
  · have h1 : 1 ≤ (degreeRow factors t.1).getD j 0 := by
      have := List.all_eq_true.1 hc j hjs
      simpa using this
    have h2 : (degreeRow factors t.1).getD j 0 = 1 := le_antisymm hle h1
    rw [h2]; simp [hjs]
  · simp [hjs]

/-- What is assumed about turning a set into a list: each member once, in any order. -/
def OrderOk (order : List (Fac A) → List (Fac A)) : Prop := ∀ l, (order l).Nodup ∧ ∀ f, f ∈ order l ↔ f ∈ l

theorem normal_val (t : Tan A K × Ex A K) (x : ℕ → K) :
    val av gs (.mul (mulAll ((normal t).1.map Ex.fac)) (normal t).2) x = val av gs t.1.expr x * val av gs t.2 x := by
  unfold normal
  split_ifs
  · simp [val, mulAll]
  · simp only [val, val_facs, Tan.expr]; ring

/-- **The inequality part has the value of its terms**, whatever common factors are chosen and in whatever order the set of
factors is listed. -/
theorem collectIneq_val {E : Ext A K} (hE : E.Sound av gs) {order : List (Fac A) → List (Fac A)} (ho : OrderOk order)
    (ineqs : List (Fac A)) (complexity : Fac A → ℕ) (te : List (Tan A K × Ex A K)) (hte : ∀ t ∈ te, t.1.Ok) (x : ℕ → K) :
    val av gs (collectIneq E order ineqs complexity te) x
      = (te.map fun t => cs gs (fun x => val av gs t.1.expr x * val av gs t.2 x) x).sum := by
  unfold collectIneq
  dsimp only
  rw [val_addAll]
  set te' := te.map normal with hte'
  set factors := order (ineqs ++ te'.flatMap Prod.fst) with hfac
  have hte2 : ∀ t ∈ te', t.1.Nodup ∧ ∀ f ∈ t.1, f ∈ factors := by
    intro t ht
    constructor
    · rw [hte', List.mem_map] at ht
      obtain ⟨u, hu, rfl⟩ := ht
      unfold normal
      split_ifs
      · exact List.nodup_nil
      · exact (hte u hu).1
    · intro f hf
      rw [hfac, (ho _).2]
      exact List.mem_append_right _ (List.mem_flatMap.2 ⟨t, ht, hf⟩)
  set rows := (te'.map fun t => degreeRow factors t.1).zipIdx.map fun t => (t.2, t.1) with hrows
  have key : ∀ sel : List (List ℕ × List ℕ), (∀ g ∈ sel, ∀ i ∈ g.2, ∃ row, (i, row) ∈ rows ∧ contains row g.1 = true) →
      ((sel.flatMap (group E factors (te'.map fun t => degreeRow factors t.1) te')).map fun e => val av gs e x).sum
        = ((sel.flatMap Prod.snd).map fun i => cs gs (val av gs (.mul (mulAll ((te'.getD i ([], .num 0)).1.map Ex.fac)) (te'.getD i ([], .num 0)).2)) x).sum := by
    intro sel
    induction sel with
    | nil => intro _; rfl
    | cons g sel ih =>
      intro h
      rw [List.flatMap_cons, List.flatMap_cons, List.map_append, List.map_append, List.sum_append, List.sum_append,
        ih (fun g hg => h g (List.mem_cons_of_mem _ hg)),
        group_val av gs hE (ho _).1 hte2 g (h g (by simp)) x]
  rw [key _ (optimalLoop_contains _ _ _ _ _)]
  rw [((optimalLoop_perm _ _ _ _ rows).map _).sum_eq]
  have e1 : rows.map Prod.fst = List.range te.length := by
    rw [hrows, List.map_map]
    apply List.ext_getElem
    · simp [hte']
    · intro i h1 h2; simp
  rw [e1]
  congr 1
  apply List.ext_getElem
  · simp
  · intro i h1 h2
    have hi : i < te.length := by simpa using h2
    simp only [List.getElem_map, List.getElem_range]
    have e2 : te'.getD i ([], .num 0) = normal te[i] := by simp [hte', List.getD, hi]
    rw [e2]
    exact cs_congr gs (normal_val av gs te[i]) x

/-! ## The whole expression -/

/-- The value of the three parts while the bases are sorted. -/
def partsVal (s : List (Ex A K) × List (Tan A K × Ex A K) × List (A × List (Ex A K))) (x : ℕ → K) : K :=
  (s.1.map fun e => val av gs e x).sum
    + (s.2.1.map fun t => cs gs (fun x => val av gs t.1.expr x * val av gs t.2 x) x).sum
    + (s.2.2.map fun t => (t.2.map fun e => cs gs (fun x => av t.1 x * val av gs e x) x).sum).sum

theorem eqPart_add {d : List (A × List (Ex A K))} (hd : (d.map Prod.fst).Nodup) {a : A} (ha : a ∈ d.map Prod.fst) (e : Ex A K) (x : ℕ → K) :
    ((d.map fun t => if t.1 = a then (t.1, t.2 ++ [e]) else t).map fun t => (t.2.map fun e => cs gs (fun x => av t.1 x * val av gs e x) x).sum).sum
      = (d.map fun t => (t.2.map fun e => cs gs (fun x => av t.1 x * val av gs e x) x).sum).sum + cs gs (fun x => av a x * val av gs e x) x := by
  induction d with
  | nil => simp at ha
  | cons t d ih =>
    simp only [List.map_cons, List.nodup_cons] at hd
    by_cases h : t.1 = a
    · subst h
      have e0 : (d.map fun u => if u.1 = t.1 then (u.1, u.2 ++ [e]) else u) = d := by
        conv_rhs => rw [← List.map_id d]
        apply List.map_congr_left
        intro u hu
        rw [if_neg, id]
        intro hc
        exact hd.1 (hc ▸ List.mem_map_of_mem hu)
      simp only [List.map_cons, List.sum_cons, if_true, e0, List.map_append, List.sum_append, List.map_nil, List.sum_nil]
      ring
    · have ha' : a ∈ d.map Prod.fst := by
        simp only [List.map_cons, List.mem_cons] at ha
        exact ha.resolve_left (fun hc => h hc.symm)
      simp only [List.map_cons, List.sum_cons, if_neg h]
      rw [ih hd.2 ha']; ring

theorem sortStep_val {keys : List A} (s : List (Ex A K) × List (Tan A K × Ex A K) × List (A × List (Ex A K)))
    (hk : s.2.2.map Prod.fst = keys) (hn : keys.Nodup) (hs : ∀ t ∈ s.2.1, t.1.Ok) (t : K × Base A K)
    (ht : ∀ p u, t.2 = .tangent p u → u.Ok) (hm : ∀ m, t.2 ≠ .mult m) (x : ℕ → K) :
    partsVal av gs (sortStep keys s t) x = partsVal av gs s x + t.1 * cs gs (val av gs t.2.expr) x ∧
      (sortStep keys s t).2.2.map Prod.fst = keys ∧ ∀ u ∈ (sortStep keys s t).2.1, u.1.Ok := by
  obtain ⟨v, b⟩ := t
  cases b with
  | mult m => exact absurd rfl (hm m)
  | other e =>
    refine ⟨?_, hk, hs⟩
    simp only [sortStep, partsVal, List.map_append, List.sum_append, List.map_cons, List.map_nil, List.sum_cons, List.sum_nil]
    rw [val_cyc]
    simp only [val]
    rw [cs_smul]; ring
  | tangent p u =>
    have hu := ht p u rfl
    cases h : hasEq keys u with
    | none =>
      refine ⟨?_, ?_, ?_⟩
      · simp only [sortStep, h, partsVal, List.map_append, List.sum_append, List.map_cons, List.map_nil, List.sum_cons, List.sum_nil]
        have e : cs gs (fun x => val av gs u.expr x * val av gs (.mul (.num v) (monom p)) x) x = v * cs gs (val av gs (Base.tangent p u).expr) x := by
          rw [← cs_smul]
          apply cs_congr
          intro x
          simp only [val, Base.expr]; ring
        rw [e]; ring
      · simp only [sortStep, h]; exact hk
      · simp only [sortStep, h]
        intro w hw
        rcases List.mem_append.1 hw with hw | hw
        · exact hs w hw
        · rw [List.mem_singleton] at hw; subst hw; exact hu
    | some q =>
      obtain ⟨a, rest⟩ := q
      have ha := fun x => hasEq_val av gs hu h x
      refine ⟨?_, ?_, ?_⟩
      · simp only [sortStep, h, partsVal]
        rw [eqPart_add av gs (hk ▸ hn) (hk ▸ (ha x).1)]
        have e : cs gs (fun x => av a x * val av gs (.mul (.mul (.num v) rest.expr) (monom p)) x) x = v * cs gs (val av gs (Base.tangent p u).expr) x := by
          rw [← cs_smul]
          apply cs_congr
          intro x
          have := (ha x).2
          simp only [val, Base.expr]
          rw [← this]; ring
        rw [e]; ring
      · simp only [sortStep, h, List.map_map]
        rw [← hk]
        apply List.map_congr_left
        intro w _
        simp only [Function.comp]
        split_ifs <;> rfl
      · simp only [sortStep, h]; exact hs

theorem sort_val {keys : List A} (hn : keys.Nodup) (x : ℕ → K) : ∀ (yb : List (K × Base A K)),
    (∀ t ∈ yb, ∀ p u, t.2 = .tangent p u → u.Ok) → (∀ t ∈ yb, ∀ m, t.2 ≠ .mult m) →
    ∀ s, s.2.2.map Prod.fst = keys → (∀ t ∈ s.2.1, t.1.Ok) →
    partsVal av gs (yb.foldl (sortStep keys) s) x = partsVal av gs s x + baseSum av gs yb x ∧
      ∀ u ∈ (yb.foldl (sortStep keys) s).2.1, u.1.Ok := by
  intro yb
  induction yb with
  | nil => intro _ _ s _ hs; exact ⟨by simp [baseSum], hs⟩
  | cons t yb ih =>
    intro h1 h2 s hk hs
    obtain ⟨e1, e2, e3⟩ := sortStep_val av gs s hk hn hs t (h1 t (by simp)) (h2 t (by simp)) x
    obtain ⟨f1, f2⟩ := ih (fun t h => h1 t (List.mem_cons_of_mem _ h)) (fun t h => h2 t (List.mem_cons_of_mem _ h)) _ e2 e3
    refine ⟨?_, f2⟩
    rw [List.foldl_cons, f1, e1]
    have : baseSum av gs (t :: yb) x = t.1 * cs gs (val av gs t.2.expr) x + baseSum av gs yb x := by
      obtain ⟨v, b⟩ := t
      cases b with
      | mult m => exact absurd rfl (h2 _ List.mem_cons_self m)
      | tangent p u => rfl
      | other e => rfl
    rw [this]; ring

/-- **The expression has the value of the certificate.** Whatever is collected, in whatever order, its value is the sum of
the bases with their coefficients divided by the sum of the multipliers with theirs. -/
theorem collect_val {E : Ext A K} (hE : E.Sound av gs) {V : Env A} (ho : OrderOk V.order)
    (hc : ∀ a, V.isCyc a = true → ∀ g ∈ gs, ∀ x, av a (act g x) = av a x) {yb : List (K × Base A K)} (hb : BasesOk yb) (x : ℕ → K) :
    val av gs (collectConstraints E V yb) x = baseSum av gs yb x / multSum av gs yb x := by
  have main : ∀ num : Ex A K, val av gs num x = baseSum av gs (collectMultipliers E yb).2 x →
      val av gs (.quot num (collectMultipliers E yb).1) x = baseSum av gs yb x / multSum av gs yb x := by
    intro num hnum
    have hpos := hE.pos (addAll (multTerms yb))
    have e1 : baseSum av gs (collectMultipliers E yb).2 x = _ := baseSum_rest av gs _ yb x
    obtain ⟨r, hr, e2, -⟩ : ∃ r : K, r = (E.content (addAll (multTerms yb))).1 ∧ r * val av gs (collectMultipliers E yb).1 x = multSum av gs yb x ∧ True := by
      refine ⟨_, rfl, ?_, trivial⟩
      rw [← multSum_eq av gs yb x]
      change _ * cs gs _ x = _
      rw [← cs_smul]
      exact cs_congr gs (fun x => hE.content _ x) x
    rw [← hr] at e1 hpos
    simp only [val]
    rw [hnum, e1, ← e2, div_div]
  have hrest : ∀ t ∈ (collectMultipliers E yb).2, (∀ p u, t.2 = .tangent p u → u.Ok) ∧ ∀ m, t.2 ≠ .mult m := by
    intro t ht
    simp only [collectMultipliers, List.mem_map, List.mem_filter] at ht
    obtain ⟨t', ⟨h1, h2⟩, rfl⟩ := ht
    refine ⟨fun p u h => hb t'.1 p u (by rw [← h]; exact h1), fun m h => ?_⟩
    dsimp only at h
    rw [h] at h2
    exact absurd h2 (by simp)
  unfold collectConstraints
  dsimp only
  split_ifs with h
  · apply main
    rw [val_addAll, List.map_map]
    unfold baseSum
    congr 1
    apply List.map_congr_left
    intro t ht
    simp only [Function.comp]
    rw [val_cyc]
    simp only [val]
    rw [cs_smul]
    obtain ⟨v, b⟩ := t
    cases b with
    | mult m => exact absurd rfl ((hrest _ ht).2 m)
    | tangent p u => rfl
    | other e => rfl
  · push Not at h
    obtain ⟨-, -, hn⟩ := h
    apply main
    obtain ⟨e1, e2⟩ := sort_val av gs hn x (collectMultipliers E yb).2 (fun t ht => (hrest t ht).1) (fun t ht => (hrest t ht).2)
      ([], [], V.eqs.map fun k => (k, [])) (by simp [List.map_map, Function.comp_def]) (by simp)
    simp only [val]
    rw [val_addAll, collectIneq_val av gs hE ho _ _ _ e2, collectEq_val av gs hE hc]
    unfold partsVal at e1
    rw [e1]
    simp [Function.comp_def]

/-- **The answer equals the polynomial** wherever the multiplier does not vanish, when the certificate of the solver is a
true identity (C30). -/
theorem collect_eq_poly {E : Ext A K} (hE : E.Sound av gs) {V : Env A} (ho : OrderOk V.order)
    (hc : ∀ a, V.isCyc a = true → ∀ g ∈ gs, ∀ x, av a (act g x) = av a x) {yb : List (K × Base A K)} (hb : BasesOk yb)
    {f : (ℕ → K) → K} {x : ℕ → K} (hf : baseSum av gs yb x = f x * multSum av gs yb x) (hm : multSum av gs yb x ≠ 0) :
    val av gs (collectConstraints E V yb) x = f x := by
  rw [collect_val av gs hE ho hc hb x, hf, mul_div_assoc, div_self hm, mul_one]

/-- Without a multiplier the answer is a division by zero. -/
theorem collect_no_multiplier {E : Ext A K} (hE : E.Sound av gs) {yb : List (K × Base A K)} (h : ∀ t ∈ yb, ∀ m, t.2 ≠ .mult m) (x : ℕ → K) :
    val av gs (collectMultipliers E yb).1 x = 0 := by
  obtain ⟨r, hr, e, -⟩ := multiplier_val av gs hE yb x
  have : multSum av gs yb x = 0 := by
    unfold multSum
    apply List.sum_eq_zero
    intro c hc
    simp only [List.mem_map] at hc
    obtain ⟨t, ht, rfl⟩ := hc
    obtain ⟨v, b⟩ := t
    cases b with
    | mult m => exact absurd rfl (h _ ht m)
    | tangent p u => rfl
    | other e => rfl
  rw [this] at e
  exact (mul_eq_zero.1 e).resolve_left hr.ne'

end

/-! ## The chosen factors are best and never make the answer longer -/

theorem argmax_spec (f : List ℕ → ℤ) : ∀ l : List (List ℕ), (∀ v, argmax f l = some v → v ∈ l ∧ ∀ w ∈ l, f w ≤ f v) ∧ (argmax f l = none → l = [])
  | [] => ⟨fun _ h => by simp [argmax] at h, fun _ => rfl⟩
  | v :: l => by
    obtain ⟨h1, h2⟩ := argmax_spec f l
    constructor
    · intro u hu
      rw [argmax] at hu
      cases hl : argmax f l with
      | none =>
        rw [hl] at hu
        simp only [Option.some.injEq] at hu
        subst hu
        rw [h2 hl]
        simp
      | some w =>
        rw [hl] at hu
        dsimp only at hu
        obtain ⟨h3, h4⟩ := h1 w hl
        split_ifs at hu with hc
        · simp only [Option.some.injEq] at hu
          subst hu
          refine ⟨by simp, ?_⟩
          intro u hu
          rcases List.mem_cons.1 hu with rfl | hu
          · exact le_refl _
          · exact (h4 u hu).trans hc
        · simp only [Option.some.injEq] at hu
          subst hu
          refine ⟨List.mem_cons_of_mem _ h3, ?_⟩
          intro u hu
          rcases List.mem_cons.1 hu with rfl | hu
          · omega
          · exact h4 u hu
    · intro hn
      rw [argmax] at hn
      cases hl : argmax f l with
      | none => rw [hl] at hn; simp at hn
      | some w => rw [hl] at hn; dsimp only at hn; split_ifs at hn

/-- **The chosen factor is best**: no product of at most `nz` different factors saves more, and something is chosen only
when it saves something. -/
theorem optimalFactor_best (rows : List (List ℕ)) (c : List ℕ) (m nz : ℕ) :
    (∀ v : List ℕ, v.Sublist (List.range m) → v ≠ [] → v.length ≤ nz →
      reward rows c v ≤ if optimalFactor rows c m nz = [] then 0 else reward rows c (optimalFactor rows c m nz)) ∧
    (optimalFactor rows c m nz ≠ [] → 0 < reward rows c (optimalFactor rows c m nz) ∧
      (optimalFactor rows c m nz).Sublist (List.range m) ∧ (optimalFactor rows c m nz).length ≤ nz) := by
  unfold optimalFactor
  set step := (fun (s : ℤ × List ℕ) i =>
    match argmax (reward rows c) (LinSOS.combos (i + 1) (List.range m)) with
    | none => s
    | some v => if s.1 < reward rows c v then (reward rows c v, v) else s) with hstep
  have inv : ∀ k, k ≤ min nz m →
      let s := (List.range k).foldl step (0, [])
      s.1 = (if s.2 = [] then 0 else reward rows c s.2) ∧ 0 ≤ s.1 ∧
      (s.2 ≠ [] → 0 < reward rows c s.2 ∧ s.2.Sublist (List.range m) ∧ s.2.length ≤ nz) ∧
      ∀ v : List ℕ, v.Sublist (List.range m) → v ≠ [] → v.length ≤ k → reward rows c v ≤ s.1 := by
    intro k
    induction k with
    | zero =>
      intro _
      refine ⟨rfl, le_refl _, fun h => absurd rfl h, ?_⟩
      intro v _ h1 h2
      exact absurd (List.length_eq_zero_iff.1 (Nat.le_zero.1 h2)) h1
    | succ k ih =>
      intro hk
      obtain ⟨i1, i2, i3, i4⟩ := ih (by omega)
      dsimp only
      rw [List.range_succ, List.foldl_append, List.foldl_cons, List.foldl_nil]
      set s := (List.range k).foldl step (0, []) with hs
      obtain ⟨a1, a2⟩ := argmax_spec (reward rows c) (LinSOS.combos (k + 1) (List.range m))
      cases ha : argmax (reward rows c) (LinSOS.combos (k + 1) (List.range m)) with
      | none =>
        have e : step s k = s := by rw [hstep]; dsimp only; rw [ha]
        rw [e]
        refine ⟨i1, i2, i3, ?_⟩
        intro v h1 h2 h3
        by_cases h4 : v.length = k + 1
        · have := (SdpSOS.mem_combos (k + 1) (List.range m) v).2 ⟨h1, h4⟩
          rw [a2 ha] at this
          simp at this
        · exact i4 v h1 h2 (by omega)
      | some w =>
        obtain ⟨b1, b2⟩ := a1 w ha
        obtain ⟨c1, c2⟩ := (SdpSOS.mem_combos (k + 1) (List.range m) w).1 b1
        have hw : w ≠ [] := by rintro rfl; simp at c2
        have e : step s k = if s.1 < reward rows c w then (reward rows c w, w) else s := by rw [hstep]; dsimp only; rw [ha]
        by_cases hlt : s.1 < reward rows c w
        · rw [e, if_pos hlt]
          refine ⟨by rw [if_neg hw], by dsimp only; omega, fun _ => ⟨by dsimp only; omega, c1, by dsimp only; omega⟩, ?_⟩
          intro v h1 h2 h3
          by_cases h4 : v.length = k + 1
          · exact b2 v ((SdpSOS.mem_combos (k + 1) (List.range m) v).2 ⟨h1, h4⟩)
          · exact (i4 v h1 h2 (by omega)).trans hlt.le
        · rw [e, if_neg hlt]
          refine ⟨i1, i2, i3, ?_⟩
          intro v h1 h2 h3
          by_cases h4 : v.length = k + 1
          · exact (b2 v ((SdpSOS.mem_combos (k + 1) (List.range m) v).2 ⟨h1, h4⟩)).trans (by omega)
          · exact i4 v h1 h2 (by omega)
  obtain ⟨i1, -, i3, i4⟩ := inv (min nz m) le_rfl
  refine ⟨?_, i3⟩
  intro v h1 h2 h3
  refine (i4 v h1 h2 ?_).trans (le_of_eq i1)
  have : v.length ≤ m := by simpa using h1.length_le
  omega

/-- The complexity of one row when nothing is extracted: each factor that occurs counts. -/
def rowCost (c : List ℕ) (r : List ℕ) : ℕ := ((List.range c.length).map fun j => if 0 < r.getD j 0 then c.getD j 0 else 0).sum

/-- The complexity of what is written for one group: the common factors once, the remaining factors of each row. -/
def groupCost (c : List ℕ) (degrees : List (List ℕ)) (g : List ℕ × List ℕ) : ℕ :=
  cost c g.1 + (g.2.map fun i => ((List.range c.length).map fun j =>
    if 0 < (degrees.getD i []).getD j 0 ∧ j ∉ g.1 then c.getD j 0 else 0).sum).sum

theorem cost_split (c r v : List ℕ) (hv : v.Sublist (List.range c.length)) (hc : contains r v = true) :
    cost c v + ((List.range c.length).map fun j => if 0 < r.getD j 0 ∧ j ∉ v then c.getD j 0 else 0).sum = rowCost c r := by
  have e1 : cost c v = ((List.range c.length).map fun j => if j ∈ v then (fun j => c.getD j 0) j else 0).sum := by
    have e : ((List.range c.length).filter fun j => decide (j ∈ v)) = v := by
      have hp : ((List.range c.length).filter fun j => decide (j ∈ v)).Perm v := by
        rw [List.perm_ext_iff_of_nodup (List.nodup_range.filter _) (List.nodup_range.sublist hv)]
        intro j
        simp only [List.mem_filter, decide_eq_true_eq]
        exact ⟨fun h => h.2, fun h => ⟨hv.subset h, h⟩⟩
      refine hp.eq_of_pairwise (le := (· < ·)) (fun a b _ _ h1 h2 => absurd h1 (Nat.lt_asymm h2)) ?_ ?_
      · exact List.pairwise_lt_range.sublist List.filter_sublist
      · exact List.pairwise_lt_range.sublist hv
    unfold cost
    conv_lhs => rw [← e]
    generalize List.range c.length = L
    generalize (fun j => c.getD j 0) = f
    induction L with
    | nil => rfl
    | cons a L ih => by_cases h : a ∈ v <;> simp [List.filter_cons, h, ih]
  rw [e1, ← List.sum_map_add]
  unfold rowCost
  congr 1
  apply List.map_congr_left
  intro j _
  by_cases h : j ∈ v
  · have := List.all_eq_true.1 hc j h
    simp only [decide_eq_true_eq] at this
    simp only [h, not_true, and_false, if_false, if_true, add_zero]
    rw [if_pos (by omega)]
  · simp [h]

/-- **Collecting never makes the answer longer**: the complexity after collecting is at most the one before. -/
theorem collect_not_longer (c : List ℕ) (nz : ℕ) (degrees : List (List ℕ)) : ∀ (it : ℕ) (rows : List (ℕ × List ℕ)),
    (∀ r ∈ rows, degrees.getD r.1 [] = r.2) →
    ((optimalLoop c c.length nz it rows).map (groupCost c degrees)).sum ≤ (rows.map fun r => rowCost c r.2).sum := by
  have last : ∀ rows : List (ℕ × List ℕ), (∀ r ∈ rows, degrees.getD r.1 [] = r.2) →
      groupCost c degrees ([], rows.map Prod.fst) = (rows.map fun r => rowCost c r.2).sum := by
    intro rows h
    simp only [groupCost, cost, List.map_nil, List.sum_nil, Nat.zero_add, List.map_map]
    congr 1
    apply List.map_congr_left
    intro r hr
    simp only [Function.comp, h r hr, List.not_mem_nil, not_false_eq_true, and_true, rowCost]
  intro it
  induction it with
  | zero => intro rows h; simp [optimalLoop, last rows h]
  | succ it ih =>
    intro rows h
    rw [optimalLoop]
    split_ifs with hc
    · simp [last rows h]
    · push Not at hc
      set v := optimalFactor (rows.map Prod.snd) c c.length nz with hv
      have hbest := (optimalFactor_best (rows.map Prod.snd) c c.length nz).2 hc.1
      rw [← hv] at hbest
      have hi := ih (rows.filter fun r => !contains r.2 v) (fun r hr => h r (List.mem_filter.1 hr).1)
      have hsplit : (rows.map fun r => rowCost c r.2).sum = ((rows.filter fun r => contains r.2 v).map fun r => rowCost c r.2).sum
          + ((rows.filter fun r => !contains r.2 v).map fun r => rowCost c r.2).sum := by
        rw [← List.sum_append, ← List.map_append]
        exact ((List.filter_append_perm (fun r : ℕ × List ℕ => contains r.2 v) rows).map _).sum_eq.symm
      have hg : groupCost c degrees (v, (rows.filter fun r => contains r.2 v).map Prod.fst)
          ≤ ((rows.filter fun r => contains r.2 v).map fun r => rowCost c r.2).sum := by
        have hall : ∀ r ∈ rows.filter fun r => contains r.2 v, contains r.2 v = true ∧ degrees.getD r.1 [] = r.2 :=
          fun r hr => ⟨(List.mem_filter.1 hr).2, h r (List.mem_filter.1 hr).1⟩
        have hne := hc.2
        generalize rows.filter (fun r => contains r.2 v) = L at hall hne
        have aux : ∀ L : List (ℕ × List ℕ), (∀ r ∈ L, contains r.2 v = true ∧ degrees.getD r.1 [] = r.2) →
            L.length * cost c v + ((L.map Prod.fst).map fun i => ((List.range c.length).map fun j =>
              if 0 < (degrees.getD i []).getD j 0 ∧ j ∉ v then c.getD j 0 else 0).sum).sum = (L.map fun r => rowCost c r.2).sum := by
          intro L
          induction L with
          | nil => intro _; simp
          | cons r L ih2 =>
            intro hL
            have h1 := ih2 (fun r hr => hL r (List.mem_cons_of_mem _ hr))
            obtain ⟨h2, h3⟩ := hL r (by simp)
            have h4 := cost_split c r.2 v hbest.2.1 h2
            simp only [List.map_cons, List.sum_cons, List.length_cons, h3, Nat.add_mul, Nat.one_mul]
            omega
        have h5 := aux L hall
        have h6 : 1 ≤ L.length := List.length_pos_iff.2 hne
        have h7 : cost c v ≤ L.length * cost c v := Nat.le_mul_of_pos_left _ h6
        unfold groupCost
        dsimp only
        omega
      rw [List.map_cons, List.sum_cons, hsplit]
      omega

/-! ## Concrete cases -/

/-- The identity in the place of `together` and a content of one. -/
def plainExt : Ext ℕ ℚ := ⟨id, fun e => (1, e)⟩

theorem plainExt_sound (av : ℕ → (ℕ → ℚ) → ℚ) (gs : List (List ℕ)) : plainExt.Sound av gs :=
  ⟨fun _ _ => rfl, fun _ _ => by simp [plainExt], fun _ => by simp [plainExt]⟩

theorem dedup_ok : OrderOk (A := ℕ) List.dedup := fun l => ⟨List.nodup_dedup l, fun _ => List.mem_dedup⟩

/-- Three symbols permuted cyclically; the constraint `0` is `a + b - c`, the constraint `1` is `a`, the equation `2` is
`a + b + c - 3`; the certificate has a multiplier, two terms with the common factor `(a + b - c)^2`, one with the equation
and one without tangent. -/
def exEnv : Env ℕ := ⟨[.atom 0, .atom 1], [2], fun a => a == 2, true, List.dedup, fun f => if f = .pow 0 2 then 3 else 0⟩

def exBases : List (ℚ × Base ℕ ℚ) :=
  [(2, .tangent [1, 1, 0] ⟨1, [.pow 0 2]⟩), (3, .tangent [0, 1, 1] ⟨2, [.pow 0 2, .atom 1]⟩),
   (5, .tangent [0, 0, 0] ⟨-1, [.pow 2 2, .atom 1]⟩), (7, .other (.spow (.sym 0) 2)), (1, .mult (.num 1))]

def exAv : ℕ → (ℕ → ℚ) → ℚ := fun a x => if a = 0 then x 0 + x 1 - x 2 else if a = 1 then x 0 else x 0 + x 1 + x 2 - 3

def exGs : List (List ℕ) := [[0, 1, 2], [1, 2, 0], [2, 0, 1]]

theorem exBases_ok : BasesOk exBases := by
  intro v p t h
  simp only [exBases, List.mem_cons, Prod.mk.injEq, Base.tangent.injEq, reduceCtorEq, and_false, List.not_mem_nil, or_false] at h
  rcases h with ⟨-, -, rfl⟩ | ⟨-, -, rfl⟩ | ⟨-, -, rfl⟩ <;> refine ⟨by decide, ?_⟩ <;> intro a n h <;>
    simp only [List.mem_cons, Fac.pow.injEq, reduceCtorEq, List.not_mem_nil, or_false] at h <;> omega

/-- The hypotheses of `collect_val` are met by this certificate, at every point. -/
theorem collect_val_ex (x : ℕ → ℚ) : val exAv exGs (collectConstraints plainExt exEnv exBases) x
    = baseSum exAv exGs exBases x / multSum exAv exGs exBases x := by
  refine collect_val exAv exGs (plainExt_sound _ _) dedup_ok ?_ exBases_ok x
  intro a ha g hg x
  have : a = 2 := by simpa [exEnv] using ha
  subst this
  simp only [exGs, List.mem_cons, List.not_mem_nil, or_false] at hg
  rcases hg with rfl | rfl | rfl <;> simp [exAv, act] <;> ring

/-- The two terms with the factor `(a + b - c)^2` are written as one group. -/
theorem exSelection : optimalLoop [0, 0, 3] 3 5 1000 [(0, [0, 0, 1]), (1, [0, 1, 1])] = [([2], [0, 1]), ([], [])] := by decide +kernel

/-- The hypothesis that no argument occurs twice is needed: with `g*g*g` kept as three arguments the common factor is
taken out once and the two others are written once. -/
theorem repeated_argument_wrong :
    val (fun _ x => x 0) [[0]] (collectIneq plainExt List.dedup [] (fun _ => 2)
      [(⟨1, [.atom 0, .atom 0, .atom 0]⟩, .num 1), (⟨1, [.atom 0, .atom 0, .atom 0]⟩, .num 2)]) (fun _ => 2) = 12 ∧
    ([(⟨1, [.atom 0, .atom 0, .atom 0]⟩, .num 1), (⟨1, [.atom 0, .atom 0, .atom 0]⟩, .num 2)].map fun t : Tan ℕ ℚ × Ex ℕ ℚ =>
      cs [[0]] (fun x => val (fun _ x => x 0) [[0]] t.1.expr x * val (fun _ x => x 0) [[0]] t.2 x) (fun _ => 2)).sum = 24 := by
  constructor <;> decide +kernel

end Verif.LinCollect
