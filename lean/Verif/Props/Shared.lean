import Verif.Model.Shared
import Verif.Props.Arraylize
import Mathlib.Tactic.Linarith
import Mathlib.Tactic.FieldSimp
import Mathlib.Tactic.Positivity
import Mathlib.Data.Rat.Defs
import Mathlib.Algebra.Order.Ring.Rat

/-!
# C34, C35: the problem given to a solver

C34 (normalised constraints) holds in one direction only; `stdIneq_wrong` is the counterexample for the other one.
-/

namespace Verif.Shared

open Verif Coeff TermsPoly MonoMgr

set_option linter.unusedSectionVars false

variable {K : Type*} [Field K] [LinearOrder K] [IsStrictOrderedRing K] {P : Type*}

/-! ### Normalised inequalities -/

/-- The value of a factored polynomial `c * prod(q**d)`. -/
def factoredVal (ev : P → K) (c : K) (lst : List (P × ℕ)) : K := c * (lst.map fun qd => ev qd.1 ^ qd.2).prod

/-- The value of a sign times a product of factors. -/
def signedVal (ev : P → K) (r : ℤ × List P) : K := (r.1 : K) * (r.2.map ev).prod

/-- The value of the expression `e / k / q1**d1 / q2**d2 ...`. -/
def dividedVal (ev : P → K) (e : K) (r : K × List (P × ℕ)) : K := e / r.1 / (r.2.map fun qd => ev qd.1 ^ qd.2).prod

theorem prod_split (ev : P → K) (lst : List (P × ℕ)) : (lst.map fun qd => ev qd.1 ^ qd.2).prod =
    ((lst.filter fun qd => qd.2 % 2 == 1).map fun qd => ev qd.1).prod * (lst.map fun qd => ev qd.1 ^ (qd.2 - qd.2 % 2)).prod := by
  induction lst with
  | nil => simp
  | cons a l ih =>
    by_cases h : a.2 % 2 = 1
    · rw [List.filter_cons_of_pos (by simp [h]), List.map_cons, List.prod_cons, List.map_cons, List.prod_cons, List.map_cons, List.prod_cons, ih]
      have : ev a.1 ^ a.2 = ev a.1 * ev a.1 ^ (a.2 - a.2 % 2) := by
        rw [← pow_succ']; congr 1; omega
      rw [this]; ring
    · rw [List.filter_cons_of_neg (by simp [h]), List.map_cons, List.prod_cons, List.map_cons, List.prod_cons, ih]
      have h0 : a.2 % 2 = 0 := by omega
      rw [h0]; simp only [Nat.sub_zero]; ring

theorem even_part_nonneg (ev : P → K) (lst : List (P × ℕ)) : 0 ≤ (lst.map fun qd => ev qd.1 ^ (qd.2 - qd.2 % 2)).prod := by
  induction lst with
  | nil => simp
  | cons a l ih =>
    rw [List.map_cons, List.prod_cons]
    refine mul_nonneg ?_ ih
    exact (show Even (a.2 - a.2 % 2) from ⟨a.2 / 2, by omega⟩).pow_nonneg _

theorem even_part_ne_zero (ev : P → K) (lst : List (P × ℕ)) (h : ∀ qd ∈ lst, 2 ≤ qd.2 → ev qd.1 ≠ 0) :
    (lst.map fun qd => ev qd.1 ^ (qd.2 - qd.2 % 2)).prod ≠ 0 := by
  induction lst with
  | nil => simp
  | cons a l ih =>
    rw [List.map_cons, List.prod_cons]
    refine mul_ne_zero ?_ (ih fun qd hq => h qd (List.mem_cons_of_mem _ hq))
    by_cases h2 : 2 ≤ a.2
    · exact pow_ne_zero _ (h a (List.mem_cons_self ..) h2)
    · have : a.2 - a.2 % 2 = 0 := by omega
      rw [this, pow_zero]; exact one_ne_zero

theorem val_eq (ev : P → K) (c : K) (hc : c ≠ 0) (lst : List (P × ℕ)) : factoredVal ev c lst =
    signedVal ev (stdIneqPoly c lst) * ((stdIneqExpr c lst).1 * ((stdIneqExpr c lst).2.map fun qd => ev qd.1 ^ qd.2).prod) ∧ 0 < (stdIneqExpr c lst).1 := by
  have e1 : ((stdIneqExpr c lst).2.map fun qd => ev qd.1 ^ qd.2) = lst.map fun qd => ev qd.1 ^ (qd.2 - qd.2 % 2) := by
    simp [stdIneqExpr, List.map_map, Function.comp_def]
  have e2 : signedVal ev (stdIneqPoly c lst) = ((if 0 < c then (1 : ℤ) else -1 : ℤ) : K) * ((lst.filter fun qd => qd.2 % 2 == 1).map fun qd => ev qd.1).prod := by
    simp [signedVal, stdIneqPoly, List.map_map, Function.comp_def]
  rw [e1, e2]
  unfold factoredVal
  rw [prod_split]
  by_cases h : 0 < c
  · have h1 : (stdIneqExpr c lst).1 = c := if_pos h
    rw [h1, if_pos h]
    exact ⟨by push_cast; ring, h⟩
  · have h1 : (stdIneqExpr c lst).1 = -c := if_neg h
    rw [h1, if_neg h]
    exact ⟨by push_cast; ring, by have := lt_of_le_of_ne (not_lt.1 h) hc; linarith⟩

/-- **C34.** A point that satisfies the normalised inequality satisfies the user's inequality. -/
theorem stdIneq_imp (ev : P → K) (c : K) (hc : c ≠ 0) (lst : List (P × ℕ)) (h : 0 ≤ signedVal ev (stdIneqPoly c lst)) :
    0 ≤ factoredVal ev c lst := by
  obtain ⟨e, hk⟩ := val_eq ev c hc lst
  rw [e]
  refine mul_nonneg h (mul_nonneg hk.le ?_)
  have := even_part_nonneg ev lst
  simpa [stdIneqExpr, List.map_map, Function.comp_def] using this

/-- **C34, partial.** The user's inequality gives the normalised one, and the expression used in its place has the same value, at every
point where the factors with multiplicity two or more do not vanish.  At the zeros of these factors both statements fail
(`stdIneq_wrong`). -/
theorem stdIneq_value_partial (ev : P → K) (c : K) (hc : c ≠ 0) (lst : List (P × ℕ)) (hz : ∀ qd ∈ lst, 2 ≤ qd.2 → ev qd.1 ≠ 0) :
    dividedVal ev (factoredVal ev c lst) (stdIneqExpr c lst) = signedVal ev (stdIneqPoly c lst) ∧
    (0 ≤ signedVal ev (stdIneqPoly c lst) ↔ 0 ≤ factoredVal ev c lst) := by
  obtain ⟨e, hk⟩ := val_eq ev c hc lst
  have hne := even_part_ne_zero ev lst hz
  have e1 : ((stdIneqExpr c lst).2.map fun qd => ev qd.1 ^ qd.2) = lst.map fun qd => ev qd.1 ^ (qd.2 - qd.2 % 2) := by
    simp [stdIneqExpr, List.map_map, Function.comp_def]
  have hpos : 0 < (lst.map fun qd => ev qd.1 ^ (qd.2 - qd.2 % 2)).prod := lt_of_le_of_ne (even_part_nonneg ev lst) (Ne.symm hne)
  constructor
  · unfold dividedVal
    rw [e, e1]
    have := hk.ne'
    field_simp
  · rw [e, e1]
    constructor
    · intro h; exact mul_nonneg h (mul_pos hk hpos).le
    · intro h
      exact nonneg_of_mul_nonneg_left h (mul_pos hk hpos)

/-- **C34 is violated.** `x**2 * z >= 0` is replaced by `z >= 0`, but at `x = 0, z = -1` only the first holds: facts proved from the
normalised constraints need not hold on the user's feasible set. -/
theorem stdIneq_wrong : ∃ (ev : ℕ → ℚ) (lst : List (ℕ × ℕ)), 0 ≤ factoredVal ev 1 lst ∧ ¬ 0 ≤ signedVal ev (stdIneqPoly (1 : ℚ) lst) :=
  ⟨fun i => if i = 0 then 0 else -1, [(0, 2), (1, 1)], by decide +kernel, by decide +kernel⟩

/-! ### Normalised equalities -/

/-- **C34.** The normalised equality has the same solutions as the user's equality. -/
theorem stdEq_iff (ev : P → K) (c : K) (hc : c ≠ 0) (lst : List (P × ℕ)) (hd : ∀ qd ∈ lst, 1 ≤ qd.2) :
    factoredVal ev c lst = 0 ↔ signedVal ev (stdEqPoly c lst) = 0 := by
  have h1 : (((if 0 < c then (1 : ℤ) else -1 : ℤ)) : K) ≠ 0 := by
    by_cases h : 0 < c
    · rw [if_pos h]; norm_num
    · rw [if_neg h]; norm_num
  unfold factoredVal signedVal stdEqPoly
  rw [mul_eq_zero, mul_eq_zero, or_iff_right hc, or_iff_right h1]
  clear h1
  simp only
  induction lst with
  | nil => simp
  | cons a l ih =>
    simp only [List.map_cons, List.prod_cons, mul_eq_zero]
    have hr := ih fun qd hq => hd qd (List.mem_cons_of_mem _ hq)
    exact or_congr (pow_eq_zero_iff (by have := hd a (List.mem_cons_self ..); omega)) hr

theorem le_foldl_max (l : List ℕ) : ∀ a : ℕ, a ≤ l.foldl max a ∧ ∀ x ∈ l, x ≤ l.foldl max a := by
  induction l with
  | nil => intro a; simp
  | cons y l ih =>
    intro a
    obtain ⟨h1, h2⟩ := ih (max a y)
    rw [List.foldl_cons]
    refine ⟨le_trans (le_max_left ..) h1, ?_⟩
    intro x hx
    rcases List.mem_cons.1 hx with rfl | hx
    · exact le_trans (le_max_right ..) h1
    · exact h2 x hx

/-- The value under the root: `e / c * prod(q**(max_d - d))`. -/
def underRoot (ev : P → K) (e : K) (r : K × List (P × ℕ) × ℕ × Bool) : K := e / r.1 * (r.2.1.map fun qd => ev qd.1 ^ qd.2).prod

/-- **C34, partial.** The expression used for the normalised equality has the value of the normalised polynomial, when no root is taken, or
when the product of the factors is nonnegative (`root` is the principal root; `stdEq_root_wrong` shows that the value is wrong otherwise). -/
theorem stdEq_value_partial (ev : P → K) (c : K) (hc : c ≠ 0) (lst : List (P × ℕ)) (r : K × List (P × ℕ) × ℕ × Bool) (h : stdEqExpr c lst = .ok r)
    (root : K) (hroot : root ^ r.2.2.1 = underRoot ev (factoredVal ev c lst) r)
    (hok : r.2.2.1 = 1 ∨ (0 ≤ root ∧ 0 ≤ (lst.map fun qd => ev qd.1).prod)) :
    (if r.2.2.2 then -root else root) = signedVal ev (stdEqPoly c lst) := by
  unfold stdEqExpr maxMult at h
  by_cases hl : lst.isEmpty
  · rw [if_pos hl] at h; cases h
  rw [if_neg hl] at h
  have h := (Except.ok.inj h).symm
  subst h
  set m := (lst.map Prod.snd).foldl max 1 with hm
  obtain ⟨hm1, hm2⟩ := le_foldl_max (lst.map Prod.snd) 1
  rw [← hm] at hm1 hm2
  simp only [underRoot, factoredVal, List.map_map, Function.comp_def] at hroot hok ⊢
  have hprod : ∀ l : List (P × ℕ), (∀ qd ∈ l, qd.2 ≤ m) → (l.map fun qd => ev qd.1 ^ qd.2).prod * (l.map fun qd => ev qd.1 ^ (m - qd.2)).prod = (l.map fun qd => ev qd.1).prod ^ m := by
    intro l
    induction l with
    | nil => intro _; simp
    | cons a l ih =>
      intro hq
      have hr := ih fun qd h => hq qd (List.mem_cons_of_mem _ h)
      simp only [List.map_cons, List.prod_cons, mul_pow, ← hr]
      have : ev a.1 ^ m = ev a.1 ^ a.2 * ev a.1 ^ (m - a.2) := by
        rw [← pow_add]; congr 1; have := hq a (List.mem_cons_self ..); omega
      rw [this]; ring
  have hp := hprod lst fun qd hq => hm2 _ (List.mem_map_of_mem hq)
  rw [mul_div_cancel_left₀ _ hc, hp] at hroot
  have hre : root = (lst.map fun qd => ev qd.1).prod := by
    rcases hok with h1 | ⟨h1, h2⟩
    · rw [h1, pow_one, pow_one] at hroot; exact hroot
    · exact (pow_left_inj₀ h1 h2 (by omega)).1 hroot
  have hs : signedVal ev (stdEqPoly c lst) = ((if 0 < c then (1 : ℤ) else -1 : ℤ) : K) * root := by
    rw [hre]; simp [signedVal, stdEqPoly, List.map_map, Function.comp_def]
  rw [hs]
  by_cases h : 0 < c
  · rw [if_pos h, if_neg (by simpa using h.le)]; push_cast; ring
  · have h' : c < 0 := lt_of_le_of_ne (not_lt.1 h) hc
    rw [if_neg h, if_pos (by simpa using h')]; push_cast; ring

/-- **C34 is violated.** For the equality `x**2 = 0` the expression becomes `sqrt(x**2)`, which is `1` at `x = -1`, where the
normalised polynomial `x` is `-1`. -/
theorem stdEq_root_wrong : ∃ (ev : ℕ → ℚ) (lst : List (ℕ × ℕ)) (r : ℚ × List (ℕ × ℕ) × ℕ × Bool), stdEqExpr 1 lst = .ok r ∧
    ∃ root : ℚ, 0 ≤ root ∧ root ^ r.2.2.1 = underRoot ev (factoredVal ev 1 lst) r ∧ r.2.2.2 = false ∧ root ≠ signedVal ev (stdEqPoly (1 : ℚ) lst) :=
  ⟨fun _ => -1, [(0, 2)], (1, [(0, 0)], 2, false), by decide +kernel, 1, by decide +kernel, by decide +kernel, rfl, by decide +kernel⟩

/-- **C34 is violated.** An equality constraint that is a nonzero constant raises a `TypeError` (`max(1)`). -/
theorem stdEq_constant_raises (c : K) : stdEqExpr (P := P) c [] = .error .typeError := rfl

example : ∃ (ev : ℕ → ℚ) (lst : List (ℕ × ℕ)), (∀ qd ∈ lst, 2 ≤ qd.2 → ev qd.1 ≠ 0) ∧ stdIneqPoly (-3 : ℚ) lst = (-1, [1]) ∧
    factoredVal ev (-3) lst = -60 ∧ signedVal ev (stdIneqPoly (-3 : ℚ) lst) = -5 :=
  ⟨fun i => if i = 0 then 2 else 5, [(0, 2), (1, 1)], by decide +kernel, by decide +kernel, by decide +kernel, by decide +kernel⟩

/-! ### Homogenisation -/

theorem evalMonom_append (a : List ℕ) (x : List K) (e : ℕ) (t : K) (h : a.length = x.length) :
    evalMonom (a ++ [e]) (x ++ [t]) = evalMonom a x * t ^ e := by
  induction a generalizing x with
  | nil =>
    have : x = [] := by simpa using h.symm
    subst this; simp [evalMonom]
  | cons b a ih =>
    cases x with
    | nil => simp at h
    | cons y x =>
      have := ih x (by simpa using h)
      simp only [evalMonom, List.cons_append, List.zipWith_cons_cons, List.prod_cons] at this ⊢
      rw [this]; ring

theorem evalMonom_scale (t : K) : ∀ (a : List ℕ) (x : List K), a.length = x.length → evalMonom a (x.map (t * ·)) = t ^ a.sum * evalMonom a x
  | [], [], _ => by simp [evalMonom]
  | b :: a, y :: x, h => by
      have ih := evalMonom_scale t a x (by simpa using h)
      simp only [evalMonom, List.map_cons, List.zipWith_cons_cons, List.prod_cons, List.sum_cons] at ih ⊢
      rw [ih, mul_pow, pow_add]; ring
  | [], _ :: _, h => by simp at h
  | _ :: _, [], h => by simp at h

/-- **C35.** Substituting `t = 1` in the homogenised polynomial gives back the polynomial. -/
theorem homogenizeNew_one (n : ℕ) (p : Terms K) (x : List K) (hx : x.length = n) (hp : Arity n p) :
    evalDict (homogenizeNew n p) (x ++ [1]) = evalDict p x := by
  unfold homogenizeNew
  set d := totalDegree n p
  clear_value d
  induction p with
  | nil => rfl
  | cons a p ih =>
    rw [List.map_cons, evalDict_cons, evalDict_cons, ih fun t ht => hp t (List.mem_cons_of_mem _ ht),
      evalMonom_append _ _ _ _ (by rw [hp a (List.mem_cons_self ..), hx]), one_pow, mul_one]

/-- **C35.** The value of the homogenised polynomial at `(t*x, t)` is `t**d` times the value of the polynomial at `x`. -/
theorem homogenizeNew_scale (n : ℕ) (p : Terms K) (x : List K) (t : K) (hx : x.length = n) (hp : Arity n p) :
    evalDict (homogenizeNew n p) (x.map (t * ·) ++ [t]) = t ^ totalDegree n p * evalDict p x := by
  have hle : ∀ s ∈ p, s.1.sum ≤ totalDegree n p := fun s hs => sum_le_totalDegree n p s hs
  unfold homogenizeNew
  set d := totalDegree n p
  clear_value d
  induction p with
  | nil => simp [evalDict_nil]
  | cons a p ih =>
    rw [List.map_cons, evalDict_cons, evalDict_cons, ih (fun t ht => hp t (List.mem_cons_of_mem _ ht)) (fun t ht => hle t (List.mem_cons_of_mem _ ht)),
      evalMonom_append _ _ _ _ (by rw [hp a (List.mem_cons_self ..), List.length_map, hx]), evalMonom_scale _ _ _ (by rw [hp a (List.mem_cons_self ..), hx])]
    have : t ^ d = t ^ a.1.sum * t ^ (d - a.1.sum) := by
      rw [← pow_add]; congr 1; have := hle a (List.mem_cons_self ..); omega
    rw [this]; ring

/-- **C35.** The homogenised polynomial is homogeneous of the same degree, in one more variable, and is a proper polynomial. -/
theorem homogenizeNew_hom (n : ℕ) (p : Terms K) (hp : IsPoly n p) :
    HomDeg (totalDegree n p) (homogenizeNew n p) ∧ IsPoly (n + 1) (homogenizeNew n p) := by
  refine ⟨?_, ?_, ?_, ?_⟩
  · intro t ht
    obtain ⟨s, hs, rfl⟩ := List.mem_map.1 ht
    have : s.1.sum ≤ totalDegree n p := sum_le_totalDegree n p s hs
    simp only [List.sum_append, List.sum_cons, List.sum_nil]; omega
  · have : dkeys (homogenizeNew n p) = (dkeys p).map fun m => m ++ [totalDegree n p - m.sum] := by
      simp [dkeys, homogenizeNew, List.map_map, Function.comp_def]
    rw [this]
    refine (List.nodup_map_iff_inj_on hp.nodup).2 ?_
    intro a _ b _ h
    exact (List.append_inj' h rfl).1
  · intro t ht
    obtain ⟨s, hs, rfl⟩ := List.mem_map.1 ht
    simp [hp.length s hs]
  · intro t ht
    obtain ⟨s, hs, rfl⟩ := List.mem_map.1 ht
    exact hp.ne_zero s hs

theorem isHomogeneous_iff (p : Terms K) : isHomogeneous p = true ↔ ∃ d, HomDeg d p := by
  cases p with
  | nil => exact ⟨fun _ => ⟨0, by intro t ht; simp at ht⟩, fun _ => rfl⟩
  | cons a p =>
    unfold isHomogeneous
    rw [List.all_eq_true]
    constructor
    · intro h
      refine ⟨a.1.sum, ?_⟩
      intro t ht
      rcases List.mem_cons.1 ht with rfl | ht
      · rfl
      · simpa using h t ht
    · rintro ⟨d, hd⟩ t ht
      rw [hd t (List.mem_cons_of_mem _ ht), hd a (List.mem_cons_self ..)]; simp

/-- **C35.** `homogenize(poly)` always returns a homogeneous polynomial; it adds a variable exactly when the input is not
homogeneous. -/
theorem homogenize_spec (n : ℕ) (p : Terms K) (hp : IsPoly n p) :
    (∃ d, HomDeg d (homogenize n p).1) ∧ ((homogenize n p).2 = true ↔ ¬ ∃ d, HomDeg d p) ∧
    ((homogenize n p).2 = false → (homogenize n p).1 = p) ∧
    ((homogenize n p).2 = true → ∀ x : List K, x.length = n → evalDict (homogenize n p).1 (x ++ [1]) = evalDict p x) := by
  unfold homogenize
  by_cases h : isHomogeneous p = true
  · rw [if_pos h]
    exact ⟨(isHomogeneous_iff p).1 h, ⟨fun hh => (by cases hh), fun hh => absurd ((isHomogeneous_iff p).1 h) hh⟩, fun _ => rfl, fun hh => (by cases hh)⟩
  · rw [if_neg h]
    exact ⟨⟨_, (homogenizeNew_hom n p hp).1⟩, ⟨fun _ hh => h ((isHomogeneous_iff p).2 hh), fun _ => rfl⟩, fun hh => (by cases hh),
      fun _ x hx => homogenizeNew_one n p x hx hp.length⟩

/-- **C35.** For `t > 0` the homogenised polynomial has the sign of the polynomial at `x / t`: nothing is lost or gained by
homogenising an inequality or an equality. -/
theorem homogenizeNew_sign (n : ℕ) (p : Terms K) (x : List K) (t : K) (ht : 0 < t) (hx : x.length = n) (hp : Arity n p) :
    (0 ≤ evalDict (homogenizeNew n p) (x ++ [t]) ↔ 0 ≤ evalDict p (x.map (· / t))) ∧
    (evalDict (homogenizeNew n p) (x ++ [t]) = 0 ↔ evalDict p (x.map (· / t)) = 0) := by
  have e : x ++ [t] = (x.map (· / t)).map (t * ·) ++ [t] := by
    rw [List.map_map]
    congr 1
    conv_lhs => rw [← List.map_id x]
    apply List.map_congr_left
    intro a _
    simp only [Function.comp, id]
    field_simp
  rw [e, homogenizeNew_scale n p _ t (by simp [hx]) hp]
  have hpow : 0 < t ^ totalDegree n p := pow_pos ht _
  exact ⟨mul_nonneg_iff_of_pos_left hpow, by rw [mul_eq_zero, or_iff_right hpow.ne']⟩

/-- **C35.** An identity `f * multiplier = numerator` for the homogenised polynomial gives, with `t = 1`, the identity for the original
polynomial. -/
theorem dehomogenize_identity (n : ℕ) (p : Terms K) (hp : Arity n p) (mult num : List K → K)
    (h : ∀ y : List K, y.length = n + 1 → evalDict (homogenizeNew n p) y * mult y = num y) (x : List K) (hx : x.length = n) :
    evalDict p x * mult (x ++ [1]) = num (x ++ [1]) := by
  rw [← homogenizeNew_one n p x hx hp]
  exact h _ (by simp [hx])

/-- **C35.** When every element of the group fixes the homogenising variable, dropping that variable from the cyclic sum does not change
the arguments: `f` is evaluated at the same permuted points. -/
theorem deflate_point {α : Type*} [Inhabited α] (n : ℕ) (g : List ℕ) (hg : g.Perm (List.range (n + 1))) (hfix : g.getD n 0 = n) (x : List α) (hx : x.length = n) (t : α) :
    (deflate g).Perm (List.range n) ∧ papply g (x ++ [t]) = papply (deflate g) x ++ [t] := by
  have hl : g.length = n + 1 := by simpa using hg.length_eq
  have hne : g ≠ [] := by intro h; rw [h] at hl; simp at hl
  have hlast : g.getLast hne = n := by
    rw [List.getLast_eq_getElem]
    rw [List.getD_eq_getElem?_getD, List.getElem?_eq_getElem (by omega)] at hfix
    simpa [hl] using hfix
  have hsplit : g = deflate g ++ [n] := by
    have := List.dropLast_append_getLast hne
    rw [hlast] at this
    exact this.symm
  have hp : (deflate g).Perm (List.range n) := by
    rw [hsplit, List.range_succ] at hg
    exact (List.perm_append_right_iff [n]).1 hg
  refine ⟨hp, ?_⟩
  have : papply g (x ++ [t]) = papply (deflate g ++ [n]) (x ++ [t]) := by rw [← hsplit]
  rw [this]
  unfold papply
  rw [List.map_append]
  congr 1
  · apply List.map_congr_left
    intro i hi
    have : i < x.length := by
      have := hp.mem_iff.1 hi
      rw [hx]; simpa using this
    simp [List.getD_eq_getElem?_getD, List.getElem?_append_left this]
  · simp [List.getD_eq_getElem?_getD, hx]

example : papply [1, 2, 0, 3] [5, 6, 7, 1] = papply (deflate [1, 2, 0, 3]) [5, 6, 7] ++ [1] := by decide

/-! ### The whole preparation -/

variable {E : Type*}

/-- All the constraints of a problem hold at `x`. -/
def Feasible (P : Problem K E) (x : List K) : Prop := (∀ c ∈ P.ineqs, 0 ≤ evalDict c.1 x) ∧ ∀ c ∈ P.eqs, evalDict c.1 x = 0

/-- The point of the prepared problem that corresponds to `x`. -/
def liftPoint (added : Bool) (x : List K) : List K := if added then x ++ [1] else x

theorem mem_dset {κ ν : Type*} [DecidableEq κ] (d : List (κ × ν)) (k : κ) (v : ν) (e : κ × ν) (h : e ∈ dset d k v) : e ∈ d ∨ e = (k, v) := by
  induction d with
  | nil => right; simpa [dset] using h
  | cons a d ih =>
    obtain ⟨k', v'⟩ := a
    by_cases hk : k' = k
    · rw [dset, if_pos hk] at h
      rcases List.mem_cons.1 h with h | h
      · exact Or.inr h
      · exact Or.inl (List.mem_cons_of_mem _ h)
    · rw [dset, if_neg hk] at h
      rcases List.mem_cons.1 h with h | h
      · left; rw [h]; exact List.mem_cons_self ..
      · rcases ih h with h | h
        · exact Or.inl (List.mem_cons_of_mem _ h)
        · exact Or.inr h

theorem mem_dictOf {κ ν : Type*} [DecidableEq κ] (l : List (κ × ν)) (e : κ × ν) (h : e ∈ dictOf l) : e ∈ l := by
  have : ∀ (l d : List (κ × ν)), e ∈ l.foldl (fun d e => dset d e.1 e.2) d → e ∈ d ∨ e ∈ l := by
    intro l
    induction l with
    | nil => intro d h; exact Or.inl h
    | cons a l ih =>
      intro d h
      rw [List.foldl_cons] at h
      rcases ih _ h with h | h
      · rcases mem_dset _ _ _ _ h with h | h
        · exact Or.inl h
        · right; rw [h]; exact List.mem_cons_self ..
      · exact Or.inr (List.mem_cons_of_mem _ h)
  rcases this l [] h with h | h
  · simp at h
  · exact h

theorem evalDict_varPoly (x : List K) (t : K) : evalDict (varPoly (x.length + 1) x.length) (x ++ [t]) = t := by
  have e : ((List.range (x.length + 1)).map fun j => if j = x.length then 1 else 0) = List.replicate x.length 0 ++ [1] := by
    rw [List.range_succ, List.map_append, List.map_singleton, if_pos rfl]
    congr 1
    apply List.ext_getElem (by simp)
    intro i h1 h2
    simp only [List.length_map, List.length_range] at h1
    simp [Nat.ne_of_lt h1]
  unfold varPoly
  rw [e, evalDict_cons, evalDict_nil, evalMonom_append _ _ _ _ (by simp), evalMonom_zero]; ring

/-- The problem before normalising the constraints: the value of the polynomial and the constraints are unchanged. -/
theorem homogenizeProblem_feasible (tE : E) (P : Problem K E) (x : List K) (hx : x.length = P.n) (hp : Arity P.n P.poly)
    (hi : ∀ c ∈ P.ineqs, Arity P.n c.1) (he : ∀ c ∈ P.eqs, Arity P.n c.1) :
    (liftPoint (homogenizeProblem tE P).2 x).length = (homogenizeProblem tE P).1.n ∧
    evalDict (homogenizeProblem tE P).1.poly (liftPoint (homogenizeProblem tE P).2 x) = evalDict P.poly x ∧
    (Feasible P x → Feasible (homogenizeProblem tE P).1 (liftPoint (homogenizeProblem tE P).2 x)) ∧
    (∀ c ∈ (homogenizeProblem tE P).1.ineqs, Arity (homogenizeProblem tE P).1.n c.1) ∧ ∀ c ∈ (homogenizeProblem tE P).1.eqs, Arity (homogenizeProblem tE P).1.n c.1 := by
  have har : ∀ p : Terms K, Arity P.n p → Arity (P.n + 1) (homogenizeNew P.n p) := by
    intro p hp t ht
    obtain ⟨s, hs, rfl⟩ := List.mem_map.1 ht
    simp [hp s hs]
  unfold homogenizeProblem
  by_cases h : (isHomogeneous P.poly && P.ineqs.all (fun c => isHomogeneous c.1) && P.eqs.all (fun c => isHomogeneous c.1)) = true
  · rw [if_pos h]; exact ⟨hx, rfl, id, hi, he⟩
  · rw [if_neg h]
    simp only [liftPoint, if_true]
    refine ⟨by simp [hx], homogenizeNew_one _ _ _ hx hp, ?_, ?_, ?_⟩
    · rintro ⟨h1, h2⟩
      refine ⟨?_, ?_⟩
      · intro c hc
        rcases mem_dset _ _ _ _ hc with hc | rfl
        · obtain ⟨c0, hc0, rfl⟩ := List.mem_map.1 hc
          simp only
          rw [homogenizeNew_one _ _ _ hx (hi c0 hc0)]; exact h1 c0 hc0
        · simp only
          rw [← hx, evalDict_varPoly]; exact zero_le_one
      · intro c hc
        obtain ⟨c0, hc0, rfl⟩ := List.mem_map.1 hc
        simp only
        rw [homogenizeNew_one _ _ _ hx (he c0 hc0)]; exact h2 c0 hc0
    · intro c hc
      rcases mem_dset _ _ _ _ hc with hc | rfl
      · obtain ⟨c0, hc0, rfl⟩ := List.mem_map.1 hc
        exact har _ (hi c0 hc0)
      · intro t ht
        simp only [varPoly, List.mem_singleton] at ht
        rw [ht]; simp
    · intro c hc
      obtain ⟨c0, hc0, rfl⟩ := List.mem_map.1 hc
      exact har _ (he c0 hc0)

/-- What is assumed of SymPy's `sqf_list` on a nonzero polynomial, at a point `y`: the factorisation is correct. -/
structure SqfOk (n : ℕ) (sqf : Terms K → K × List (Terms K × ℕ)) (p : Terms K) (y : List K) : Prop where
  ne : (sqf p).1 ≠ 0
  arity : ∀ qd ∈ (sqf p).2, Arity n qd.1
  mult : ∀ qd ∈ (sqf p).2, 1 ≤ qd.2
  val : evalDict p y = factoredVal (fun q => evalDict q y) (sqf p).1 (sqf p).2

theorem mapExcept_ok {α β : Type*} (f : α → Except PyErr β) : ∀ (l : List α) (r : List β), mapExcept f l = .ok r → ∀ b ∈ r, ∃ a ∈ l, f a = .ok b
  | [], r, h, b, hb => by
      have := Except.ok.inj h
      rw [← this] at hb; simp at hb
  | a :: l, r, h, b, hb => by
      unfold mapExcept at h
      rcases hfa : f a with e | b0
      · rw [hfa] at h; cases h
      · rw [hfa] at h
        rcases hl : mapExcept f l with e | bs
        · rw [hl] at h; cases h
        · rw [hl] at h
          have := Except.ok.inj h
          rw [← this] at hb
          rcases List.mem_cons.1 hb with rfl | hb
          · exact ⟨a, List.mem_cons_self .., hfa⟩
          · obtain ⟨a', ha', hf⟩ := mapExcept_ok f l bs hl b hb
            exact ⟨a', List.mem_cons_of_mem _ ha', hf⟩

/-- **C34/C35, partial.** The prepared problem keeps the value of the polynomial, and every constraint given to the solver holds at every
point that satisfies the user's constraints and where no factor of multiplicity two or more of an inequality vanishes.  Hence an
inequality proved from the prepared constraints holds for the user at these points.  (Without the condition on the zeros the statement is
false: `stdIneq_wrong`.) -/
theorem sanitize_sound_partial (tE : E) (sqf : Terms K → K × List (Terms K × ℕ)) (P : Problem K E) (R : Problem K E × Bool) (hR : sanitize tE sqf P = .ok R)
    (x : List K) (hx : x.length = P.n) (hp : Arity P.n P.poly) (hi : ∀ c ∈ P.ineqs, Arity P.n c.1) (he : ∀ c ∈ P.eqs, Arity P.n c.1)
    (hsqf : ∀ c ∈ (homogenizeProblem tE P).1.ineqs ++ (homogenizeProblem tE P).1.eqs, c.1 ≠ [] → SqfOk R.1.n sqf c.1 (liftPoint R.2 x))
    (hz : ∀ c ∈ (homogenizeProblem tE P).1.ineqs, ∀ qd ∈ (sqf c.1).2, 2 ≤ qd.2 → evalDict qd.1 (liftPoint R.2 x) ≠ 0)
    (hf : Feasible P x) :
    evalDict R.1.poly (liftPoint R.2 x) = evalDict P.poly x ∧ Feasible R.1 (liftPoint R.2 x) := by
  obtain ⟨hlen, hpoly, hfeas, hai, hae⟩ := homogenizeProblem_feasible tE P x hx hp hi he
  unfold sanitize at hR
  set H := homogenizeProblem tE P with hH
  simp only at hR
  rcases hmap : mapExcept (stdEqItem H.1.n sqf) H.1.eqs with e | eqs
  · rw [hmap] at hR; cases hR
  · rw [hmap] at hR
    have hR := (Except.ok.inj hR).symm
    subst hR
    simp only at hsqf hz ⊢
    set y := liftPoint H.2 x with hy
    obtain ⟨hf1, hf2⟩ := hfeas hf
    have hfold : ∀ (r : ℤ × List (Terms K)), (∀ q ∈ r.2, Arity H.1.n q) → evalDict (r.2.foldl pmul (pconst H.1.n (r.1 : K))) y = signedVal (fun q => evalDict q y) r := by
      intro r hr
      rw [← hlen] at hr ⊢
      rw [(foldl_pmul y r.2 _ hr (arity_pconst _ _)).2, evalDict_pconst]; rfl
    refine ⟨hpoly, ?_, ?_⟩
    · intro c hc
      obtain ⟨c0, hc0, rfl⟩ := List.mem_map.1 (mem_dictOf _ _ (List.mem_filter.1 hc).1)
      simp only
      unfold stdIneqTerms
      by_cases hem : c0.1.isEmpty = true
      · rw [if_pos hem]
        exact hf1 c0 hc0
      · rw [if_neg hem]
        have hs := hsqf c0 (List.mem_append_left _ hc0) (by intro h; rw [h] at hem; simp at hem)
        rw [hfold]
        · rw [(stdIneq_value_partial _ _ hs.ne _ (hz c0 hc0)).2, ← hs.val]
          exact hf1 c0 hc0
        · intro q hq
          obtain ⟨qd, hqd, rfl⟩ := List.mem_map.1 hq
          exact hs.arity qd (List.mem_filter.1 hqd).1
    · intro c hc
      obtain ⟨c0, hc0, hst⟩ := mapExcept_ok _ _ _ hmap c (mem_dictOf _ _ (List.mem_filter.1 hc).1)
      unfold stdEqItem stdEqTerms at hst
      by_cases hem : c0.1.isEmpty = true
      · rw [if_pos hem] at hst
        have := Except.ok.inj hst
        rw [← this]
        exact hf2 c0 hc0
      · rw [if_neg hem] at hst
        have hs := hsqf c0 (List.mem_append_right _ hc0) (by intro h; rw [h] at hem; simp at hem)
        rcases hmm : maxMult (sqf c0.1).2 with e | m
        · rw [hmm] at hst; cases hst
        · rw [hmm] at hst
          have := Except.ok.inj hst
          rw [← this]
          simp only
          rw [hfold]
          · rw [← stdEq_iff _ _ hs.ne _ hs.mult, ← hs.val]
            exact hf2 c0 hc0
          · intro q hq
            obtain ⟨qd, hqd, rfl⟩ := List.mem_map.1 hq
            exact hs.arity qd hqd

/-- A problem with `x**2*z >= 0` on which the prepared constraint `z >= 0` fails at a feasible point. -/
example : ∃ (sqf : Terms ℚ → ℚ × List (Terms ℚ × ℕ)) (P R : Problem ℚ ℕ) (x : List ℚ), sanitize 9 sqf P = .ok (R, false) ∧
    (∀ c ∈ P.ineqs, 0 ≤ evalDict c.1 x) ∧ ¬ (∀ c ∈ R.ineqs, 0 ≤ evalDict c.1 x) :=
  ⟨fun _ => (1, [([([1, 0], 1)], 2), ([([0, 1], 1)], 1)]), ⟨2, [([0, 1], 1)], [([([2, 1], 1)], 5)], []⟩, ⟨2, [([0, 1], 1)], [([([0, 1], 1)], 5)], []⟩,
    [0, -1], by decide +kernel, by decide +kernel, by decide +kernel⟩

/-- `x - 1 >= 0` is homogenised to `x - t >= 0`, `t >= 0`. -/
example : ∃ R, sanitize 9 (fun p => (1, [(p, 1)])) (⟨1, [([2], (1 : ℚ)), ([0], -1)], [([([1], 1), ([0], -1)], 5)], []⟩ : Problem ℚ ℕ) = .ok (R, true) ∧
    R.poly = [([2, 0], 1), ([0, 2], -1)] ∧ R.ineqs = [([([1, 0], 1), ([0, 1], -1)], 5), ([([0, 1], 1)], 9)] :=
  ⟨⟨2, [([2, 0], 1), ([0, 2], -1)], [([([1, 0], 1), ([0, 1], -1)], 5), ([([0, 1], 1)], 9)], []⟩, by decide +kernel, rfl, rfl⟩

end Verif.Shared
