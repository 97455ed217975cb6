import Verif.Props.DenseParts
import Mathlib.Algebra.MvPolynomial.NoZeroDivisors

/-!
# Soundness of the solver of dense symmetric polynomials
-/

universe u

namespace Verif.Dense

open Verif.Ternary Verif.TermsPoly Verif.Acute
open Verif.Univariate (Sos Raw sosVal rawVal SosNonneg)

variable {K : Type*} [Field K] [LinearOrder K] [IsStrictOrderedRing K]

/-- The contracts of the calls: the general cyclic solver, polynomial division, and the univariate prover. -/
structure DenseExt.Sound (X : DenseExt K) : Prop where
  ternary : ∀ co C, Arity 3 co.coeffs → (∀ a b c, polyVal co.coeffs b c a = polyVal co.coeffs a b c) → X.ternary co = some C → Shows Octant (polyVal co.coeffs) C
  /-- Division returns polynomials with `p = q * g + r`. -/
  div_eq : ∀ n p g, Arity n p → Arity n g → IsPoly n (X.div p g).1 ∧ IsPoly n (X.div p g).2 ∧
    ∀ x : List K, x.length = n → Coeff.evalDict p x = Coeff.evalDict (X.div p g).1 x * Coeff.evalDict g x + Coeff.evalDict (X.div p g).2 x
  /-- The remainder of a multiple is zero. -/
  div_exact : ∀ n p g q, Arity n p → Arity n g → Arity n q → (∀ x : List K, x.length = n → Coeff.evalDict p x = Coeff.evalDict q x * Coeff.evalDict g x) → (X.div p g).2 = []
  /-- The remainder of a division by `(a - 1)^2` has degree at most one. -/
  div_rem : ∀ p, Arity 1 p → ∀ t ∈ (X.div p sq1).2, t.1 = [0] ∨ t.1 = [1]
  prove : ∀ s R, Arity 1 s → X.prove s = some R → (∀ t, rawVal R t = Coeff.evalDict s [t]) ∧ ∀ e ∈ R, SosNonneg e.2

theorem polyVal_scale {d : ℕ} {p : TP K} (hp : Arity 3 p) (hd : HomDeg d p) (s a b c : K) : polyVal p (s * a) (s * b) (s * c) = s ^ d * polyVal p a b c := by
  induction p with
  | nil => rw [polyVal_nil, polyVal_nil, mul_zero]
  | cons t p ih =>
    have h1 := hp t (List.mem_cons_self ..)
    have h2 := hd t (List.mem_cons_self ..)
    have ih' := ih (fun t ht => hp t (List.mem_cons_of_mem _ ht)) (fun t ht => hd t (List.mem_cons_of_mem _ ht))
    obtain ⟨m, v⟩ := t
    obtain ⟨i, j, k, rfl⟩ := List.length_eq_three.1 h1
    rw [polyVal_cons3, polyVal_cons3, ih', ← h2]
    simp only [List.sum_cons, List.sum_nil, pow_add, mul_pow, pow_zero]
    ring

theorem discV_rot (a b c : K) : discV a b c = (a - b) ^ 2 * (b - c) ^ 2 * (c - a) ^ 2 := rfl

/-- Division of a symmetric homogeneous polynomial that vanishes on the axis by the discriminant: the quotient, whose remainder the code ignores, is
exact, symmetric and homogeneous. -/
theorem div_disc {X : DenseExt K} (hX : X.Sound) {e : ℕ} {G : TP K} (hG : GoodTerms (e + 6) G) (hv : ∀ t, polyVal G t 1 1 = 0) :
    GoodPoly e (X.div G discT).1 ∧ (X.div G discT).2 = [] ∧ ∀ a b c, polyVal G a b c = polyVal (X.div G discT).1 a b c * discV a b c := by
  have h2 : (2 : K) ≠ 0 := by norm_num
  have hax : ∀ x y : K, y ≠ 0 → Coeff.evalDict G [x, y, y] = 0 := by
    intro x y hy
    have := polyVal_scale hG.arity hG.hom y (x / y) 1 1
    rw [hv, mul_zero, mul_one, mul_div_cancel₀ _ hy] at this
    exact this
  obtain ⟨q', hq', hval⟩ := SymDiv.disc_dvd_terms h2 hG.arity (fun a b c => hG.sym.ab a b c) (fun a b c => hG.sym.bc a b c) hax
  have hdisc : ∀ a b c : K, Coeff.evalDict discT [a, b, c] = (a - b) ^ 2 * (b - c) ^ 2 * (c - a) ^ 2 := fun a b c => (polyVal_discT a b c).trans (discV_rot a b c)
  have hr : (X.div G discT).2 = [] := by
    refine hX.div_exact 3 G discT q' hG.arity arity_discT hq' fun x hx => ?_
    obtain ⟨a, b, c, rfl⟩ := List.length_eq_three.1 hx
    rw [hval, hdisc]
  obtain ⟨hq, _, hE⟩ := hX.div_eq 3 G discT hG.arity arity_discT
  rw [hr] at hE
  have hE' : ∀ x : List K, x.length = 3 → Coeff.evalDict G x = Coeff.evalDict (X.div G discT).1 x * Coeff.evalDict discT x := by
    intro x hx
    rw [hE x hx, evalDict_nil, add_zero]
  have hid : ∀ a b c, polyVal G a b c = polyVal (X.div G discT).1 a b c * discV a b c := by
    intro a b c
    rw [← polyVal_discT]
    exact hE' [a, b, c] rfl
  have hnz : ∃ x : List K, x.length = 3 ∧ Coeff.evalDict (discT : TP K) x ≠ 0 := by
    refine ⟨[0, 1, 2], rfl, ?_⟩
    rw [hdisc]
    norm_num
  refine ⟨⟨hq, ?_, homDeg_quot hG.arity hq arity_discT hE' hnz hG.hom homDeg_discT⟩, hr, hid⟩
  have cancel : ∀ σ : Equiv.Perm (Fin 3), (∀ x : Fin 3 → K, polyVal G (x (σ 0)) (x (σ 1)) (x (σ 2)) = polyVal G (x 0) (x 1) (x 2)) →
      (∀ x : Fin 3 → K, discV (x (σ 0)) (x (σ 1)) (x (σ 2)) = discV (x 0) (x 1) (x 2)) →
      ∀ x : Fin 3 → K, polyVal (X.div G discT).1 (x (σ 0)) (x (σ 1)) (x (σ 2)) = polyVal (X.div G discT).1 (x 0) (x 1) (x 2) := by
    intro σ h1 h3
    have ev : ∀ (p : TP K), Arity 3 p → ∀ x : Fin 3 → K, MvPolynomial.eval x (toMv 3 p) = polyVal p (x 0) (x 1) (x 2) := by
      intro p hp x
      rw [eval_toMv x hp]
      simp [List.ofFn_succ, polyVal]
    have hz : (MvPolynomial.rename σ (toMv 3 (X.div G discT).1) - toMv 3 (X.div G discT).1) * toMv 3 discT = 0 := by
      apply MvPolynomial.funext
      intro x
      rw [map_mul, map_sub, MvPolynomial.eval_rename, ev _ hq.arity, ev _ hq.arity, ev _ arity_discT, map_zero, polyVal_discT]
      simp only [Function.comp]
      have e1 := hid (x (σ 0)) (x (σ 1)) (x (σ 2))
      have e2 := hid (x 0) (x 1) (x 2)
      rw [h1 x, h3 x] at e1
      linear_combination e2 - e1
    have hd0 : toMv 3 (discT : TP K) ≠ 0 := by
      intro h
      have := ev discT arity_discT ![0, 1, 2]
      rw [h, map_zero, polyVal_discT] at this
      have this : (0 : K) = discV 0 1 2 := this
      rw [discV_rot] at this
      norm_num at this
    have hz := sub_eq_zero.1 ((mul_eq_zero.1 hz).resolve_right hd0)
    intro x
    have := congrArg (MvPolynomial.eval x) hz
    rw [MvPolynomial.eval_rename, ev _ hq.arity, ev _ hq.arity] at this
    exact this
  constructor
  · intro a b c
    have := cancel (Equiv.swap 0 1) (fun x => by simpa [Equiv.swap_apply_def] using hG.sym.ab (x 0) (x 1) (x 2))
      (fun x => by simp [Equiv.swap_apply_def, discV_rot]; ring) ![a, b, c]
    simpa [Equiv.swap_apply_def] using this
  · intro a b c
    have := cancel (Equiv.swap 1 2) (fun x => by simpa [Equiv.swap_apply_def] using hG.sym.bc (x 0) (x 1) (x 2))
      (fun x => by simp [Equiv.swap_apply_def, discV_rot]; ring) ![a, b, c]
    simpa [Equiv.swap_apply_def] using this

/-! ### The axis -/

theorem arity_symAxis (co : Coeff K) : Arity 1 (symAxis co) := by
  apply arity_collect
  intro t ht
  obtain ⟨u, _, rfl⟩ := List.mem_map.1 ht
  rfl

theorem symAxis_value {co : Coeff K} (hp : Arity 3 co.coeffs) (t : K) : Coeff.evalDict (symAxis co) [t] = polyVal co.coeffs t 1 1 := by
  unfold symAxis
  rw [evalDict_collect]
  unfold polyVal Coeff.evalDict
  rw [List.map_map]
  congr 1
  apply List.map_congr_left
  intro u hu
  obtain ⟨i, j, k, e⟩ := List.length_eq_three.1 (hp u hu)
  simp [Function.comp, e, Coeff.evalMonom]

theorem symAxis_exp {co : Coeff K} {d : ℕ} (hp : Arity 3 co.coeffs) (hd : HomDeg d co.coeffs) : ∀ t ∈ symAxis co, t.1.getD 0 0 ≤ d := by
  intro t ht
  obtain ⟨u, hu, e⟩ := mem_collect _ _ ht
  obtain ⟨v, hv, rfl⟩ := List.mem_map.1 hu
  rw [← e]
  have h3 := hd v hv
  obtain ⟨i, j, k, e'⟩ := List.length_eq_three.1 (hp v hv)
  rw [e'] at h3 ⊢
  simp at h3 ⊢
  omega

/-- The degree of an exact quotient in one variable. -/
theorem exp_quot {p q g : TP K} {D e : ℕ} (hp : Arity 1 p) (hq : IsPoly 1 q) (hg : IsPoly 1 g) (hge : ∃ v, ([e], v) ∈ g)
    (hv : ∀ x : List K, x.length = 1 → Coeff.evalDict p x = Coeff.evalDict q x * Coeff.evalDict g x) (hD : ∀ t ∈ p, t.1.getD 0 0 ≤ D) :
    ∀ t ∈ q, t.1.getD 0 0 + e ≤ D := by
  intro t ht
  have h1 : toMv 1 p = toMv 1 q * toMv 1 g := by
    apply MvPolynomial.funext
    intro x
    rw [map_mul, eval_toMv x hp, eval_toMv x hq.arity, eval_toMv x hg.arity, hv _ (by simp)]
  have hdeg : ∀ m : List ℕ, (expo 1 m).sum (fun _ e => e) = m.getD 0 0 := by
    intro m
    rw [Finsupp.sum_fintype _ _ (by simp)]
    simp [expo_apply]
  have hq0 := coeff_toMv_of_mem hq.arity hq.nodup ht
  have hqn : MvPolynomial.coeff (expo 1 t.1) (toMv 1 q) ≠ 0 := by rw [hq0]; exact hq.ne t ht
  obtain ⟨v, hv'⟩ := hge
  have hg0 := coeff_toMv_of_mem hg.arity hg.nodup hv'
  have hgn : MvPolynomial.coeff (expo 1 [e]) (toMv 1 g) ≠ 0 := by rw [hg0]; exact hg.ne _ hv'
  have l1 : t.1.getD 0 0 ≤ (toMv 1 q).totalDegree := by
    rw [← hdeg]
    exact MvPolynomial.le_totalDegree (MvPolynomial.mem_support_iff.2 hqn)
  have l2 : e ≤ (toMv 1 g).totalDegree := by
    have := MvPolynomial.le_totalDegree (MvPolynomial.mem_support_iff.2 hgn)
    rw [hdeg] at this
    exact this
  have l3 : (toMv 1 p).totalDegree ≤ D := by
    clear hv h1
    induction p with
    | nil => simp [toMv]
    | cons u p ih =>
      rw [toMv_cons]
      refine (MvPolynomial.totalDegree_add _ _).trans (max_le ?_ (ih (fun t ht => hp t (List.mem_cons_of_mem _ ht)) fun t ht => hD t (List.mem_cons_of_mem _ ht)))
      refine (MvPolynomial.totalDegree_monomial_le _ _).trans ?_
      have := hdeg u.1
      exact this.le.trans (hD u (List.mem_cons_self ..))
  rw [h1, MvPolynomial.totalDegree_mul_of_isDomain] at l3
  · omega
  · intro h
    rw [h] at hqn
    simp at hqn
  · intro h
    rw [h] at hgn
    simp at hgn

theorem isPoly_sq1 : IsPoly 1 (sq1 : TP K) := by
  refine ⟨?_, by simp [sq1, dkeys], ?_⟩
  all_goals
    intro t ht
    simp only [sq1, List.mem_cons, List.not_mem_nil, or_false] at ht
    rcases ht with rfl | rfl | rfl <;> simp

theorem isPoly_sq2 : IsPoly 1 (sq2 : TP K) := by
  refine ⟨?_, by simp [sq2, dkeys], ?_⟩
  all_goals
    intro t ht
    simp only [sq2, List.mem_cons, List.not_mem_nil, or_false] at ht
    rcases ht with rfl | rfl | rfl | rfl | rfl <;> simp

theorem sq1_value (t : K) : Coeff.evalDict (sq1 : TP K) [t] = (t - 1) ^ 2 := by
  simp only [sq1, evalDict_cons, evalDict_nil, Coeff.evalMonom, List.zipWith_cons_cons, List.zipWith_nil_right, List.prod_cons, List.prod_nil]
  ring

theorem sq2_value (t : K) : Coeff.evalDict (sq2 : TP K) [t] = (t - 1) ^ 4 := by
  simp only [sq2, evalDict_cons, evalDict_nil, Coeff.evalMonom, List.zipWith_cons_cons, List.zipWith_nil_right, List.prod_cons, List.prod_nil]
  ring

theorem div_axis {X : DenseExt K} (hX : X.Sound) {s : TP K} (hs : Arity 1 s) {D : ℕ} (hD : ∀ t ∈ s, t.1.getD 0 0 ≤ D) (h : (X.div s sq1).2 = []) :
    IsPoly 1 (X.div s sq1).1 ∧ (∀ t, Coeff.evalDict s [t] = Coeff.evalDict (X.div s sq1).1 [t] * (t - 1) ^ 2) ∧ ∀ t ∈ (X.div s sq1).1, t.1.getD 0 0 + 2 ≤ D := by
  obtain ⟨hq, _, hE⟩ := hX.div_eq 1 s sq1 hs isPoly_sq1.arity
  rw [h] at hE
  have hE' : ∀ x : List K, x.length = 1 → Coeff.evalDict s x = Coeff.evalDict (X.div s sq1).1 x * Coeff.evalDict sq1 x := fun x hx => by
    rw [hE x hx, evalDict_nil, add_zero]
  refine ⟨hq, fun t => by rw [hE' [t] rfl, sq1_value], exp_quot hs hq isPoly_sq1 ⟨1, by simp [sq1]⟩ hE' hD⟩

theorem div_axis4 {X : DenseExt K} (hX : X.Sound) {s : TP K} (hs : Arity 1 s) {D : ℕ} (hD : ∀ t ∈ s, t.1.getD 0 0 ≤ D) (h : (X.div s sq2).2 = []) :
    IsPoly 1 (X.div s sq2).1 ∧ (∀ t, Coeff.evalDict s [t] = Coeff.evalDict (X.div s sq2).1 [t] * (t - 1) ^ 4) ∧ ∀ t ∈ (X.div s sq2).1, t.1.getD 0 0 + 4 ≤ D := by
  obtain ⟨hq, _, hE⟩ := hX.div_eq 1 s sq2 hs isPoly_sq2.arity
  rw [h] at hE
  have hE' : ∀ x : List K, x.length = 1 → Coeff.evalDict s x = Coeff.evalDict (X.div s sq2).1 x * Coeff.evalDict sq2 x := fun x hx => by
    rw [hE x hx, evalDict_nil, add_zero]
  refine ⟨hq, fun t => by rw [hE' [t] rfl, sq2_value], exp_quot hs hq isPoly_sq2 ⟨1, by simp [sq2]⟩ hE' hD⟩

/-! ### The lift -/

theorem arity_mulT : Arity 3 (mulT : TP K) := arity_pmul (arity_cycT (arity_pmul arity_abT arity_abT)) (arity_pconst 3 _)

theorem homDeg_mulT : HomDeg 2 (mulT : TP K) :=
  homDeg_pmul (arity_cycT (arity_pmul arity_abT arity_abT)) (arity_pconst 3 _)
    (homDeg_cycT (arity_pmul arity_abT arity_abT) (homDeg_pmul arity_abT arity_abT homDeg_abT homDeg_abT)) (homDeg_pconst 3 _)

theorem polyVal_mulT (a b c : K) : polyVal mulT a b c = ((a - b) ^ 2 + (b - c) ^ 2 + (c - a) ^ 2) / 2 := by
  unfold mulT
  rw [polyVal_pmul (arity_cycT (arity_pmul arity_abT arity_abT)) (arity_pconst 3 _), polyVal_cycT (arity_pmul arity_abT arity_abT)]
  have : polyVal (pconst 3 (1 / 2 : K)) a b c = 1 / 2 := evalDict_pconst 3 _ _
  rw [this]
  simp only [cyc3, polyVal_pmul arity_abT arity_abT, polyVal_abT]
  ring

theorem cycLift_value {l : TP K} (hl : Arity 3 l) (a b c : K) :
    polyVal (cycT (liftT l)) a b c = cyc3 (fun a b c => (a - b) ^ 2 * (a - c) ^ 2 * polyVal l a b c) a b c := by
  rw [polyVal_cycT (arity_liftT hl)]
  simp only [cyc3, polyVal_liftT hl]

theorem cycLift_sym {l : TP K} (h : ∀ a b c, polyVal l a c b = polyVal l a b c) :
    ∀ a b c, cyc3 (fun a b c => (a - b) ^ 2 * (a - c) ^ 2 * polyVal l a b c) b a c = cyc3 (fun a b c => (a - b) ^ 2 * (a - c) ^ 2 * polyVal l a b c) a b c ∧
      cyc3 (fun a b c => (a - b) ^ 2 * (a - c) ^ 2 * polyVal l a b c) a c b = cyc3 (fun a b c => (a - b) ^ 2 * (a - c) ^ 2 * polyVal l a b c) a b c := by
  intro a b c
  simp only [cyc3]
  constructor
  · rw [h c a b, h a b c, h b c a]
    ring
  · rw [h a b c, h b c a, h c a b]
    ring

theorem oct_cyc {f : Val3 K} (hf : ∀ a b c, Octant a b c → 0 ≤ f a b c) (a b c : K) (ho : Octant a b c) : 0 ≤ cyc3 f a b c := by
  have h1 := hf a b c ho
  have h2 := hf b c a ⟨ho.2.1, ho.2.2, ho.1⟩
  have h3 := hf c a b ⟨ho.2.2, ho.1, ho.2.1⟩
  unfold cyc3
  positivity

theorem discV_nonneg (a b c : K) : 0 ≤ discV a b c := by
  rw [discV_rot]
  positivity

theorem polyVal_diff (p q : TP K) (a b c : K) : polyVal (collect (p ++ pneg q)) a b c = polyVal p a b c - polyVal q a b c := by
  unfold polyVal
  rw [evalDict_collect, evalDict_append, evalDict_pneg]
  ring

theorem liftedSym_ok {X : DenseExt K} (hX : X.Sound) {s l : TP K} {d : ℕ} (hs : Arity 1 s) (hd : ∀ t ∈ s, t.1.getD 0 0 ≤ d) (h : liftedSym X s d = .ok (some l)) :
    LiftOk d (fun t => Coeff.evalDict s [t]) l ∧ Pos l := by
  unfold liftedSym at h
  split at h
  · rename_i hall
    rw [← Option.some.inj (Except.ok.inj h)]
    exact ⟨homAxis_ok hs hd, homAxis_pos fun t ht => by simpa using List.all_eq_true.1 hall t ht⟩
  · split at h
    · exact absurd h (by simp)
    · rename_i R hR
      obtain ⟨h1, h2⟩ := hX.prove s R hs hR
      cases hp : homProof d R with
      | error e =>
        rw [hp] at h
        exact absurd h (by simp [Except.map])
      | ok p =>
        rw [hp] at h
        rw [← Option.some.inj (Except.ok.inj h)]
        obtain ⟨h3, h4⟩ := homProof_ok hp
        exact ⟨h3.congr h1, h4 h2⟩

/-- What the recursive call must satisfy. -/
def RecOk (rec : Coeff K → Except PyErr (Option (Cert K))) : Prop :=
  ∀ e q C, GoodPoly e q → rec (coeffOf q) = .ok (some C) → Shows Octant (polyVal q) C

/-- The polynomial that `liftForSix` hands to the recursive call. -/
theorem liftForSix_call {X : DenseExt K} (hX : X.Sound) {d : ℕ} {cs l : TP K} (hq : GoodTerms d cs) (h8 : 8 ≤ d) (hr : (X.div (symAxis ⟨cs, 3⟩) sq1).2 = [])
    (hl : liftedSym X (X.div (symAxis ⟨cs, 3⟩) sq1).1 (d - 2) = .ok (some l)) {G : TP K} (hG : collect (TermsPoly.pmul cs mulT ++ pneg (cycT (liftT l))) = G) :
    GoodPoly (d - 4) (X.div G discT).1 ∧ (X.div G discT).2 = [] ∧ Pos l ∧ ∀ a b c,
      polyVal cs a b c * (((a - b) ^ 2 + (b - c) ^ 2 + (c - a) ^ 2) / 2) = polyVal (X.div G discT).1 a b c * discV a b c +
        cyc3 (fun a b c => (a - b) ^ 2 * (a - c) ^ 2 * polyVal l a b c) a b c := by
  obtain ⟨hqp, hqv, hqd⟩ := div_axis hX (arity_symAxis _) (symAxis_exp (co := ⟨cs, 3⟩) hq.arity hq.hom) hr
  obtain ⟨hlo, hlp⟩ := liftedSym_ok hX hqp.arity (fun t ht => by have := hqd t ht; omega) hl
  have hGv : ∀ a b c, polyVal G a b c = polyVal cs a b c * (((a - b) ^ 2 + (b - c) ^ 2 + (c - a) ^ 2) / 2) -
      cyc3 (fun a b c => (a - b) ^ 2 * (a - c) ^ 2 * polyVal l a b c) a b c := by
    intro a b c
    rw [← hG, polyVal_diff, polyVal_pmul hq.arity arity_mulT, polyVal_mulT, cycLift_value hlo.arity]
  have hGg : GoodTerms (d - 4 + 6) G := by
    refine ⟨?_, ⟨?_, ?_⟩, ?_⟩
    · rw [← hG]
      exact arity_collect (arity_append (arity_pmul hq.arity arity_mulT) (arity_pneg (arity_cycT (arity_liftT hlo.arity))))
    · intro a b c
      rw [hGv, hGv, hq.sym.ab, (cycLift_sym hlo.sym a b c).1]
      ring
    · intro a b c
      rw [hGv, hGv, hq.sym.bc, (cycLift_sym hlo.sym a b c).2]
      ring
    · rw [← hG]
      refine homDeg_collect (homDeg_append ?_ (homDeg_pneg ?_))
      · have := homDeg_pmul hq.arity arity_mulT hq.hom homDeg_mulT
        have e : d + 2 = d - 4 + 6 := by omega
        rw [← e]
        exact this
      · have := homDeg_cycT (arity_liftT hlo.arity) (homDeg_liftT hlo.arity hlo.hom)
        have e : 4 + (d - 2) = d - 4 + 6 := by omega
        rw [← e]
        exact this
  have hax : ∀ t, polyVal G t 1 1 = 0 := by
    intro t
    rw [hGv]
    simp only [cyc3]
    have h1 := symAxis_value (co := ⟨cs, 3⟩) hq.arity t
    rw [hqv] at h1
    rw [hlo.axis, ← h1]
    ring
  obtain ⟨g1, g2, g3⟩ := div_disc hX hGg hax
  refine ⟨g1, g2, hlp, fun a b c => ?_⟩
  rw [← g3, hGv]
  ring

theorem liftForSix_shows {X : DenseExt K} (hX : X.Sound) {rec : Coeff K → Except PyErr (Option (Cert K))} (hrec : RecOk rec) {d : ℕ} {cs : TP K} (hq : GoodTerms d cs)
    (hne : cs ≠ []) {C : Cert K} (h : liftForSix X rec ⟨cs, 3⟩ = .ok (some C)) : Shows Octant (polyVal cs) C := by
  have hdeg : (⟨cs, 3⟩ : Coeff K).degree = d := degree_of_hom hq.hom hne
  unfold liftForSix at h
  simp only [hdeg] at h
  split at h
  · exact absurd h (by simp)
  · rename_i h8
    split at h
    · exact absurd h (by simp)
    · rename_i hr
      push Not at hr
      split at h
      · exact absurd h (by simp)
      · split at h
        · exact absurd h (by simp)
        · exact absurd h (by simp)
        · rename_i l hl
          generalize hG : collect (TermsPoly.pmul cs mulT ++ pneg (cycT (liftT l))) = G at h
          obtain ⟨g1, _, hlp, g3⟩ := liftForSix_call hX hq (by omega) hr hl hG
          cases hrr : rec (coeffOf (X.div G discT).1) with
          | error e =>
            rw [hrr] at h
            exact absurd h (by simp [Except.map])
          | ok r =>
            rw [hrr] at h
            obtain ⟨s, rfl, rfl⟩ := Option.map_eq_some_iff.1 (Except.ok.inj h)
            have hs := hrec _ _ _ g1 hrr
            unfold liftAns
            refine ((hs.times fun a b c _ => discV_nonneg a b c).add zero_le_one ?_).over ?_ ?_
            · intro a b c ho
              refine oct_cyc (f := fun a b c => (a - b) ^ 2 * (a - c) ^ 2 * polyVal l a b c) (fun a b c ho => ?_) a b c ho
              have := hlp a b c ho
              change 0 ≤ (a - b) ^ 2 * (a - c) ^ 2 * polyVal l a b c
              positivity
            · intro a b c _
              rw [polyVal_mulT]
              positivity
            · intro a b c
              rw [polyVal_mulT]
              linear_combination -g3 a b c

/-- Errors that come from homogenising a proof of the univariate prover. -/
def ProofErr (X : DenseExt K) (err : PyErr) : Prop := ∃ s R d, X.prove s = some R ∧ homProof d R = .error err

theorem liftedSym_error {X : DenseExt K} {s : TP K} {d : ℕ} {err : PyErr} (h : liftedSym X s d = .error err) : ProofErr X err := by
  unfold liftedSym at h
  split at h
  · exact absurd h (by simp)
  · split at h
    · exact absurd h (by simp)
    · rename_i R hR
      refine ⟨s, R, d, hR, ?_⟩
      cases hp : homProof d R with
      | error e =>
        rw [hp] at h
        exact congrArg _ (Except.error.inj h)
      | ok p =>
        rw [hp] at h
        exact absurd h (by simp [Except.map])

theorem map_error {α β : Type*} {f : α → β} {r : Except PyErr α} {err : PyErr} (h : r.map f = .error err) : r = .error err := by
  cases r with
  | error e => exact congrArg _ (Except.error.inj h)
  | ok p => exact absurd h (by simp [Except.map])

/-- What the recursive call must satisfy below degree `d`. -/
def RecErr (X : DenseExt K) (rec : Coeff K → Except PyErr (Option (Cert K))) (d : ℕ) : Prop :=
  ∀ e q err, GoodPoly e q → e < d → rec (coeffOf q) = .error err → ProofErr X err

theorem liftForSix_error {X : DenseExt K} (hX : X.Sound) {rec : Coeff K → Except PyErr (Option (Cert K))} {d : ℕ} (hrec : RecErr X rec d) {cs : TP K}
    (hq : GoodTerms d cs) (hne : cs ≠ []) {err : PyErr} (h : liftForSix X rec ⟨cs, 3⟩ = .error err) : ProofErr X err := by
  have hdeg : (⟨cs, 3⟩ : Coeff K).degree = d := degree_of_hom hq.hom hne
  unfold liftForSix at h
  simp only [hdeg] at h
  split at h
  · exact absurd h (by simp)
  · rename_i h8
    split at h
    · exact absurd h (by simp)
    · rename_i hr
      push Not at hr
      split at h
      · exact absurd h (by simp)
      · split at h
        · rename_i e he
          rw [← Except.error.inj h]
          exact liftedSym_error he
        · exact absurd h (by simp)
        · rename_i l hl
          obtain ⟨g1, _, _, _⟩ := liftForSix_call hX hq (by omega) hr hl rfl
          exact hrec _ _ _ g1 (by omega) (map_error h)

/-! ### The lift without a multiplier -/

/-- The polynomial that `ord4Core` hands to the recursive call. -/
theorem ord4Core_call {X : DenseExt K} (hX : X.Sound) {d : ℕ} {cs div2 : TP K} (hq : GoodTerms d cs)
    (h6 : 6 ≤ d ∨ ∀ a b c, polyVal cs a b c = 0) (ha : IsPoly 1 div2) (hexp : ∀ t ∈ div2, t.1.getD 0 0 ≤ d - 4)
    (hv : ∀ t, polyVal cs t 1 1 = Coeff.evalDict div2 [t] * (t - 1) ^ 4) {G : TP K} (hG : collect (cs ++ pneg (cycT (liftT (homAxis div2 (d - 4))))) = G) :
    GoodPoly (d - 6) (X.div G discT).1 ∧ (X.div G discT).2 = [] ∧ ∀ a b c, polyVal cs a b c = polyVal (X.div G discT).1 a b c * discV a b c +
        cyc3 (fun a b c => (a - b) ^ 2 * (a - c) ^ 2 * polyVal (homAxis div2 (d - 4)) a b c) a b c := by
  have hlo := homAxis_ok ha.arity hexp
  generalize hll : homAxis div2 (d - 4) = l at hG hlo ⊢
  have hGv : ∀ a b c, polyVal G a b c = polyVal cs a b c - cyc3 (fun a b c => (a - b) ^ 2 * (a - c) ^ 2 * polyVal l a b c) a b c := by
    intro a b c
    rw [← hG, polyVal_diff, cycLift_value hlo.arity]
  have hGg : GoodTerms (d - 6 + 6) G := by
    have hGa : Arity 3 G := by
      rw [← hG]
      exact arity_collect (arity_append hq.arity (arity_pneg (arity_cycT (arity_liftT hlo.arity))))
    refine ⟨hGa, ⟨?_, ?_⟩, ?_⟩
    · intro a b c
      rw [hGv, hGv, hq.sym.ab, (cycLift_sym hlo.sym a b c).1]
    · intro a b c
      rw [hGv, hGv, hq.sym.bc, (cycLift_sym hlo.sym a b c).2]
    · rcases h6 with h6 | h6
      · rw [← hG]
        refine homDeg_collect (homDeg_append ?_ (homDeg_pneg ?_))
        · have e : d = d - 6 + 6 := by omega
          rw [← e]
          exact hq.hom
        · have := homDeg_cycT (arity_liftT hlo.arity) (homDeg_liftT hlo.arity hlo.hom)
          have e : 4 + (d - 4) = d - 6 + 6 := by omega
          rw [← e]
          exact this
      · have h0 : div2 = [] := by
          refine eq_nil_of_values (n := 1) ha fun x hx => ?_
          obtain ⟨t, rfl⟩ := List.length_eq_one_iff.1 hx
          have hz : toMv 1 div2 * toMv 1 sq2 = 0 := by
            apply MvPolynomial.funext
            intro y
            rw [map_mul, eval_toMv y ha.arity, eval_toMv y isPoly_sq2.arity, map_zero]
            have e1 : List.ofFn y = [y 0] := by simp [List.ofFn_succ]
            rw [e1, sq2_value, ← hv, h6]
          have hne : toMv 1 (sq2 : TP K) ≠ 0 := by
            intro hz'
            have := eval_toMv (fun _ : Fin 1 => (0 : K)) (isPoly_sq2 (K := K)).arity
            have e1 : List.ofFn (fun _ : Fin 1 => (0 : K)) = [0] := by simp [List.ofFn_succ]
            rw [hz', map_zero, e1, sq2_value] at this
            norm_num at this
          have hz' := (mul_eq_zero.1 hz).resolve_right hne
          have := eval_toMv (fun _ : Fin 1 => t) ha.arity
          have e1 : List.ofFn (fun _ : Fin 1 => t) = [t] := by simp [List.ofFn_succ]
          rw [hz', map_zero, e1] at this
          exact this.symm
        have hl0 : l = [] := by rw [← hll, h0]; rfl
        have hG0 : G = [] := by
          have hGp : IsPoly 3 G := by
            rw [← hG]
            exact isPoly_collect (arity_append hq.arity (arity_pneg (arity_cycT (arity_liftT hlo.arity))))
          refine eq_nil_of_values hGp fun x hx => ?_
          obtain ⟨a, b, c, rfl⟩ := List.length_eq_three.1 hx
          have := hGv a b c
          rw [h6, hl0] at this
          simp only [polyVal_nil, cyc3, mul_zero, add_zero, sub_zero] at this
          exact this
        rw [hG0]
        simp [HomDeg]
  have hax : ∀ t, polyVal G t 1 1 = 0 := by
    intro t
    rw [hGv]
    simp only [cyc3]
    rw [hlo.axis, hv]
    ring
  obtain ⟨g1, g2, g3⟩ := div_disc hX hGg hax
  refine ⟨g1, g2, fun a b c => ?_⟩
  rw [← g3, hGv]
  ring

theorem ord4Core_shows {X : DenseExt K} (hX : X.Sound) {rec : Coeff K → Except PyErr (Option (Cert K))} (hrec : RecOk rec) {d : ℕ} {co : Coeff K} (hq : GoodTerms d co.coeffs)
    (hd : co.degree = d) (h6 : 6 ≤ d ∨ ∀ a b c, polyVal co.coeffs a b c = 0) {div2 : TP K} (ha : IsPoly 1 div2) (hexp : ∀ t ∈ div2, t.1.getD 0 0 ≤ d - 4)
    (hv : ∀ t, polyVal co.coeffs t 1 1 = Coeff.evalDict div2 [t] * (t - 1) ^ 4) {C : Cert K} (h : ord4Core X rec co div2 = .ok (some C)) :
    Shows Octant (polyVal co.coeffs) C := by
  unfold ord4Core at h
  simp only [hd] at h
  split at h
  · exact absurd h (by simp)
  · split at h
    · rename_i hall
      have hlp : Pos (homAxis div2 (d - 4)) := homAxis_pos fun t ht => by simpa using List.all_eq_true.1 hall t ht
      obtain ⟨g1, _, g3⟩ := ord4Core_call hX hq h6 ha hexp hv rfl
      generalize homAxis div2 (d - 4) = l at h hlp g1 g3
      generalize collect (co.coeffs ++ pneg (cycT (liftT l))) = G at h g1 g3
      cases hrr : rec (coeffOf (X.div G discT).1) with
      | error e =>
        rw [hrr] at h
        exact absurd h (by simp [Except.map])
      | ok r =>
        rw [hrr] at h
        obtain ⟨s, rfl, rfl⟩ := Option.map_eq_some_iff.1 (Except.ok.inj h)
        have hs := hrec _ _ _ g1 hrr
        refine ((hs.times fun a b c _ => discV_nonneg a b c).add zero_le_one ?_).congr ?_
        · intro a b c ho
          refine oct_cyc (f := fun a b c => (a - b) ^ 2 * (a - c) ^ 2 * polyVal l a b c) (fun a b c ho => ?_) a b c ho
          have := hlp a b c ho
          change 0 ≤ (a - b) ^ 2 * (a - c) ^ 2 * polyVal l a b c
          positivity
        · intro a b c
          linear_combination -g3 a b c
    · exact absurd h (by simp)

theorem ord4Core_error {X : DenseExt K} (hX : X.Sound) {rec : Coeff K → Except PyErr (Option (Cert K))} {D : ℕ} (hrec : RecErr X rec D) {d : ℕ} {co : Coeff K}
    (hq : GoodTerms d co.coeffs) (hd : co.degree = d) (hD : d - 6 < D) (h6 : 6 ≤ d ∨ ∀ a b c, polyVal co.coeffs a b c = 0) {div2 : TP K} (ha : IsPoly 1 div2)
    (hexp : ∀ t ∈ div2, t.1.getD 0 0 ≤ d - 4) (hv : ∀ t, polyVal co.coeffs t 1 1 = Coeff.evalDict div2 [t] * (t - 1) ^ 4) {err : PyErr}
    (h : ord4Core X rec co div2 = .error err) : ProofErr X err := by
  unfold ord4Core at h
  simp only [hd] at h
  split at h
  · exact absurd h (by simp)
  · split at h
    · obtain ⟨g1, _, _⟩ := ord4Core_call hX hq h6 ha hexp hv rfl
      exact hrec _ _ _ g1 hD (map_error h)
    · exact absurd h (by simp)

theorem ord4_shows {X : DenseExt K} (hX : X.Sound) {rec : Coeff K → Except PyErr (Option (Cert K))} (hrec : RecOk rec) {d : ℕ} {co : Coeff K} (hq : GoodTerms d co.coeffs)
    (hd : co.degree = d) (h6 : 6 ≤ d ∨ ∀ a b c, polyVal co.coeffs a b c = 0) {C : Cert K} (h : ord4 X rec co = .ok (some C)) :
    Shows Octant (polyVal co.coeffs) C := by
  unfold ord4 at h
  dsimp only at h
  split at h
  · exact absurd h (by simp)
  · rename_i hr
    push Not at hr
    obtain ⟨hqp, hqv, hqd⟩ := div_axis4 hX (arity_symAxis co) (symAxis_exp hq.arity hq.hom) hr
    refine ord4Core_shows hX hrec hq hd h6 hqp (fun t ht => by have := hqd t ht; omega) (fun t => ?_) h
    rw [← symAxis_value hq.arity, hqv]

theorem ord4_error {X : DenseExt K} (hX : X.Sound) {rec : Coeff K → Except PyErr (Option (Cert K))} {D : ℕ} (hrec : RecErr X rec D) {d : ℕ} {co : Coeff K}
    (hq : GoodTerms d co.coeffs) (hd : co.degree = d) (hD : d - 6 < D) (h6 : 6 ≤ d ∨ ∀ a b c, polyVal co.coeffs a b c = 0) {err : PyErr}
    (h : ord4 X rec co = .error err) : ProofErr X err := by
  unfold ord4 at h
  dsimp only at h
  split at h
  · exact absurd h (by simp)
  · rename_i hr
    push Not at hr
    obtain ⟨hqp, hqv, hqd⟩ := div_axis4 hX (arity_symAxis co) (symAxis_exp hq.arity hq.hom) hr
    refine ord4Core_error hX hrec hq hd hD h6 hqp (fun t ht => by have := hqd t ht; omega) (fun t => ?_) h
    rw [← symAxis_value hq.arity, hqv]

/-- What a subtracted polynomial must satisfy. -/
structure SubOk (d : ℕ) (g : K → K) (p : TP K) : Prop where
  good : GoodTerms d p
  pos : Pos p
  axis : ∀ t, polyVal p t 1 1 = g t * (t - 1) ^ 2

theorem SubOk.mix {d : ℕ} {g h : K → K} {p q : TP K} (hp : SubOk d g p) (hq : SubOk d h q) {u v : K} (hu : 0 ≤ u) (hv : 0 ≤ v) :
    SubOk d (fun t => u * g t + v * h t) (TermsPoly.pmul (pconst 3 u) p ++ TermsPoly.pmul (pconst 3 v) q) := by
  have e : ∀ (w : K) (r : TP K), Arity 3 r → ∀ a b c, polyVal (TermsPoly.pmul (pconst 3 w) r) a b c = w * polyVal r a b c := by
    intro w r hr a b c
    rw [polyVal_pmul (arity_pconst 3 _) hr]
    congr 1
    exact evalDict_pconst 3 _ _
  have hd : ∀ (w : K) (r : TP K), Arity 3 r → HomDeg d r → HomDeg d (TermsPoly.pmul (pconst 3 w) r) := by
    intro w r hr hd
    have := homDeg_pmul (arity_pconst 3 w) hr (homDeg_pconst 3 w) hd
    rwa [zero_add] at this
  refine ⟨⟨arity_append (arity_pmul (arity_pconst 3 _) hp.good.arity) (arity_pmul (arity_pconst 3 _) hq.good.arity), ⟨?_, ?_⟩,
    homDeg_append (hd _ _ hp.good.arity hp.good.hom) (hd _ _ hq.good.arity hq.good.hom)⟩, ?_, ?_⟩
  · intro a b c
    simp only [polyVal_append, e _ _ hp.good.arity, e _ _ hq.good.arity, hp.good.sym.ab, hq.good.sym.ab]
  · intro a b c
    simp only [polyVal_append, e _ _ hp.good.arity, e _ _ hq.good.arity, hp.good.sym.bc, hq.good.sym.bc]
  · intro a b c ho
    simp only [polyVal_append, e _ _ hp.good.arity, e _ _ hq.good.arity]
    have := hp.pos a b c ho
    have := hq.pos a b c ho
    positivity
  · intro t
    simp only [polyVal_append, e _ _ hp.good.arity, e _ _ hq.good.arity, hp.axis, hq.axis]
    ring

theorem arity_mono3 (i j k : ℕ) (v : K) : Arity 3 ([([i, j, k], v)] : TP K) := by
  intro t ht
  rw [List.mem_singleton.1 ht]
  rfl

theorem homDeg_mono3 (i j k : ℕ) (v : K) : HomDeg (i + j + k) ([([i, j, k], v)] : TP K) := by
  intro t ht
  rw [List.mem_singleton.1 ht]
  simp
  omega

theorem polyVal_mono3 (i j k : ℕ) (a b c : K) : polyVal ([([i, j, k], 1)] : TP K) a b c = a ^ i * b ^ j * c ^ k := by
  rw [polyVal_cons3, polyVal_nil]
  ring

theorem arity_bcaT : Arity 3 (bcaT : TP K) := by
  intro t ht
  simp only [bcaT, List.mem_cons, List.not_mem_nil, or_false] at ht
  rcases ht with rfl | rfl | rfl <;> rfl

theorem homDeg_bcaT : HomDeg 1 (bcaT : TP K) := by
  intro t ht
  simp only [bcaT, List.mem_cons, List.not_mem_nil, or_false] at ht
  rcases ht with rfl | rfl | rfl <;> rfl

theorem polyVal_bcaT (a b c : K) : polyVal bcaT a b c = b + c - a := by
  unfold bcaT
  rw [polyVal_cons3, polyVal_cons3, polyVal_cons3, polyVal_nil]
  ring

theorem arity_bcT : Arity 3 (bcT : TP K) := by
  intro t ht
  simp only [bcT, List.mem_cons, List.not_mem_nil, or_false] at ht
  rcases ht with rfl | rfl <;> rfl

theorem homDeg_bcT : HomDeg 1 (bcT : TP K) := by
  intro t ht
  simp only [bcT, List.mem_cons, List.not_mem_nil, or_false] at ht
  rcases ht with rfl | rfl <;> rfl

theorem polyVal_bcT (a b c : K) : polyVal bcT a b c = b - c := by
  unfold bcT
  rw [polyVal_cons3, polyVal_cons3, polyVal_nil]
  ring

theorem arity_tightT : Arity 3 (tightT : TP K) := by
  intro t ht
  simp only [tightT, List.mem_cons, List.not_mem_nil, or_false] at ht
  rcases ht with rfl | rfl | rfl | rfl <;> rfl

theorem homDeg_tightT : HomDeg 2 (tightT : TP K) := by
  intro t ht
  simp only [tightT, List.mem_cons, List.not_mem_nil, or_false] at ht
  rcases ht with rfl | rfl | rfl | rfl <;> rfl

theorem polyVal_tightT (a b c : K) : polyVal tightT a b c = a * b + a * c - b ^ 2 - c ^ 2 := by
  unfold tightT
  rw [polyVal_cons3, polyVal_cons3, polyVal_cons3, polyVal_cons3, polyVal_nil]
  ring

theorem polyVal_ppow {p : TP K} (hp : Arity 3 p) (n : ℕ) (a b c : K) : polyVal (TermsPoly.ppow 3 p n) a b c = polyVal p a b c ^ n :=
  evalDict_ppow p [a, b, c] hp n

theorem cycMix_value (m : ℕ) {p : TP K} (hp : Arity 3 p) (k a b c : K) : polyVal (cycMix m p k) a b c = (a * b * c) ^ m * cyc3 (polyVal p) a b c * (1 / k) := by
  unfold cycMix
  rw [polyVal_pmul (arity_pmul (arity_mono3 _ _ _ _) (arity_cycT hp)) (arity_pconst 3 _), polyVal_pmul (arity_mono3 _ _ _ _) (arity_cycT hp), polyVal_mono3, polyVal_cycT hp]
  have : polyVal (pconst 3 (1 / k)) a b c = 1 / k := evalDict_pconst 3 _ _
  rw [this]
  ring

/-- A cyclic mixture is a correct subtractor when its inner polynomial is symmetric in `b` and `c`, nonnegative on the octant and has the right axis. -/
theorem cycMix_ok {m d e : ℕ} {p : TP K} {k : K} {g : K → K} (hp : Arity 3 p) (hd : HomDeg e p) (hde : 3 * m + e = d) (hk : 0 < k)
    (hs : ∀ a b c, polyVal p a c b = polyVal p a b c) (hpos : Pos p) (hax : ∀ t, t ^ m * (polyVal p t 1 1 + polyVal p 1 1 t + polyVal p 1 t 1) * (1 / k) = g t * (t - 1) ^ 2) :
    SubOk d g (cycMix m p k) := by
  refine ⟨⟨?_, ⟨?_, ?_⟩, ?_⟩, ?_, ?_⟩
  · exact arity_pmul (arity_pmul (arity_mono3 _ _ _ _) (arity_cycT hp)) (arity_pconst 3 _)
  · intro a b c
    rw [cycMix_value m hp, cycMix_value m hp]
    simp only [cyc3]
    rw [hs c a b, hs a b c, hs b c a]
    ring
  · intro a b c
    rw [cycMix_value m hp, cycMix_value m hp]
    simp only [cyc3]
    rw [hs a b c, hs b c a, hs c a b]
    ring
  · have := homDeg_pmul (arity_pmul (arity_mono3 m m m (1 : K)) (arity_cycT hp)) (arity_pconst 3 (1 / k))
      (homDeg_pmul (arity_mono3 m m m (1 : K)) (arity_cycT hp) (homDeg_mono3 _ _ _ _) (homDeg_cycT hp hd)) (homDeg_pconst 3 _)
    have e1 : m + m + m + e + 0 = d := by omega
    rw [e1] at this
    exact this
  · intro a b c ho
    rw [cycMix_value m hp]
    have h1 := oct_cyc hpos a b c ho
    obtain ⟨ha, hb, hc⟩ := ho
    positivity
  · intro t
    rw [cycMix_value m hp, ← hax]
    simp only [cyc3]
    ring

theorem subtractor1_ok {n m : ℕ} {p : TP K} (h : subtractor1 n m = some p) : SubOk (n + 2 * m + 2) (fun t => t ^ n) p := by
  have abb : Arity 3 (TermsPoly.pmul bcT bcT : TP K) := arity_pmul arity_bcT arity_bcT
  have dbb : HomDeg 2 (TermsPoly.pmul bcT bcT : TP K) := homDeg_pmul arity_bcT arity_bcT homDeg_bcT homDeg_bcT
  have vbb : ∀ a b c : K, polyVal (TermsPoly.pmul bcT bcT) a b c = (b - c) ^ 2 := by
    intro a b c
    rw [polyVal_pmul arity_bcT arity_bcT, polyVal_bcT]
    ring
  unfold subtractor1 at h
  split at h
  · rename_i hmn
    split at h
    · rename_i hev
      rw [← Option.some.inj h]
      have hp := arity_ppow (arity_bcaT (K := K)) (n - m)
      have hdp := homDeg_ppow (arity_bcaT (K := K)) homDeg_bcaT (n - m)
      have hv : ∀ a b c : K, polyVal (TermsPoly.pmul (TermsPoly.ppow 3 bcaT (n - m)) (TermsPoly.pmul bcT bcT)) a b c = (b + c - a) ^ (n - m) * (b - c) ^ 2 := by
        intro a b c
        rw [polyVal_pmul hp abb, polyVal_ppow arity_bcaT, polyVal_bcaT, vbb]
      refine cycMix_ok (arity_pmul hp abb) (homDeg_pmul hp abb hdp dbb) (by omega) two_pos ?_ ?_ ?_
      · intro a b c
        rw [hv, hv, add_comm c b]
        ring
      · intro a b c _
        rw [hv]
        have h1 : Even (n - m) := Nat.even_iff.2 hev
        have := h1.pow_nonneg (b + c - a)
        positivity
      · intro t
        rw [hv, hv, hv]
        have e1 : t ^ n = t ^ m * t ^ (n - m) := by rw [← pow_add, Nat.add_sub_cancel' hmn]
        rw [e1, show (1 : K) + t - 1 = t by ring, show t + (1 : K) - 1 = t by ring]
        ring
    · rename_i hodd
      split at h
      · rename_i h1
        rw [← Option.some.inj h]
        obtain ⟨h1, h2⟩ := h1
        have a1 := arity_pmul (arity_tightT (K := K)) arity_tightT
        have hv : ∀ a b c : K, polyVal (TermsPoly.pmul [([2, 0, 0], 1)] (TermsPoly.pmul tightT tightT)) a b c = a ^ 2 * (a * b + a * c - b ^ 2 - c ^ 2) ^ 2 := by
          intro a b c
          rw [polyVal_pmul (arity_mono3 _ _ _ _) a1, polyVal_pmul arity_tightT arity_tightT, polyVal_tightT, polyVal_mono3]
          ring
        refine cycMix_ok (arity_pmul (arity_mono3 _ _ _ _) a1)
          (homDeg_pmul (arity_mono3 _ _ _ _) a1 (homDeg_mono3 _ _ _ _) (homDeg_pmul arity_tightT arity_tightT homDeg_tightT homDeg_tightT)) (by omega) (by norm_num) ?_ ?_ ?_
        · intro a b c
          rw [hv, hv]
          ring
        · intro a b c _
          rw [hv]
          positivity
        · intro t
          rw [hv, hv, hv]
          have e1 : t ^ n = t ^ (m - 1) * t ^ 2 := by rw [← pow_add]; congr 1; omega
          rw [e1]
          field_simp
          ring
      · split at h
        · rename_i h2
          rw [← Option.some.inj h]
          have hp := arity_ppow (arity_bcaT (K := K)) (n - m + 1)
          have hdp := homDeg_ppow (arity_bcaT (K := K)) homDeg_bcaT (n - m + 1)
          have a1 := arity_pmul (arity_mono3 2 0 0 (1 : K)) abb
          have hv : ∀ a b c : K, polyVal (TermsPoly.pmul (TermsPoly.pmul [([2, 0, 0], 1)] (TermsPoly.pmul bcT bcT)) (TermsPoly.ppow 3 bcaT (n - m + 1))) a b c =
              a ^ 2 * (b - c) ^ 2 * (b + c - a) ^ (n - m + 1) := by
            intro a b c
            rw [polyVal_pmul a1 hp, polyVal_pmul (arity_mono3 _ _ _ _) abb, polyVal_ppow arity_bcaT, polyVal_bcaT, vbb, polyVal_mono3]
            ring
          refine cycMix_ok (arity_pmul a1 hp) (homDeg_pmul a1 hp (homDeg_pmul (arity_mono3 _ _ _ _) abb (homDeg_mono3 _ _ _ _) dbb) hdp) (by omega) two_pos ?_ ?_ ?_
          · intro a b c
            rw [hv, hv, add_comm c b]
            ring
          · intro a b c _
            rw [hv]
            have h1 : Even (n - m + 1) := Nat.even_iff.2 (by omega)
            have := h1.pow_nonneg (b + c - a)
            positivity
          · intro t
            rw [hv, hv, hv]
            have e1 : t ^ n = t ^ (m - 1) * t ^ (n - m + 1) := by rw [← pow_add]; congr 1; omega
            rw [e1, show (1 : K) + t - 1 = t by ring, show t + (1 : K) - 1 = t by ring]
            ring
        · exact absurd h (by simp)
  · rename_i hmn
    rw [← Option.some.inj h]
    have hv : ∀ a b c : K, polyVal (TermsPoly.pmul [([2 * (m - n), 0, 0], 1)] (TermsPoly.pmul bcT bcT)) a b c = a ^ (2 * (m - n)) * (b - c) ^ 2 := by
      intro a b c
      rw [polyVal_pmul (arity_mono3 _ _ _ _) abb, vbb, polyVal_mono3]
      ring
    refine cycMix_ok (arity_pmul (arity_mono3 _ _ _ _) abb) (homDeg_pmul (arity_mono3 _ _ _ _) abb (homDeg_mono3 _ _ _ _) dbb) (by omega) two_pos ?_ ?_ ?_
    · intro a b c
      rw [hv, hv]
      ring
    · rintro a b c ⟨ha, _, _⟩
      rw [hv]
      positivity
    · intro t
      rw [hv, hv, hv]
      simp only [one_pow]
      ring

theorem subtractor2_ok (n m : ℕ) : SubOk (n + 2 * m + 3) (fun t => t ^ n) (subtractor2 n m : TP K) := by
  have abb : Arity 3 (TermsPoly.pmul bcT bcT : TP K) := arity_pmul arity_bcT arity_bcT
  have dbb : HomDeg 2 (TermsPoly.pmul bcT bcT : TP K) := homDeg_pmul arity_bcT arity_bcT homDeg_bcT homDeg_bcT
  have vbb : ∀ a b c : K, polyVal (TermsPoly.pmul bcT bcT) a b c = (b - c) ^ 2 := by
    intro a b c
    rw [polyVal_pmul arity_bcT arity_bcT, polyVal_bcT]
    ring
  unfold subtractor2
  split
  · rename_i hmn
    split
    · rename_i hev
      have hp := arity_ppow (arity_bcaT (K := K)) (n - m)
      have hdp := homDeg_ppow (arity_bcaT (K := K)) homDeg_bcaT (n - m)
      have a1 := arity_pmul (arity_mono3 1 0 0 (1 : K)) hp
      have hv : ∀ a b c : K, polyVal (TermsPoly.pmul (TermsPoly.pmul [([1, 0, 0], 1)] (TermsPoly.ppow 3 bcaT (n - m))) (TermsPoly.pmul bcT bcT)) a b c =
          a * (b + c - a) ^ (n - m) * (b - c) ^ 2 := by
        intro a b c
        rw [polyVal_pmul a1 abb, polyVal_pmul (arity_mono3 _ _ _ _) hp, polyVal_ppow arity_bcaT, polyVal_bcaT, vbb, polyVal_mono3]
        ring
      refine cycMix_ok (arity_pmul a1 abb) (homDeg_pmul a1 abb (homDeg_pmul (arity_mono3 _ _ _ _) hp (homDeg_mono3 _ _ _ _) hdp) dbb) (by omega) two_pos ?_ ?_ ?_
      · intro a b c
        rw [hv, hv, add_comm c b]
        ring
      · rintro a b c ⟨ha, _, _⟩
        rw [hv]
        have h1 : Even (n - m) := Nat.even_iff.2 hev
        have := h1.pow_nonneg (b + c - a)
        positivity
      · intro t
        rw [hv, hv, hv]
        have e1 : t ^ n = t ^ m * t ^ (n - m) := by rw [← pow_add, Nat.add_sub_cancel' hmn]
        rw [e1, show (1 : K) + t - 1 = t by ring, show t + (1 : K) - 1 = t by ring]
        ring
    · rename_i hodd
      have hp := arity_ppow (arity_bcaT (K := K)) (n - m - 1)
      have hdp := homDeg_ppow (arity_bcaT (K := K)) homDeg_bcaT (n - m - 1)
      have a1 := arity_pmul (arity_mono3 0 1 1 (1 : K)) abb
      have hv : ∀ a b c : K, polyVal (TermsPoly.pmul (TermsPoly.pmul [([0, 1, 1], 1)] (TermsPoly.pmul bcT bcT)) (TermsPoly.ppow 3 bcaT (n - m - 1))) a b c =
          b * c * (b - c) ^ 2 * (b + c - a) ^ (n - m - 1) := by
        intro a b c
        rw [polyVal_pmul a1 hp, polyVal_pmul (arity_mono3 _ _ _ _) abb, polyVal_ppow arity_bcaT, polyVal_bcaT, vbb, polyVal_mono3]
        ring
      refine cycMix_ok (arity_pmul a1 hp) (homDeg_pmul a1 hp (homDeg_pmul (arity_mono3 _ _ _ _) abb (homDeg_mono3 _ _ _ _) dbb) hdp) (by omega) two_pos ?_ ?_ ?_
      · intro a b c
        rw [hv, hv, add_comm c b]
        ring
      · rintro a b c ⟨_, hb, hc⟩
        rw [hv]
        have h1 : Even (n - m - 1) := Nat.even_iff.2 (by omega)
        have := h1.pow_nonneg (b + c - a)
        positivity
      · intro t
        rw [hv, hv, hv]
        have e1 : t ^ n = t ^ m * (t * t ^ (n - m - 1)) := by
          rw [← pow_succ', ← pow_add]
          congr 1
          omega
        rw [e1, show (1 : K) + t - 1 = t by ring, show t + (1 : K) - 1 = t by ring]
        ring
  · rename_i hmn
    have hv : ∀ a b c : K, polyVal (TermsPoly.pmul [([2 * (m - n) + 1, 0, 0], 1)] (TermsPoly.pmul bcT bcT)) a b c = a ^ (2 * (m - n) + 1) * (b - c) ^ 2 := by
      intro a b c
      rw [polyVal_pmul (arity_mono3 _ _ _ _) abb, vbb, polyVal_mono3]
      ring
    refine cycMix_ok (arity_pmul (arity_mono3 _ _ _ _) abb) (homDeg_pmul (arity_mono3 _ _ _ _) abb (homDeg_mono3 _ _ _ _) dbb) (by omega) two_pos ?_ ?_ ?_
    · intro a b c
      rw [hv, hv]
      ring
    · rintro a b c ⟨ha, _, _⟩
      rw [hv]
      positivity
    · intro t
      rw [hv, hv, hv]
      simp only [one_pow]
      ring

theorem chooseN_spec {floor : K → ℤ} {d n : ℕ} {u v u2 v2 : K} (h : chooseN floor d u v = some (n, u2, v2)) :
    n + 3 ≤ d ∧ 0 ≤ u2 ∧ 0 ≤ v2 ∧ u2 + v2 = u + v ∧ u2 + n * (u2 + v2) = u := by
  unfold chooseN at h
  dsimp only at h
  by_cases h0 : u + v ≤ 0 ∨ u < 0
  · rw [if_pos h0] at h
    exact absurd h (by simp)
  · rw [if_neg h0] at h
    revert h
    generalize (if -v ≤ ((((d + 1) / 3 : ℕ) - 1 : ℤ) : K) * (u + v) ∧ ((((d + 1) / 3 : ℕ) - 1 : ℤ) : K) * (u + v) ≤ u then (((d + 1) / 3 : ℕ) - 1 : ℤ)
        else if u < ((((d + 1) / 3 : ℕ) - 1 : ℤ) : K) * (u + v) then floor (u / (u + v)) else floor ((-v - 1) / (u + v)) + 1) = z
    intro h
    by_cases hc : z ≤ (d : ℤ) - 3 ∧ 0 ≤ z ∧ 0 ≤ u - (u + v) * (z : K) ∧ 0 ≤ v + (u + v) * (z : K)
    · rw [if_pos hc] at h
      simp only [Option.some.injEq, Prod.mk.injEq] at h
      obtain ⟨h1, h2, h3⟩ := h
      obtain ⟨c1, c2, c3, c4⟩ := hc
      have hz : ((n : ℤ) : K) = (z : K) := by
        congr 1
        omega
      rw [Int.cast_natCast] at hz
      refine ⟨by omega, h2 ▸ c3, h3 ▸ c4, ?_, ?_⟩
      · rw [← h2, ← h3]
        ring
      · rw [← h2, ← h3, hz]
        ring
    · rw [if_neg hc] at h
      exact absurd h (by simp)

/-- The subtracted polynomial exists or the method gives up: the missing return value of the code is never used. -/
theorem subtractor_ok {d n : ℕ} {u2 v2 : K} (hn : n + 3 ≤ d) (h1 : 0 ≤ u2) (h2 : 0 ≤ v2) :
    ∃ r, subtractor d n u2 v2 = .ok r ∧ ∀ p, r = some p → SubOk d (fun t => u2 * t ^ (n + 1) + v2 * t ^ n) p := by
  unfold subtractor
  dsimp only
  by_cases hev : (d - n - 3) % 2 = 0
  · rw [if_pos hev]
    by_cases h0 : (d - n - 3) / 2 ≤ n ∧ (d - n - 3) / 2 = 0
    · rw [if_pos h0]
      exact ⟨none, rfl, by simp⟩
    · rw [if_neg h0]
      cases hs : (subtractor1 (n + 1) ((d - n - 3) / 2) : Option (TP K)) with
      | none =>
        exfalso
        unfold subtractor1 at hs
        split at hs
        · split at hs
          · exact absurd hs (by simp)
          · split at hs
            · exact absurd hs (by simp)
            · split at hs
              · exact absurd hs (by simp)
              · omega
        · exact absurd hs (by simp)
      | some p =>
        refine ⟨_, rfl, fun r hr => ?_⟩
        rw [← Option.some.inj hr]
        have a1 := subtractor1_ok hs
        have a2 := subtractor2_ok (K := K) n ((d - n - 3) / 2)
        have e1 : n + 1 + 2 * ((d - n - 3) / 2) + 2 = d := by omega
        have e2 : n + 2 * ((d - n - 3) / 2) + 3 = d := by omega
        rw [e1] at a1
        rw [e2] at a2
        exact a1.mix a2 h1 h2
  · rw [if_neg hev]
    cases hs : (subtractor1 n ((d - n - 3) / 2 + 1) : Option (TP K)) with
    | none =>
      exfalso
      unfold subtractor1 at hs
      split at hs
      · split at hs
        · exact absurd hs (by simp)
        · split at hs
          · exact absurd hs (by simp)
          · split at hs
            · exact absurd hs (by simp)
            · omega
      · exact absurd hs (by simp)
    | some p =>
      refine ⟨_, rfl, fun r hr => ?_⟩
      rw [← Option.some.inj hr]
      have a1 := subtractor1_ok hs
      have a2 := subtractor2_ok (K := K) (n + 1) ((d - n - 3) / 2)
      have e1 : n + 2 * ((d - n - 3) / 2 + 1) + 2 = d := by omega
      have e2 : n + 1 + 2 * ((d - n - 3) / 2) + 3 = d := by omega
      rw [e1] at a1
      rw [e2] at a2
      exact a2.mix a1 h1 h2

theorem sum_key0 {n : ℕ} {r : TP K} (hr : IsPoly n r) (k : List ℕ) : (r.map fun t => if t.1 = k then t.2 else 0).sum = (dget r k).getD 0 := by
  have := sum_key hr.nodup k (1 : K)
  simpa using this

theorem rem_value {r : TP K} (hr : IsPoly 1 r) (h : ∀ t ∈ r, t.1 = [0] ∨ t.1 = [1]) (t : K) : Coeff.evalDict r [t] = (dget r [1]).getD 0 * t + (dget r [0]).getD 0 := by
  have h1 := sum_key hr.nodup [1] t
  have h0 := sum_key hr.nodup [0] (1 : K)
  rw [mul_one] at h0
  rw [← h1, ← h0]
  unfold Coeff.evalDict
  rw [← List.sum_map_add]
  congr 1
  apply List.map_congr_left
  intro u hu
  rcases h u hu with e | e
  · rw [e]
    simp [Coeff.evalMonom]
  · rw [e]
    simp [Coeff.evalMonom]

/-- The polynomial left after the subtraction. -/
theorem subtract_good {d : ℕ} {cs p : TP K} {g : K → K} (hq : GoodTerms d cs) (h6 : 6 ≤ d) (hp : SubOk d g p) :
    ∃ e, e ≤ d ∧ GoodTerms e (coeffOf (collect (cs ++ pneg p))).coeffs ∧ (coeffOf (collect (cs ++ pneg p))).degree = e ∧
      (6 ≤ e ∨ ∀ a b c, polyVal (coeffOf (collect (cs ++ pneg p))).coeffs a b c = 0) := by
  have hpa : Arity 3 (collect (cs ++ pneg p)) := arity_collect (arity_append hq.arity (arity_pneg hp.good.arity))
  have hph : HomDeg d (collect (cs ++ pneg p)) := homDeg_collect (homDeg_append hq.hom (homDeg_pneg hp.good.hom))
  have hsym : Sym (coeffOf (collect (cs ++ pneg p))).coeffs := by
    constructor
    · intro a b c
      rw [polyVal_coeffOf, polyVal_coeffOf, polyVal_diff, polyVal_diff, hq.sym.ab, hp.good.sym.ab]
    · intro a b c
      rw [polyVal_coeffOf, polyVal_coeffOf, polyVal_diff, polyVal_diff, hq.sym.bc, hp.good.sym.bc]
  by_cases hz : collect (cs ++ pneg p) = []
  · refine ⟨0, Nat.zero_le _, ⟨arity_coeffOf hpa, hsym, ?_⟩, ?_, Or.inr fun a b c => ?_⟩
    · unfold coeffOf
      rw [if_pos hz]
      intro t ht
      rw [List.mem_singleton.1 ht]
      rfl
    · unfold coeffOf
      rw [if_pos hz]
      rfl
    · rw [polyVal_coeffOf, hz, polyVal_nil]
  · have hc : coeffOf (collect (cs ++ pneg p)) = ⟨collect (cs ++ pneg p), 3⟩ := by
      unfold coeffOf
      rw [if_neg hz]
    rw [hc] at hsym ⊢
    exact ⟨d, le_rfl, ⟨hpa, hsym, hph⟩, degree_of_hom hph hz, Or.inl h6⟩

theorem liftFree_shows {X : DenseExt K} (hX : X.Sound) {floor : K → ℤ} {rec : Coeff K → Except PyErr (Option (Cert K))} (hrec : RecOk rec) {d : ℕ} {cs : TP K}
    (hq : GoodTerms d cs) (hne : cs ≠ []) {C : Cert K} (h : liftFree X floor rec ⟨cs, 3⟩ = .ok (some C)) : Shows Octant (polyVal cs) C := by
  have hdeg : (⟨cs, 3⟩ : Coeff K).degree = d := degree_of_hom hq.hom hne
  unfold liftFree at h
  simp only [hdeg] at h
  split at h
  · exact absurd h (by simp)
  · rename_i h6
    split at h
    · exact absurd h (by simp)
    · rename_i hr
      push Not at hr
      obtain ⟨hqp, hqv, hqd⟩ := div_axis hX (arity_symAxis _) (symAxis_exp (co := ⟨cs, 3⟩) hq.arity hq.hom) hr
      split at h
      · rename_i hr2
        obtain ⟨hqp2, hqv2, hqd2⟩ := div_axis hX (D := d - 2) hqp.arity (fun t ht => by have := hqd t ht; omega) hr2
        refine ord4Core_shows (co := ⟨cs, 3⟩) hX hrec hq hdeg (Or.inl (by omega)) hqp2 (fun t ht => by have := hqd2 t ht; omega) (fun t => ?_) h
        rw [← symAxis_value hq.arity, hqv, hqv2]
        ring
      · split at h
        · exact absurd h (by simp)
        · rename_i n u2 v2 hN
          obtain ⟨n1, n2, n3, _, _⟩ := chooseN_spec hN
          obtain ⟨r, hr', hsub⟩ := subtractor_ok n1 n2 n3
          rw [hr'] at h
          cases r with
          | none => exact absurd h (by simp)
          | some p =>
            have hp := hsub p rfl
            dsimp only at h
            cases ho : ord4 X rec (coeffOf (collect (cs ++ pneg p))) with
            | error e =>
              rw [ho] at h
              exact absurd h (by simp [Except.map])
            | ok r =>
              rw [ho] at h
              obtain ⟨s, rfl, rfl⟩ := Option.map_eq_some_iff.1 (Except.ok.inj h)
              obtain ⟨e, _, g1, g2, g3⟩ := subtract_good hq (by omega) hp
              refine ((ord4_shows hX hrec g1 g2 g3 ho).add zero_le_one hp.pos).congr fun a b c => ?_
              rw [polyVal_coeffOf, polyVal_diff]
              ring

theorem liftFree_error {X : DenseExt K} (hX : X.Sound) {floor : K → ℤ} {rec : Coeff K → Except PyErr (Option (Cert K))} {d : ℕ} (hrec : RecErr X rec d) {cs : TP K}
    (hq : GoodTerms d cs) (hne : cs ≠ []) {err : PyErr} (h : liftFree X floor rec ⟨cs, 3⟩ = .error err) : ProofErr X err := by
  have hdeg : (⟨cs, 3⟩ : Coeff K).degree = d := degree_of_hom hq.hom hne
  unfold liftFree at h
  simp only [hdeg] at h
  split at h
  · exact absurd h (by simp)
  · rename_i h6
    split at h
    · exact absurd h (by simp)
    · rename_i hr
      push Not at hr
      obtain ⟨hqp, hqv, hqd⟩ := div_axis hX (arity_symAxis _) (symAxis_exp (co := ⟨cs, 3⟩) hq.arity hq.hom) hr
      split at h
      · rename_i hr2
        obtain ⟨hqp2, hqv2, hqd2⟩ := div_axis hX (D := d - 2) hqp.arity (fun t ht => by have := hqd t ht; omega) hr2
        refine ord4Core_error (co := ⟨cs, 3⟩) hX hrec hq hdeg (by omega) (Or.inl (by omega)) hqp2 (fun t ht => by have := hqd2 t ht; omega) (fun t => ?_) h
        rw [← symAxis_value hq.arity, hqv, hqv2]
        ring
      · split at h
        · exact absurd h (by simp)
        · rename_i n u2 v2 hN
          obtain ⟨n1, n2, n3, _, _⟩ := chooseN_spec hN
          obtain ⟨r, hr', hsub⟩ := subtractor_ok n1 n2 n3
          rw [hr'] at h
          cases r with
          | none => exact absurd h (by simp)
          | some p =>
            obtain ⟨e, he, g1, g2, g3⟩ := subtract_good hq (by omega) (hsub p rfl)
            exact ord4_error hX hrec g1 g2 (by omega) g3 (map_error h)

/-- A power divided by `(a - 1)^2`. -/
theorem exists_pow (n : ℕ) : ∃ w : TP K, Arity 1 w ∧ ∀ t : K, t ^ n = 1 + n * (t - 1) + Coeff.evalDict w [t] * (t - 1) ^ 2 := by
  induction n with
  | zero => exact ⟨[], by simp [Arity], fun t => by rw [evalDict_nil]; simp⟩
  | succ n ih =>
    obtain ⟨w, hw, hv⟩ := ih
    have ax : Arity 1 ([([1], 1)] : TP K) := by
      intro t ht
      rw [List.mem_singleton.1 ht]
      rfl
    refine ⟨TermsPoly.pmul w [([1], 1)] ++ pconst 1 (n : K), arity_append (arity_pmul hw ax) (arity_pconst 1 _), fun t => ?_⟩
    have h1 := evalDict_pmul w [([1], 1)] [t] hw ax
    have h2 : Coeff.evalDict (pconst 1 (n : K)) [t] = n := evalDict_pconst 1 _ _
    have h3 : Coeff.evalDict ([([1], 1)] : TP K) [t] = t := by
      rw [evalDict_cons, evalDict_nil]
      simp [Coeff.evalMonom]
    rw [h3] at h1
    rw [evalDict_append, h1, h2, pow_succ, hv]
    push_cast
    ring

/-- After the subtraction the axis is always divisible by `(a - 1)^4`: the method never fails at this point. -/
theorem subtract_exact {X : DenseExt K} (hX : X.Sound) {floor : K → ℤ} {d : ℕ} {cs : TP K} (hq : GoodTerms d cs) (hr : (X.div (symAxis ⟨cs, 3⟩) sq1).2 = [])
    {n : ℕ} {u2 v2 : K} (hN : chooseN floor d ((dget (X.div (X.div (symAxis ⟨cs, 3⟩) sq1).1 sq1).2 [1]).getD 0)
      ((dget (X.div (X.div (symAxis ⟨cs, 3⟩) sq1).1 sq1).2 [0]).getD 0) = some (n, u2, v2)) {p : TP K} (hp : subtractor d n u2 v2 = .ok (some p)) :
    (X.div (symAxis (coeffOf (collect (cs ++ pneg p)))) sq2).2 = [] := by
  obtain ⟨n1, n2, n3, n4, n5⟩ := chooseN_spec hN
  obtain ⟨r, hr', hsub⟩ := subtractor_ok n1 n2 n3
  rw [hp] at hr'
  have hs := hsub p (Except.ok.inj hr').symm
  obtain ⟨hqp, hqv, _⟩ := div_axis hX (arity_symAxis _) (symAxis_exp (co := ⟨cs, 3⟩) hq.arity hq.hom) hr
  obtain ⟨q2, r2, e2⟩ := hX.div_eq 1 (X.div (symAxis ⟨cs, 3⟩) sq1).1 sq1 hqp.arity isPoly_sq1.arity
  have rv := rem_value r2 (hX.div_rem _ hqp.arity)
  generalize (dget (X.div (X.div (symAxis ⟨cs, 3⟩) sq1).1 sq1).2 [1]).getD 0 = u at rv n4 n5
  generalize (dget (X.div (X.div (symAxis ⟨cs, 3⟩) sq1).1 sq1).2 [0]).getD 0 = v at rv n4
  have hpa : Arity 3 (collect (cs ++ pneg p)) := arity_collect (arity_append hq.arity (arity_pneg hs.good.arity))
  obtain ⟨w1, hw1, e3⟩ := exists_pow (K := K) (n + 1)
  obtain ⟨w0, hw0, e4⟩ := exists_pow (K := K) n
  refine hX.div_exact 1 _ sq2 ((X.div (X.div (symAxis ⟨cs, 3⟩) sq1).1 sq1).1 ++ pneg (TermsPoly.pmul (pconst 1 u2) w1 ++ TermsPoly.pmul (pconst 1 v2) w0))
    (arity_symAxis _) isPoly_sq2.arity
    (arity_append q2.arity (arity_pneg (arity_append (arity_pmul (arity_pconst 1 _) hw1) (arity_pmul (arity_pconst 1 _) hw0)))) fun x hx => ?_
  obtain ⟨t, rfl⟩ := List.length_eq_one_iff.1 hx
  have m1 := evalDict_pmul (pconst 1 u2) w1 [t] (arity_pconst 1 _) hw1
  have m2 := evalDict_pmul (pconst 1 v2) w0 [t] (arity_pconst 1 _) hw0
  have c1 : Coeff.evalDict (pconst 1 u2) [t] = u2 := evalDict_pconst 1 _ _
  have c2 : Coeff.evalDict (pconst 1 v2) [t] = v2 := evalDict_pconst 1 _ _
  rw [symAxis_value (arity_coeffOf hpa), polyVal_coeffOf, polyVal_diff, hs.axis, sq2_value, evalDict_append, evalDict_pneg, evalDict_append, m1, m2, c1, c2]
  have h1 := symAxis_value (co := ⟨cs, 3⟩) hq.arity t
  rw [hqv, e2 [t] rfl, sq1_value, rv t] at h1
  have e3t := e3 t
  have e4t := e4 t
  push_cast at e3t
  rw [← h1, e3t, e4t]
  linear_combination (t - 1) ^ 2 * (-n4 - (t - 1) * n5)

/-! ### The driver -/

/-- **C71.**  Every answer of the recursive solver is an identity with nonnegative weights and a nonnegative denominator on the octant. -/
theorem dense_sound {X : DenseExt K} (hX : X.Sound) (floor : K → ℤ) : ∀ fuel, RecOk (dense X floor fuel)
  | 0 => fun _ _ _ _ h => absurd h (by simp [dense])
  | fuel + 1 => by
    intro e q C hq h
    unfold dense at h
    split at h
    · rename_i E hE
      rw [← Option.some.inj (Except.ok.inj h)]
      exact trivialAdditive_shows hq.poly hq.hom hq.sym.rot hE
    · split at h
      · refine (hX.ternary _ _ (arity_coeffOf hq.poly.arity) (fun a b c => ?_) (Except.ok.inj h)).congr (polyVal_coeffOf q)
        rw [polyVal_coeffOf, polyVal_coeffOf, hq.sym.rot]
      · rename_i h8
        have hne : q ≠ [] := by
          rintro rfl
          exact h8 (by simp [coeffOf, Coeff.degree])
        have hc : coeffOf q = ⟨q, 3⟩ := by
          unfold coeffOf
          rw [if_neg hne]
        rw [hc] at h
        split at h
        · exact absurd h (by simp)
        · rename_i E hE
          rw [← Option.some.inj (Except.ok.inj h)]
          exact uncentered_shows hq hne (fun cs D g hcs _ hD => liftFree_shows hX (dense_sound hX floor fuel) g hcs hD) hE
        · exact uncentered_shows hq hne (fun cs D g hcs _ hD => liftForSix_shows hX (dense_sound hX floor fuel) g hcs hD) h

theorem uncentered_error {solver : Coeff K → Except PyErr (Option (Cert K))} {d : ℕ} {q : TP K} (hq : GoodPoly d q) (hne : q ≠ []) {err : PyErr}
    (h : uncentered solver ⟨q, 3⟩ = .error err) : ∃ cs, GoodTerms d cs ∧ cs ≠ [] ∧ solver ⟨cs, 3⟩ = .error err := by
  unfold uncentered at h
  simp only [totalDegree_of_hom (co := ⟨q, 3⟩) hq.hom hne] at h
  split at h
  · exact absurd h (by simp)
  · obtain ⟨cs, hcs⟩ := centered_total hq (centerKey d).1 (centerKey d).2.1 (centerKey d).2.2 (List.map Prod.snd q).sum
    rw [hcs] at h
    obtain ⟨g1, g2, _, _⟩ := centered_good hq rfl hcs
    exact ⟨cs, g1, g2, map_error h⟩

/-- **C71.**  With more fuel than the degree, the recursion always ends, no coefficient and no value is missing: the only errors are those of the
homogenisation of a proof of the univariate prover. -/
theorem dense_error {X : DenseExt K} (hX : X.Sound) (floor : K → ℤ) : ∀ fuel, RecErr X (dense X floor fuel) fuel
  | 0 => fun _ _ _ _ h0 _ => absurd h0 (by omega)
  | fuel + 1 => by
    intro e q err hq he h
    have ih : RecErr X (dense X floor fuel) e := fun e' q' err' hq' he' h' => dense_error hX floor fuel e' q' err' hq' (by omega) h'
    unfold dense at h
    split at h
    · exact absurd h (by simp)
    · split at h
      · exact absurd h (by simp)
      · rename_i h8
        have hne : q ≠ [] := by
          rintro rfl
          exact h8 (by simp [coeffOf, Coeff.degree])
        have hc : coeffOf q = ⟨q, 3⟩ := by
          unfold coeffOf
          rw [if_neg hne]
        rw [hc] at h
        split at h
        · rename_i E hE
          rw [Except.error.inj h] at hE
          obtain ⟨cs, g1, g2, g3⟩ := uncentered_error hq hne hE
          exact liftFree_error hX ih g1 g2 g3
        · exact absurd h (by simp)
        · obtain ⟨cs, g1, g2, g3⟩ := uncentered_error hq hne h
          exact liftForSix_error hX ih g1 g2 g3

theorem bind_error {α β : Type u} {r : Except PyErr α} {f : α → Except PyErr β} {err : PyErr} (h : (r >>= f) = .error err) : r = .error err ∨ ∃ x, r = .ok x ∧ f x = .error err := by
  cases r with
  | error e => exact Or.inl (congrArg _ (Except.error.inj h))
  | ok x => exact Or.inr ⟨x, rfl, h⟩

theorem homProof_error {d : ℕ} {R : Raw K} {err : PyErr} (h : homProof d R = .error err) : err = .valueError := by
  induction R with
  | nil => exact absurd h (by simp [homProof])
  | cons t R ih =>
    unfold homProof at h
    rcases bind_error h with h | ⟨p, _, h⟩
    · unfold homPart at h
      dsimp only at h
      generalize (if t.1 = true then 1 else 0) = ld at h
      split at h
      · exact (Except.error.inj h).symm
      · rcases bind_error h with h | ⟨q, _, h⟩
        · generalize t.2 = l at h
          clear ih
          induction l with
          | nil => exact absurd h (by simp [homSquares])
          | cons kv l ih2 =>
            unfold homSquares at h
            rcases bind_error h with h | ⟨p, _, h⟩
            · unfold homSquare at h
              split at h
              · exact (Except.error.inj h).symm
              · split at h
                · exact (Except.error.inj h).symm
                · exact absurd h (by simp)
            · rcases bind_error h with h | ⟨q, _, h⟩
              · exact ih2 h
              · exact absurd h (by simp)
        · exact absurd h (by simp)
    · rcases bind_error h with h | ⟨q, _, h⟩
      · exact ih h
      · exact absurd h (by simp)

/-- **C71.**  The recursion always ends: with more fuel than the degree it is never exhausted. -/
theorem dense_ends {X : DenseExt K} (hX : X.Sound) (floor : K → ℤ) {e fuel : ℕ} {q : TP K} (hq : GoodPoly e q) (he : e < fuel) :
    dense X floor fuel (coeffOf q) ≠ .error (.custom "RecursionError") := by
  intro h
  obtain ⟨s, R, d, _, h1⟩ := dense_error hX floor fuel e q _ hq he h
  exact absurd (homProof_error h1) (by simp)

/-- A well-formed dictionary that passes the test of symmetry is symmetric. -/
theorem sym_of_check {q : TP K} (hq : IsPoly 3 q) (hs : (⟨q, 3⟩ : Coeff K).isSymmetricDefault = .ok true) : Sym q := by
  have hwf : (⟨q, 3⟩ : Coeff K).WF := ⟨hq.nodup, hq.arity⟩
  obtain ⟨b, hb, hb2⟩ := Coeff.isSymmetricDefault_iff (⟨q, 3⟩ : Coeff K) hwf (by simp)
  rw [hs] at hb
  have hperm := hb2.1 (Except.ok.inj hb).symm
  have key : ∀ σ : List ℕ → List ℕ, (∀ m, m.length = 3 → m.Perm (σ m) ∧ σ (σ m) = m) → q.Perm (q.map fun t => (σ t.1, t.2)) := by
    intro σ hσ
    have hinj : ∀ t ∈ q, ∀ u ∈ q, σ t.1 = σ u.1 → t.1 = u.1 := by
      intro t ht u hu e
      rw [← (hσ _ (hq.arity t ht)).2, e, (hσ _ (hq.arity u hu)).2]
    have hfw : ∀ t ∈ q, (σ t.1, t.2) ∈ q := by
      intro t ht
      have h1 : (⟨q, 3⟩ : Coeff K).call t.1 = t.2 := Coeff.call_eq_of_mem hwf ht
      have h2 := hperm t.1 (σ t.1) (hq.arity t ht) (hσ _ (hq.arity t ht)).1
      have h3 : (⟨q, 3⟩ : Coeff K).call (σ t.1) ≠ 0 := by
        rw [← h2, h1]
        exact hq.ne t ht
      have h4 := Coeff.mem_of_call_ne_zero hwf h3
      rw [← h2, h1] at h4
      exact h4
    rw [List.perm_ext_iff_of_nodup hq.nodup.of_map]
    · intro t
      constructor
      · intro ht
        refine List.mem_map.2 ⟨_, hfw t ht, ?_⟩
        change (σ (σ t.1), t.2) = t
        rw [(hσ _ (hq.arity t ht)).2]
      · intro ht
        obtain ⟨u, hu, rfl⟩ := List.mem_map.1 ht
        exact hfw u hu
    · refine List.Nodup.map_on ?_ hq.nodup.of_map
      intro t ht u hu e
      simp only [Prod.mk.injEq] at e
      exact Prod.ext (hinj t ht u hu e.1) e.2
  have fin : ∀ (σ : List ℕ → List ℕ) (x y : List K), (∀ m, m.length = 3 → m.Perm (σ m) ∧ σ (σ m) = m) →
      (∀ m, m.length = 3 → Coeff.evalMonom (σ m) x = Coeff.evalMonom m y) → Coeff.evalDict q x = Coeff.evalDict q y := by
    intro σ x y hσ h
    unfold Coeff.evalDict
    rw [((key σ hσ).map _).sum_eq, List.map_map]
    congr 1
    apply List.map_congr_left
    intro t ht
    simp only [Function.comp]
    rw [h _ (hq.arity t ht)]
  constructor
  · intro a b c
    refine fin (fun m => match m with | [i, j, k] => [j, i, k] | m => m) _ _ ?_ ?_
    · intro m hm
      obtain ⟨i, j, k, rfl⟩ := List.length_eq_three.1 hm
      exact ⟨List.Perm.swap _ _ _, rfl⟩
    · intro m hm
      obtain ⟨i, j, k, rfl⟩ := List.length_eq_three.1 hm
      simp only [Coeff.evalMonom, List.zipWith_cons_cons, List.zipWith_nil_right, List.prod_cons, List.prod_nil]
      ring
  · intro a b c
    refine fin (fun m => match m with | [i, j, k] => [i, k, j] | m => m) _ _ ?_ ?_
    · intro m hm
      obtain ⟨i, j, k, rfl⟩ := List.length_eq_three.1 hm
      exact ⟨(List.Perm.swap _ _ _).cons _, rfl⟩
    · intro m hm
      obtain ⟨i, j, k, rfl⟩ := List.length_eq_three.1 hm
      simp only [Coeff.evalMonom, List.zipWith_cons_cons, List.zipWith_nil_right, List.prod_cons, List.prod_nil]
      ring

/-- **C71.**  Every answer of `sos_struct_dense_symmetric` for a homogeneous polynomial in three variables is an identity with nonnegative weights and a
nonnegative denominator on the octant. -/
theorem denseSolve_sound {X : DenseExt K} (hX : X.Sound) (floor : K → ℤ) (fuel : ℕ) {d : ℕ} {q : TP K} (hq : IsPoly 3 q) (hd : HomDeg d q) {C : Cert K}
    (h : denseSolve X floor fuel ⟨q, 3⟩ = .ok (some C)) : Shows Octant (polyVal q) C := by
  unfold denseSolve at h
  split at h
  · exact absurd h (by simp)
  · rename_i h8
    split at h
    · exact absurd h (by simp)
    · exact absurd h (by simp)
    · rename_i hs
      have hne : q ≠ [] := by
        rintro rfl
        exact h8 (by simp [Coeff.degree])
      have hc : coeffOf q = ⟨q, 3⟩ := by
        unfold coeffOf
        rw [if_neg hne]
      rw [← hc] at h
      exact dense_sound hX floor fuel d q C ⟨hq, sym_of_check hq hs, hd⟩ h

/-! ### The contracts can be met, and an answer is found -/

theorem exists_rem : ∀ p : TP K, Arity 1 p → ∃ q : TP K, ∃ u v : K, Arity 1 q ∧ ∀ t, Coeff.evalDict p [t] = Coeff.evalDict q [t] * (t - 1) ^ 2 + (u * t + v)
  | [], _ => ⟨[], 0, 0, by simp [Arity], fun t => by simp [evalDict_nil]⟩
  | (m, c) :: p, hp => by
    obtain ⟨q, u, v, hq, h⟩ := exists_rem p fun t ht => hp t (List.mem_cons_of_mem _ ht)
    obtain ⟨k, rfl⟩ := List.length_eq_one_iff.1 (hp _ (List.mem_cons_self ..))
    obtain ⟨w, hw, hk⟩ := exists_pow (K := K) k
    refine ⟨TermsPoly.pmul (pconst 1 c) w ++ q, c * k + u, c * (1 - k) + v, arity_append (arity_pmul (arity_pconst 1 _) hw) hq, fun t => ?_⟩
    have h1 := evalDict_pmul (pconst 1 c) w [t] (arity_pconst 1 _) hw
    have h2 : Coeff.evalDict (pconst 1 c) [t] = c := evalDict_pconst 1 _ _
    rw [h2] at h1
    have h3 : Coeff.evalMonom [k] [t] = t ^ k := by simp [Coeff.evalMonom]
    rw [evalDict_cons, h, evalDict_append, h1]
    simp only [h3, hk]
    ring

/-- A division with the contracts of `DenseExt.Sound` exists. -/
theorem exists_div (n : ℕ) (p g : TP K) : ∃ d : TP K × TP K, (Arity n p → Arity n g → IsPoly n d.1 ∧ IsPoly n d.2 ∧
    ∀ x : List K, x.length = n → Coeff.evalDict p x = Coeff.evalDict d.1 x * Coeff.evalDict g x + Coeff.evalDict d.2 x) ∧
    (Arity n p → Arity n g → (∃ q, Arity n q ∧ ∀ x : List K, x.length = n → Coeff.evalDict p x = Coeff.evalDict q x * Coeff.evalDict g x) → d.2 = []) ∧
    (n = 1 → Arity n p → g = sq1 → ∀ t ∈ d.2, t.1 = [0] ∨ t.1 = [1]) := by
  by_cases hp : Arity n p
  swap
  · exact ⟨([], []), fun h => absurd h hp, fun h => absurd h hp, fun _ h => absurd h hp⟩
  have inil : IsPoly n ([] : TP K) := ⟨by simp [Arity], by simp [dkeys], by simp⟩
  by_cases hex : ∃ q, Arity n q ∧ ∀ x : List K, x.length = n → Coeff.evalDict p x = Coeff.evalDict q x * Coeff.evalDict g x
  · obtain ⟨q, hq, h⟩ := hex
    refine ⟨(collect q, []), fun _ _ => ⟨isPoly_collect hq, inil, fun x hx => ?_⟩, fun _ _ _ => rfl, fun _ _ _ t ht => absurd ht (by simp)⟩
    rw [evalDict_collect, evalDict_nil, add_zero, h x hx]
  · by_cases h1 : n = 1 ∧ g = sq1
    · obtain ⟨rfl, rfl⟩ := h1
      obtain ⟨q, u, v, hq, h⟩ := exists_rem p hp
      have har : Arity 1 ([([1], u), ([0], v)] : TP K) := by
        intro t ht
        simp only [List.mem_cons, List.not_mem_nil, or_false] at ht
        rcases ht with rfl | rfl <;> rfl
      refine ⟨(collect q, collect [([1], u), ([0], v)]), fun _ _ => ⟨isPoly_collect hq, isPoly_collect har, fun x hx => ?_⟩, fun _ _ h => absurd h hex, fun _ _ _ t ht => ?_⟩
      · obtain ⟨t, rfl⟩ := List.length_eq_one_iff.1 hx
        rw [evalDict_collect, evalDict_collect, h, sq1_value, evalDict_cons, evalDict_cons, evalDict_nil]
        simp [Coeff.evalMonom]
      · obtain ⟨w, hw, e⟩ := mem_collect _ _ ht
        simp only [List.mem_cons, List.not_mem_nil, or_false] at hw
        rcases hw with rfl | rfl
        · exact Or.inr e.symm
        · exact Or.inl e.symm
    · refine ⟨([], collect p), fun _ _ => ⟨inil, isPoly_collect hp, fun x _ => ?_⟩, fun _ _ h => absurd h hex, fun h _ h' => absurd ⟨h, h'⟩ h1⟩
      rw [evalDict_collect, evalDict_nil, zero_mul, zero_add]

open Classical in
/-- A division for the example. -/
noncomputable def exDiv (p g : TP K) : TP K × TP K :=
  match p with
  | [] => ([], [])
  | t :: p => Classical.choose (exists_div t.1.length (t :: p) g)

theorem exDiv_spec {n : ℕ} {p g : TP K} (hp : Arity n p) (hg : Arity n g) : IsPoly n (exDiv p g).1 ∧ IsPoly n (exDiv p g).2 ∧
    (∀ x : List K, x.length = n → Coeff.evalDict p x = Coeff.evalDict (exDiv p g).1 x * Coeff.evalDict g x + Coeff.evalDict (exDiv p g).2 x) ∧
    ((∃ q, Arity n q ∧ ∀ x : List K, x.length = n → Coeff.evalDict p x = Coeff.evalDict q x * Coeff.evalDict g x) → (exDiv p g).2 = []) ∧
    (n = 1 → g = sq1 → ∀ t ∈ (exDiv p g).2, t.1 = [0] ∨ t.1 = [1]) := by
  cases p with
  | nil =>
    refine ⟨⟨by simp [exDiv, Arity], by simp [exDiv, dkeys], by simp [exDiv]⟩, ⟨by simp [exDiv, Arity], by simp [exDiv, dkeys], by simp [exDiv]⟩, ?_, fun _ => rfl, fun _ _ t ht => absurd ht (by simp [exDiv])⟩
    intro x _
    simp [exDiv, evalDict_nil]
  | cons t p =>
    have e : t.1.length = n := hp t (List.mem_cons_self ..)
    subst e
    have h := Classical.choose_spec (exists_div t.1.length (t :: p) g)
    exact ⟨(h.1 hp hg).1, (h.1 hp hg).2.1, (h.1 hp hg).2.2, h.2.1 hp hg, fun h1 h2 => h.2.2 h1 hp h2⟩

/-- Callees for the example: a division, and solvers that find nothing. -/
noncomputable def exExt (K : Type*) [Field K] [LinearOrder K] [IsStrictOrderedRing K] : DenseExt K := ⟨fun _ => none, exDiv, fun _ => none⟩

theorem exExt_sound : (exExt K).Sound where
  ternary := fun _ _ _ _ h => absurd h (by simp [exExt])
  div_eq := fun _ _ _ hp hg => ⟨(exDiv_spec hp hg).1, (exDiv_spec hp hg).2.1, (exDiv_spec hp hg).2.2.1⟩
  div_exact := fun _ _ _ q hp hg hq h => (exDiv_spec hp hg).2.2.2.1 ⟨q, hq, h⟩
  div_rem := fun _ hp => (exDiv_spec hp isPoly_sq1.arity).2.2.2.2 rfl rfl
  prove := fun _ _ _ h => absurd h (by simp [exExt])

/-- `CyclicSum((a - b)^2 (a - c)^2 b^2 c^2)`. -/
def exDense : TP ℚ := collect (cycT (liftT [([0, 2, 2], 1)]))

example : GoodPoly 8 exDense := by
  have ha : Arity 3 ([([0, 2, 2], 1)] : TP ℚ) := arity_mono3 _ _ _ _
  refine ⟨isPoly_collect (arity_cycT (arity_liftT ha)), sym_of_check (isPoly_collect (arity_cycT (arity_liftT ha))) (by decide +kernel), ?_⟩
  exact homDeg_collect (homDeg_cycT (arity_liftT ha) (homDeg_liftT ha (homDeg_mono3 _ _ _ _)))

theorem exDiv_exact {n : ℕ} {p g q : TP ℚ} (hp : Arity n p) (hg : Arity n g) (hgv : toMv n g ≠ 0) (hq : IsPoly n q)
    (h : ∀ x : List ℚ, x.length = n → Coeff.evalDict p x = Coeff.evalDict q x * Coeff.evalDict g x) : (exDiv p g).2 = [] ∧ (exDiv p g).1.Perm q := by
  obtain ⟨h1, _, h3, h4, _⟩ := exDiv_spec hp hg
  have h5 := h4 ⟨q, hq.arity, h⟩
  refine ⟨h5, perm_of_values h1 hq fun x hx => ?_⟩
  rw [h5] at h3
  have hz : (toMv n (exDiv p g).1 - toMv n q) * toMv n g = 0 := by
    apply MvPolynomial.funext
    intro y
    rw [map_mul, map_sub, eval_toMv y h1.arity, eval_toMv y hq.arity, eval_toMv y hg, map_zero, sub_mul, ← h _ (by simp), h3 _ (by simp), evalDict_nil]
    ring
  have he := sub_eq_zero.1 ((mul_eq_zero.1 hz).resolve_right hgv)
  subst hx
  have := congrArg (MvPolynomial.eval fun i : Fin x.length => x[i]) he
  rw [eval_toMv _ h1.arity, eval_toMv _ hq.arity] at this
  simpa using this

/-- The centred dictionary of the example. -/
def exCentred : TP ℚ := match centered exDense 2 3 3 0 with | .ok c => c | .error _ => []

/-- The example is answered, by the lift without a multiplier. -/
theorem exDense_answered : ∃ C, denseSolve (exExt ℚ) Int.floor 2 ⟨exDense, 3⟩ = .ok (some C) := by
  have h1 : ¬ (⟨exDense, 3⟩ : Coeff ℚ).degree < 8 := by decide +kernel
  have h2 : (⟨exDense, 3⟩ : Coeff ℚ).isSymmetricDefault = .ok true := by decide +kernel
  have h3 : trivialAdditive (⟨exDense, 3⟩ : Coeff ℚ) = none := by
    unfold trivialAdditive
    rw [if_pos (by decide +kernel)]
  have h4 : (exDense.map Prod.snd).sum = 0 := by decide +kernel
  have h5 : totalDegree (⟨exDense, 3⟩ : Coeff ℚ) = .ok 8 := by decide +kernel
  have h6 : centered exDense 2 3 3 0 = .ok exCentred := by decide +kernel
  have a1 : Arity 1 (symAxis (⟨exCentred, 3⟩ : Coeff ℚ)) := arity_symAxis _
  have hne : ∀ g : TP ℚ, Arity 1 g → Coeff.evalDict g [0] ≠ 0 → toMv 1 g ≠ 0 := by
    intro g hg h h0
    have := eval_toMv (fun _ : Fin 1 => (0 : ℚ)) hg
    rw [h0, map_zero] at this
    exact h (by simpa using this.symm)
  have hs1 := hne sq1 isPoly_sq1.arity (by rw [sq1_value]; norm_num)
  obtain ⟨d1, d2⟩ := exDiv_exact a1 isPoly_sq1.arity hs1 isPoly_sq1 fun x hx => by
    obtain ⟨t, rfl⟩ := List.length_eq_one_iff.1 hx
    have e : (symAxis (⟨exCentred, 3⟩ : Coeff ℚ)).Perm sq2 := by decide +kernel
    have e' : Coeff.evalDict (symAxis (⟨exCentred, 3⟩ : Coeff ℚ)) [t] = Coeff.evalDict sq2 [t] := (e.map _).sum_eq
    rw [e', sq1_value, sq2_value]
    ring
  have p1 : IsPoly 1 (exDiv (symAxis (⟨exCentred, 3⟩ : Coeff ℚ)) sq1).1 := (exDiv_spec a1 isPoly_sq1.arity).1
  have pc : IsPoly 1 ([([0], 1)] : TP ℚ) := ⟨by simp [Arity], by simp [dkeys], by simp⟩
  obtain ⟨d3, d4⟩ := exDiv_exact p1.arity isPoly_sq1.arity hs1 pc fun x hx => by
    obtain ⟨t, rfl⟩ := List.length_eq_one_iff.1 hx
    have e : Coeff.evalDict ([([0], 1)] : TP ℚ) [t] = 1 := by
      rw [evalDict_cons, evalDict_nil]
      simp [Coeff.evalMonom]
    rw [e, one_mul]
    unfold Coeff.evalDict
    rw [(d2.map _).sum_eq]
  have d5 := List.perm_singleton.1 d4
  have h7 : collect (exCentred ++ pneg (cycT (liftT (homAxis ([([0], 1)] : TP ℚ) 4)))) = [] := by decide +kernel
  have h8 : trivialAdditive (coeffOf ([] : TP ℚ)) = some (.plain []) := by
    unfold trivialAdditive coeffOf
    rw [if_pos rfl, if_neg (by simp)]
    simp [Coeff.degree, Coeff.call, dget, isRep]
  have h9 : dense (exExt ℚ) Int.floor 1 (coeffOf []) = .ok (some (.plain [])) := by
    unfold dense
    rw [h8]
  have h10 : liftFree (exExt ℚ) Int.floor (dense (exExt ℚ) Int.floor 1) ⟨exCentred, 3⟩ = .ok (some (Cert.add (times discV (.plain [])) 1
      (cyc3 fun a b c => (a - b) ^ 2 * (a - c) ^ 2 * polyVal (homAxis [([0], 1)] 4) a b c))) := by
    unfold liftFree
    have c1 : (⟨exCentred, 3⟩ : Coeff ℚ).degree = 8 := by decide +kernel
    have d1' : ((exExt ℚ).div (symAxis (⟨exCentred, 3⟩ : Coeff ℚ)) sq1).2 = [] := d1
    have d3' : ((exExt ℚ).div ((exExt ℚ).div (symAxis (⟨exCentred, 3⟩ : Coeff ℚ)) sq1).1 sq1).2 = [] := d3
    dsimp only
    rw [c1, if_neg (by omega), if_neg (not_not.2 d1'), if_pos d3']
    unfold ord4Core
    have c2 : badSigns ([([0], 1)] : TP ℚ) = false := by decide +kernel
    have c3 : (([([0], 1)] : TP ℚ).all fun t => decide (0 ≤ t.2)) = true := by decide +kernel
    change (if badSigns (exDiv (exDiv (symAxis (⟨exCentred, 3⟩ : Coeff ℚ)) sq1).1 sq1).1 = true then _ else _) = _
    simp only [exExt, c1]
    rw [d5, c2, c3]
    simp only [Bool.false_eq_true, if_false, if_true]
    rw [h7]
    have c4 : (exDiv ([] : TP ℚ) discT).1 = [] := rfl
    rw [c4]
    have h9' := h9
    unfold exExt at h9'
    rw [h9']
    rfl
  have hu : ∃ C, uncentered (liftFree (exExt ℚ) Int.floor (dense (exExt ℚ) Int.floor 1)) ⟨exDense, 3⟩ = .ok (some C) := by
    unfold uncentered
    dsimp only
    rw [h4, if_neg (lt_irrefl _), h5]
    have c : centered exDense (centerKey 8).1 (centerKey 8).2.1 (centerKey 8).2.2 0 = .ok exCentred := h6
    dsimp only
    rw [c]
    dsimp only
    rw [h10]
    exact ⟨_, rfl⟩
  obtain ⟨C, hC⟩ := hu
  refine ⟨C, ?_⟩
  unfold denseSolve
  rw [if_neg h1, h2]
  dsimp only
  unfold dense
  rw [h3]
  dsimp only
  rw [if_neg h1, hC]

end Verif.Dense
