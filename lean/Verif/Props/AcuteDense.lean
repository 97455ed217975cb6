import Mathlib.Analysis.Real.Sqrt
import Verif.Props.Acute

/-!
# What the solver for acute triangles guarantees: all quartics, cubics and symmetric polynomials of higher degree
-/

namespace Verif.Acute

open Verif.Ternary Verif.TermsPoly

variable {K : Type*} [Field K] [LinearOrder K] [IsStrictOrderedRing K]

/-! ### The denominators of the quartic solver -/

/-- A property of `Shows` needed to conclude at every triangle that is not equilateral. -/
def PosOff (C : Cert K) : Prop := ∀ a b c, Tri a b c → ¬ (a = b ∧ b = c) → 0 < C.den a b c

theorem denQuart_pos : ∀ a b c : K, Tri a b c → ¬ (a = b ∧ b = c) → 0 < denQuart a b c := by
  intro a b c h hne
  obtain ⟨ha, hb, hc⟩ := h.octant
  have hd := tri_denQuart a b c h
  refine lt_of_le_of_ne hd fun h0 => hne ?_
  have n1 : 0 ≤ a * (b + c - 2 * a) ^ 2 := by positivity
  have n2 : 0 ≤ b * (c + a - 2 * b) ^ 2 := by positivity
  have n3 : 0 ≤ c * (a + b - 2 * c) ^ 2 := by positivity
  have m1 : 0 ≤ a * (b - c) ^ 2 := by positivity
  have m2 : 0 ≤ b * (c - a) ^ 2 := by positivity
  have m3 : 0 ≤ c * (a - b) ^ 2 := by positivity
  unfold denQuart cyc3 at h0
  have key : ∀ x y z : K, 0 < x → x * (y + z - 2 * x) ^ 2 = 0 → x * (y - z) ^ 2 = 0 → y = x ∧ z = x := by
    intro x y z hx e1 e2
    have f1 := pow_eq_zero_iff two_ne_zero |>.1 ((mul_eq_zero.1 e1).resolve_left hx.ne')
    have f2 := pow_eq_zero_iff two_ne_zero |>.1 ((mul_eq_zero.1 e2).resolve_left hx.ne')
    constructor <;> linarith
  rcases ha.lt_or_eq with ha' | ha'
  · obtain ⟨h1, h2⟩ := key a b c ha' (by linarith) (by linarith)
    exact ⟨h1.symm, h1.trans h2.symm⟩
  · rcases hb.lt_or_eq with hb' | hb'
    · obtain ⟨h1, h2⟩ := key b c a hb' (by linarith) (by linarith)
      exact ⟨h2, h1.symm⟩
    · obtain ⟨h1, h2⟩ := key c a b (lt_of_le_of_ne hc fun h3 => h.ne ⟨ha'.symm, hb'.symm, h3.symm⟩) (by linarith) (by linarith)
      exact ⟨h1.trans h2.symm, h2⟩

theorem solveQuad_pos {f : Quartic K} {vb2 vc2 : K} {C : Cert K} (h : solveQuad f vb2 vc2 = .ok (some C)) : PosOff C := by
  unfold solveQuad at h
  obtain ⟨r, hr, hs⟩ := acyclicQuadratic_sound (⟨f.n / 2, (f.q + f.r) / 2, (f.p + f.r) / 2, vb2, (f.p + f.q) / 2, vc2⟩ : Quad K)
  rw [hr] at h
  obtain ⟨s, hs', rfl⟩ := Option.map_eq_some_iff.1 (Except.ok.inj h)
  intro a b c ht _
  have hp := fun a b c (h : Tri a b c) => (hs s hs').pos a b c h.octant h.ne
  exact mul_pos (mul_pos (hp a b c ht) (hp b c a ht.rot)) (hp c a b ht.rot.rot)

theorem acuteQuartic_pos {X : AcuteExt K} (hX : X.Sound) {f : Quartic K} {C : Cert K} (h : acuteQuartic X f = .ok (some C)) : PosOff C := by
  unfold acuteQuartic at h
  by_cases h0 : f.m + f.p + f.n + f.q + f.r < 0
  · rw [if_pos h0] at h
    exact absurd h (by simp)
  · rw [if_neg h0] at h
    split at h
    · exact absurd h (by simp)
    · rename_i E hE
      rw [← Option.some.inj (Except.ok.inj h)]
      split at hE
      · unfold acuteQuarticFirst at hE
        dsimp only at hE
        split at hE
        · exact absurd hE (by simp)
        · rename_i E' hE'
          rw [← Option.some.inj (Except.ok.inj hE)]
          by_cases h1 : 0 < f.n / 2
          · rw [if_pos h1] at hE'
            exact solveQuad_pos hE'
          · rw [if_neg h1] at hE'
            exact absurd hE' (by simp)
        · split at hE
          · exact absurd hE (by simp)
          · exact solveQuad_pos hE
      · exact absurd hE (by simp)
    · unfold acuteQuarticSecond at h
      dsimp only at h
      split at h
      · cases hq : X.quart ⟨f.m + (f.n + f.p + f.q) / 4, f.p - (f.n + f.p + f.q) / 4, f.n - 2 * ((f.n + f.p + f.q) / 4), f.q - (f.n + f.p + f.q) / 4,
            f.r + 3 * ((f.n + f.p + f.q) / 4)⟩ with
        | error e =>
          rw [hq] at h
          exact absurd h (by simp [Except.map])
        | ok r =>
          rw [hq] at h
          obtain ⟨s, rfl, rfl⟩ := Option.map_eq_some_iff.1 (Except.ok.inj h)
          intro a b c ht hne
          exact mul_pos ((hX.quart _ _ hq).pos a b c ht.octant ht.ne) (denQuart_pos a b c ht hne)
      · exact absurd h (by simp)

theorem acuteQuartic_sum {X : AcuteExt K} {f : Quartic K} {C : Cert K} (h : acuteQuartic X f = .ok (some C)) : 0 ≤ f.m + f.p + f.n + f.q + f.r := by
  unfold acuteQuartic at h
  by_contra h0
  rw [if_pos (not_le.1 h0)] at h
  exact absurd h (by simp)

/-- **C51 (quartics).** If the solver answers, the quartic is nonnegative for every right or acute triangle. -/
theorem acuteQuartic_nonneg {X : AcuteExt K} (hX : X.Sound) {f : Quartic K} {C : Cert K} (h : acuteQuartic X f = .ok (some C)) {a b c : K} (ht : Tri a b c) :
    0 ≤ f.poly a b c := by
  by_cases he : a = b ∧ b = c
  · obtain ⟨rfl, rfl⟩ := he
    have e : f.poly a a a = 3 * a ^ 4 * (f.m + f.p + f.n + f.q + f.r) := by
      unfold Quartic.poly
      ring
    rw [e]
    exact mul_nonneg (by positivity) (acuteQuartic_sum h)
  · exact (acuteQuartic_shows hX h).nonneg ht (acuteQuartic_pos hX h a b c ht he).ne'

/-! ### Cubics -/

/-- **C51 (cubics).** -/
theorem acuteCubic_shows {X : AcuteExt K} (hX : X.Sound) {f : Cubic K} {C : Cert K} (h : acuteCubic X f = .ok (some C)) : Shows Tri f.poly C := by
  unfold acuteCubic at h
  by_cases hpq : f.p ≠ f.q
  · rw [if_pos hpq] at h
    cases hq : acuteQuartic X (liftCubic f) with
    | error e =>
      rw [hq] at h
      exact absurd h (by simp [Except.map])
    | ok r =>
      rw [hq] at h
      obtain ⟨s, rfl, rfl⟩ := Option.map_eq_some_iff.1 (Except.ok.inj h)
      refine (acuteQuartic_shows hX hq).over (fun a b c ht => (tri_sumA a b c ht).le) fun a b c => ?_
      simp only [Quartic.poly, Cubic.poly, liftCubic, sumA, cyc3]
      ring
  · rw [if_neg hpq] at h
    push Not at hpq
    by_cases hm : 0 ≤ f.m
    · rw [if_pos hm] at h
      exact (shows_of_proves (hX.cub _ _ h)).mono fun a b c => Tri.two
    · rw [if_neg hm] at h
      push Not at hm
      cases hs : getSol X (f.p / -f.m) (f.r / -f.m) with
      | error e =>
        rw [hs] at h
        exact absurd h (by simp [Except.map])
      | ok r =>
        rw [hs] at h
        obtain ⟨s, rfl, rfl⟩ := Option.map_eq_some_iff.1 (Except.ok.inj h)
        refine ((getSol_shows hX hs).smul (neg_nonneg.2 hm.le)).congr fun a b c => ?_
        have hm' : f.m ≠ 0 := hm.ne
        simp only [cubP, Cubic.poly, ← hpq]
        field_simp
        ring

/-! ### Polynomials as lists of terms -/

theorem arity_rotT {p : List (List ℕ × K)} (hp : Arity 3 p) : Arity 3 (rotT p) := by
  intro t ht
  obtain ⟨u, hu, rfl⟩ := List.mem_map.1 ht
  have := hp u hu
  obtain ⟨m, v⟩ := u
  obtain ⟨i, j, k, rfl⟩ := List.length_eq_three.1 this
  rfl

theorem homDeg_rotT {d : ℕ} {p : List (List ℕ × K)} (hp : Arity 3 p) (hd : HomDeg d p) : HomDeg d (rotT p) := by
  intro t ht
  obtain ⟨u, hu, rfl⟩ := List.mem_map.1 ht
  have h1 := hp u hu
  have h2 := hd u hu
  obtain ⟨m, v⟩ := u
  obtain ⟨i, j, k, rfl⟩ := List.length_eq_three.1 h1
  simp at h2 ⊢
  omega

theorem polyVal_rotT {p : List (List ℕ × K)} (hp : Arity 3 p) (a b c : K) : polyVal (rotT p) a b c = polyVal p b c a := by
  induction p with
  | nil => rfl
  | cons t p ih =>
    have h1 := hp t (by simp)
    have ih' := ih fun u hu => hp u (by simp [hu])
    obtain ⟨m, v⟩ := t
    obtain ⟨i, j, k, rfl⟩ := List.length_eq_three.1 h1
    unfold polyVal at ih' ⊢
    rw [evalDict_cons]
    change Coeff.evalDict (([k, i, j], v) :: rotT p) [a, b, c] = _
    rw [evalDict_cons, ih']
    simp only [Coeff.evalMonom, List.zipWith_cons_cons, List.zipWith_nil_right, List.prod_cons, List.prod_nil]
    ring

theorem arity_append {n : ℕ} {p q : List (List ℕ × K)} (hp : Arity n p) (hq : Arity n q) : Arity n (p ++ q) := by
  intro t ht
  rcases List.mem_append.1 ht with h | h
  · exact hp t h
  · exact hq t h

theorem homDeg_append {n : ℕ} {p q : List (List ℕ × K)} (hp : HomDeg n p) (hq : HomDeg n q) : HomDeg n (p ++ q) := by
  intro t ht
  rcases List.mem_append.1 ht with h | h
  · exact hp t h
  · exact hq t h

theorem arity_cycT {p : List (List ℕ × K)} (hp : Arity 3 p) : Arity 3 (cycT p) :=
  arity_collect (arity_append (arity_append hp (arity_rotT hp)) (arity_rotT (arity_rotT hp)))

theorem homDeg_cycT {d : ℕ} {p : List (List ℕ × K)} (hp : Arity 3 p) (hd : HomDeg d p) : HomDeg d (cycT p) :=
  homDeg_collect (homDeg_append (homDeg_append hd (homDeg_rotT hp hd)) (homDeg_rotT (arity_rotT hp) (homDeg_rotT hp hd)))

theorem polyVal_cycT {p : List (List ℕ × K)} (hp : Arity 3 p) (a b c : K) : polyVal (cycT p) a b c = cyc3 (polyVal p) a b c := by
  have h1 := polyVal_rotT hp a b c
  have h2 := (polyVal_rotT (arity_rotT hp) a b c).trans (polyVal_rotT hp b c a)
  unfold cycT
  unfold polyVal at h1 h2 ⊢
  rw [evalDict_collect, evalDict_append, evalDict_append, h1, h2]
  rfl

theorem polyVal_pmul {p q : List (List ℕ × K)} (hp : Arity 3 p) (hq : Arity 3 q) (a b c : K) : polyVal (pmul p q) a b c = polyVal p a b c * polyVal q a b c :=
  evalDict_pmul p q [a, b, c] hp hq

theorem arity_cycpT {p : List (List ℕ × K)} (hp : Arity 3 p) : Arity 3 (cycpT p) := arity_pmul (arity_pmul hp (arity_rotT hp)) (arity_rotT (arity_rotT hp))

theorem homDeg_cycpT {d : ℕ} {p : List (List ℕ × K)} (hp : Arity 3 p) (hd : HomDeg d p) : HomDeg (d + d + d) (cycpT p) :=
  homDeg_pmul (arity_pmul hp (arity_rotT hp)) (arity_rotT (arity_rotT hp)) (homDeg_pmul hp (arity_rotT hp) hd (homDeg_rotT hp hd))
    (homDeg_rotT (arity_rotT hp) (homDeg_rotT hp hd))

theorem polyVal_cycpT {p : List (List ℕ × K)} (hp : Arity 3 p) (a b c : K) : polyVal (cycpT p) a b c = cycp3 (polyVal p) a b c := by
  unfold cycpT
  rw [polyVal_pmul (arity_pmul hp (arity_rotT hp)) (arity_rotT (arity_rotT hp)), polyVal_pmul hp (arity_rotT hp), polyVal_rotT hp,
    polyVal_rotT (arity_rotT hp), polyVal_rotT hp]
  rfl

theorem arity_fT : Arity 3 (fT : List (List ℕ × K)) := by
  intro t ht
  simp only [fT, List.mem_cons, List.not_mem_nil, or_false] at ht
  rcases ht with rfl | rfl | rfl <;> rfl

theorem homDeg_fT : HomDeg 2 (fT : List (List ℕ × K)) := by
  intro t ht
  simp only [fT, List.mem_cons, List.not_mem_nil, or_false] at ht
  rcases ht with rfl | rfl | rfl <;> rfl

theorem polyVal_fT : (polyVal fT : Val3 K) = fA := by
  funext a b c
  simp [polyVal, fT, fA, Coeff.evalDict, Coeff.evalMonom]
  ring

theorem arity_abT : Arity 3 (abT : List (List ℕ × K)) := by
  intro t ht
  simp only [abT, List.mem_cons, List.not_mem_nil, or_false] at ht
  rcases ht with rfl | rfl <;> rfl

theorem homDeg_abT : HomDeg 1 (abT : List (List ℕ × K)) := by
  intro t ht
  simp only [abT, List.mem_cons, List.not_mem_nil, or_false] at ht
  rcases ht with rfl | rfl <;> rfl

theorem polyVal_abT (a b c : K) : polyVal abT a b c = a - b := by
  simp [polyVal, abT, Coeff.evalDict, Coeff.evalMonom]
  ring

theorem arity_acT : Arity 3 (acT : List (List ℕ × K)) := by
  intro t ht
  simp only [acT, List.mem_cons, List.not_mem_nil, or_false] at ht
  rcases ht with rfl | rfl <;> rfl

theorem homDeg_acT : HomDeg 1 (acT : List (List ℕ × K)) := by
  intro t ht
  simp only [acT, List.mem_cons, List.not_mem_nil, or_false] at ht
  rcases ht with rfl | rfl <;> rfl

theorem polyVal_acT (a b c : K) : polyVal acT a b c = a - c := by
  simp [polyVal, acT, Coeff.evalDict, Coeff.evalMonom]
  ring

theorem arity_discT : Arity 3 (discT : List (List ℕ × K)) := arity_cycpT (arity_pmul arity_abT arity_abT)

theorem homDeg_discT : HomDeg 6 (discT : List (List ℕ × K)) := homDeg_cycpT (arity_pmul arity_abT arity_abT) (homDeg_pmul arity_abT arity_abT homDeg_abT homDeg_abT)

theorem polyVal_discT (a b c : K) : polyVal discT a b c = discV a b c := by
  unfold discT
  rw [polyVal_cycpT (arity_pmul arity_abT arity_abT)]
  simp only [discV, cycp3, polyVal_pmul arity_abT arity_abT, polyVal_abT]
  ring

theorem arity_multQ : Arity 3 (multQ : List (List ℕ × K)) := by
  intro t ht
  simp only [multQ, List.mem_cons, List.not_mem_nil, or_false] at ht
  rcases ht with rfl | rfl | rfl | rfl | rfl | rfl | rfl <;> rfl

theorem homDeg_multQ : HomDeg 3 (multQ : List (List ℕ × K)) := by
  intro t ht
  simp only [multQ, List.mem_cons, List.not_mem_nil, or_false] at ht
  rcases ht with rfl | rfl | rfl | rfl | rfl | rfl | rfl <;> rfl

theorem arity_multT : Arity 3 (multT : List (List ℕ × K)) := arity_pmul (arity_cycT (arity_pmul arity_multQ arity_multQ)) (arity_pconst 3 _)

theorem homDeg_multT : HomDeg 6 (multT : List (List ℕ × K)) :=
  homDeg_pmul (arity_cycT (arity_pmul arity_multQ arity_multQ)) (arity_pconst 3 _)
    (homDeg_cycT (arity_pmul arity_multQ arity_multQ) (homDeg_pmul arity_multQ arity_multQ homDeg_multQ homDeg_multQ)) (homDeg_pconst 3 _)

theorem multT_nonneg (a b c : K) : 0 ≤ polyVal multT a b c := by
  unfold multT
  rw [polyVal_pmul (arity_cycT (arity_pmul arity_multQ arity_multQ)) (arity_pconst 3 _), polyVal_cycT (arity_pmul arity_multQ arity_multQ)]
  have e : polyVal (pconst 3 (1 / 6 : K)) a b c = 1 / 6 := evalDict_pconst 3 _ _
  rw [e]
  simp only [cyc3, polyVal_pmul arity_multQ arity_multQ]
  nlinarith [mul_self_nonneg (polyVal multQ a b c), mul_self_nonneg (polyVal multQ b c a), mul_self_nonneg (polyVal multQ c a b)]

theorem arity_liftT {l : List (List ℕ × K)} (hl : Arity 3 l) : Arity 3 (liftT l) :=
  arity_pmul (arity_pmul (arity_pmul arity_abT arity_abT) (arity_pmul arity_acT arity_acT)) hl

theorem homDeg_liftT {d : ℕ} {l : List (List ℕ × K)} (hl : Arity 3 l) (hd : HomDeg d l) : HomDeg (4 + d) (liftT l) :=
  homDeg_pmul (arity_pmul (arity_pmul arity_abT arity_abT) (arity_pmul arity_acT arity_acT)) hl
    (homDeg_pmul (arity_pmul arity_abT arity_abT) (arity_pmul arity_acT arity_acT) (homDeg_pmul arity_abT arity_abT homDeg_abT homDeg_abT)
      (homDeg_pmul arity_acT arity_acT homDeg_acT homDeg_acT)) hd

theorem polyVal_liftT {l : List (List ℕ × K)} (hl : Arity 3 l) (a b c : K) : polyVal (liftT l) a b c = (a - b) ^ 2 * (a - c) ^ 2 * polyVal l a b c := by
  unfold liftT
  rw [polyVal_pmul (arity_pmul (arity_pmul arity_abT arity_abT) (arity_pmul arity_acT arity_acT)) hl,
    polyVal_pmul (arity_pmul arity_abT arity_abT) (arity_pmul arity_acT arity_acT), polyVal_pmul arity_abT arity_abT, polyVal_pmul arity_acT arity_acT,
    polyVal_abT, polyVal_acT]
  ring

/-! ### Symmetric polynomials of higher degree -/

/-- The contracts of the further calls: the general cyclic solver, polynomial division, and the proof of the axis. -/
structure AcuteExt.SoundDense (X : AcuteExt K) : Prop extends X.Sound where
  ternary : ∀ p C, Arity 3 p → X.ternary p = some C → Shows Octant (polyVal p) C
  /-- Division by a polynomial of degree six: the identity, and the quotient of a homogeneous polynomial in an exact division is homogeneous. -/
  div_eq : ∀ p g, Arity 3 p → Arity 3 g → (X.div p g).2 = [] → Arity 3 (X.div p g).1 ∧ ∀ a b c, polyVal p a b c = polyVal (X.div p g).1 a b c * polyVal g a b c
  div_hom : ∀ p d, Arity 3 p → HomDeg (d + 6) p → (X.div p discT).2 = [] → HomDeg d (X.div p discT).1
  /-- `(a - 1)^2` does not divide a nonzero polynomial of degree at most one. -/
  div_small : ∀ s, s ≠ [] → (∀ t ∈ s, t.1.getD 0 0 < 2) → (X.div s [([2], 1), ([1], -2), ([0], 1)]).2 ≠ []
  axis : ∀ s d l, X.axis s d = some l → Arity 3 l ∧ HomDeg d l ∧ ∀ a b c, Octant a b c → 0 ≤ polyVal l a b c

theorem acuteUncentered_shows {X : AcuteExt K} (hX : X.SoundDense) {co : Coeff K} (hp : Arity 3 co.coeffs) {C : Cert K} (h : acuteUncentered X co = some C) :
    Shows Tri (polyVal co.coeffs) C := by
  unfold acuteUncentered at h
  dsimp only at h
  split at h
  · exact absurd h (by simp)
  · split at h
    · exact absurd h (by simp)
    · rename_i hd hpos
      push Not at hpos
      obtain ⟨s, hs, rfl⟩ := Option.map_eq_some_iff.1 h
      generalize (co.coeffs.map Prod.snd).sum = v at hs hpos
      generalize co.degree - 6 = k at hs
      have am : Arity 3 ([([k, 0, 0], 1)] : List (List ℕ × K)) := by
        intro t ht
        simp only [List.mem_cons, List.not_mem_nil, or_false] at ht
        subst ht
        rfl
      have ae := arity_pmul (arity_pmul (arity_cycpT arity_fT) (arity_cycT am)) (arity_pconst 3 (v / 3))
      have h1 := (hX.ternary _ _ (arity_collect (arity_append hp (arity_pneg ae))) hs).mono (fun a b c => Tri.octant (K := K) (a := a) (b := b) (c := c))
      refine (h1.add (w := v / 3) (by positivity) (e := fun a b c => cycp3 fA a b c * cyc3 (fun a _ _ => a ^ k) a b c) ?_).congr fun a b c => ?_
      · intro a b c ht
        exact mul_nonneg (tri_cycp fA_nonneg a b c ht) (tri_cyc (f := fun a _ _ => a ^ k) (fun a b c h => pow_nonneg h.ha k) a b c ht)
      · have e1 := polyVal_pmul (arity_pmul (arity_cycpT arity_fT) (arity_cycT am)) (arity_pconst 3 (v / 3)) a b c
        rw [polyVal_pmul (arity_cycpT arity_fT) (arity_cycT am), polyVal_cycpT arity_fT, polyVal_cycT am, polyVal_fT] at e1
        have e2 : polyVal (pconst 3 (v / 3)) a b c = v / 3 := evalDict_pconst 3 _ _
        have e3 : (polyVal [([k, 0, 0], 1)] : Val3 K) = fun a _ _ => a ^ k := by
          funext a b c
          simp [polyVal, Coeff.evalDict, Coeff.evalMonom]
        rw [e2, e3] at e1
        unfold polyVal at e1 ⊢
        rw [evalDict_collect, evalDict_append, evalDict_pneg, e1]
        ring

theorem liftParts_spec {X : AcuteExt K} (hX : X.SoundDense) {co : Coeff K} (hp : Arity 3 co.coeffs) {d : ℕ} (hd : HomDeg d co.coeffs) (hdeg : co.degree = d)
    (hne : symAxis co ≠ []) {l q : List (List ℕ × K)} (h : liftParts X co = some (l, q)) :
    Arity 3 l ∧ (∀ a b c, Octant a b c → 0 ≤ polyVal l a b c) ∧ Arity 3 q ∧ (4 ≤ d → HomDeg d q) ∧ 2 ≤ d ∧
      ∀ a b c, polyVal co.coeffs a b c * polyVal multT a b c =
        polyVal q a b c * discV a b c + cyc3 (fun a b c => (a - b) ^ 2 * (a - c) ^ 2 * polyVal l a b c) a b c * cycp3 fA a b c := by
  unfold liftParts at h
  dsimp only at h
  split at h
  · exact absurd h (by simp)
  · rename_i h1
    push Not at h1
    split at h
    · exact absurd h (by simp)
    · split at h
      · exact absurd h (by simp)
      · rename_i l' hl
        split at h
        · exact absurd h (by simp)
        · rename_i h2
          push Not at h2
          obtain ⟨rfl, rfl⟩ := Prod.mk.inj (Option.some.inj h)
          obtain ⟨al, dl, nl⟩ := hX.axis _ _ _ hl
          have a1 : Arity 3 (pmul co.coeffs multT) := arity_pmul hp arity_multT
          have a2 : Arity 3 (pmul (cycT (liftT l')) (cycpT (fT : List (List ℕ × K)))) := arity_pmul (arity_cycT (arity_liftT al)) (arity_cycpT arity_fT)
          have a3 := arity_collect (arity_append a1 (arity_pneg a2))
          obtain ⟨aq, eq⟩ := hX.div_eq _ _ a3 arity_discT h2
          refine ⟨al, nl, aq, ?_, ?_, ?_⟩
          · intro h4
            refine hX.div_hom _ d a3 (homDeg_collect (homDeg_append (homDeg_pmul hp arity_multT hd homDeg_multT) (homDeg_pneg ?_))) h2
            have := homDeg_pmul (arity_cycT (arity_liftT al)) (arity_cycpT (arity_fT (K := K))) (homDeg_cycT (arity_liftT al) (homDeg_liftT al dl)) (homDeg_cycpT arity_fT homDeg_fT)
            have e : 4 + (co.degree - 4) + (2 + 2 + 2) = d + 6 := by omega
            rw [e] at this
            exact this
          · by_contra hlt
            refine hX.div_small (symAxis co) hne ?_ h1
            intro t ht
            obtain ⟨u, hu, e⟩ := mem_collect _ _ ht
            obtain ⟨v, hv, rfl⟩ := List.mem_map.1 hu
            rw [← e]
            have h3 := hd v hv
            have h4 := hp v hv
            obtain ⟨m, x⟩ := v
            obtain ⟨i, j, k, rfl⟩ := List.length_eq_three.1 h4
            simp at h3 ⊢
            omega
          · intro a b c
            have e := eq a b c
            have e1 := polyVal_pmul hp (arity_multT (K := K)) a b c
            have e2 := polyVal_pmul (arity_cycT (arity_liftT al)) (arity_cycpT (arity_fT (K := K))) a b c
            rw [polyVal_cycT (arity_liftT al), polyVal_cycpT arity_fT, polyVal_fT] at e2
            have e3 : (polyVal (liftT l') : Val3 K) = fun a b c => (a - b) ^ 2 * (a - c) ^ 2 * polyVal l' a b c := by
              funext a b c
              exact polyVal_liftT al a b c
            rw [e3] at e2
            rw [polyVal_discT] at e
            have e4 : polyVal (collect (pmul co.coeffs multT ++ pneg (pmul (cycT (liftT l')) (cycpT (fT : List (List ℕ × K)))))) a b c =
                polyVal (pmul co.coeffs multT) a b c - polyVal (pmul (cycT (liftT l')) (cycpT (fT : List (List ℕ × K)))) a b c := by
              unfold polyVal
              rw [evalDict_collect, evalDict_append, evalDict_pneg]
              ring
            rw [e4, e1, e2] at e
            linear_combination e

theorem liftAnswer_shows {f g : Val3 K} {l : List (List ℕ × K)} {s : Cert K} (hs : Shows Tri g s) (hl : ∀ a b c, Octant a b c → 0 ≤ polyVal l a b c)
    (he : ∀ a b c, f a b c * polyVal multT a b c =
      g a b c * discV a b c + cyc3 (fun a b c => (a - b) ^ 2 * (a - c) ^ 2 * polyVal l a b c) a b c * cycp3 fA a b c) : Shows Tri f (liftAnswer l s) := by
  unfold liftAnswer
  refine ((hs.times (e := discV) ?_).add zero_le_one ?_).over (fun a b c _ => multT_nonneg a b c) ?_
  · intro a b c _
    unfold discV cycp3
    positivity
  · intro a b c ht
    refine mul_nonneg (tri_cyc (f := fun a b c => (a - b) ^ 2 * (a - c) ^ 2 * polyVal l a b c) (fun a b c h => ?_) a b c ht) (tri_cycp fA_nonneg a b c ht)
    have := hl a b c h.octant
    change 0 ≤ (a - b) ^ 2 * (a - c) ^ 2 * polyVal l a b c
    positivity
  · intro a b c
    have := he a b c
    linear_combination -this

/-- None of the polynomials met in the recursion vanishes on the axis `(t, 1, 1)`. -/
def NoAxis (X : AcuteExt K) : ℕ → Coeff K → Prop
  | 0, _ => True
  | n + 1, co => symAxis co ≠ [] ∧ ∀ l q, liftParts X co = some (l, q) → q = [] ∨ NoAxis X n ⟨q, 3⟩

theorem degree_of_hom {co : Coeff K} {d : ℕ} (hd : HomDeg d co.coeffs) (hne : co.coeffs ≠ []) : co.degree = d := by
  unfold Coeff.degree
  cases h : co.coeffs with
  | nil => exact absurd h hne
  | cons t r => exact hd t (by rw [h]; simp)

theorem acuteDense_empty (X : AcuteExt K) (fuel n : ℕ) {C : Cert K} (h : acuteDense X fuel ⟨[], n⟩ = .ok (some C)) : Shows Tri (polyVal []) C := by
  cases fuel with
  | zero => exact absurd h (by simp [acuteDense])
  | succ fuel =>
    have : acuteDense X (fuel + 1) ⟨[], n⟩ = .ok (some (.plain [])) := by
      unfold acuteDense
      exact if_pos rfl
    rw [this] at h
    rw [← Option.some.inj (Except.ok.inj h)]
    apply plain_shows
    · intro a b c
      simp [polyVal, evalDict_nil]
    · simp
    · simp

theorem acuteDense_high {X : AcuteExt K} (hX : X.SoundDense) {d : ℕ} (h0 : d ≠ 0) (h2 : d ≠ 2) (h3 : d ≠ 3) (h4 : d ≠ 4) : ∀ (fuel : ℕ) (co : Coeff K) (C : Cert K),
    Arity 3 co.coeffs → HomDeg d co.coeffs → co.coeffs ≠ [] → NoAxis X fuel co → acuteDense X fuel co = .ok (some C) → Shows Tri (polyVal co.coeffs) C
  | 0, _, _, _, _, _, _, h => absurd h (by simp [acuteDense])
  | fuel + 1, co, C, hp, hd, hne, hax, h => by
    have hdeg := degree_of_hom hd hne
    unfold acuteDense at h
    rw [hdeg, if_neg h0, if_neg h2, if_neg h3, if_neg h4] at h
    split at h
    · rename_i E hE
      rw [← Option.some.inj (Except.ok.inj h)]
      exact acuteUncentered_shows hX hp hE
    · rw [if_neg hax.1] at h
      split at h
      · exact absurd h (by simp)
      · rename_i lp hlp
        obtain ⟨l, q⟩ := lp
        obtain ⟨al, nl, aq, dq, hd2, he⟩ := liftParts_spec hX hp hd hdeg hax.1 hlp
        dsimp only at h
        cases hr : acuteDense X fuel ⟨q, 3⟩ with
        | error e =>
          rw [hr] at h
          exact absurd h (by simp [Except.map])
        | ok r =>
          rw [hr] at h
          obtain ⟨s, rfl, rfl⟩ := Option.map_eq_some_iff.1 (Except.ok.inj h)
          refine liftAnswer_shows ?_ nl he
          rcases hax.2 l q hlp with h5 | h5
          · subst h5
            exact acuteDense_empty X fuel 3 hr
          · by_cases hq : q = []
            · subst hq
              exact acuteDense_empty X fuel 3 hr
            · exact acuteDense_high hX h0 h2 h3 h4 fuel ⟨q, 3⟩ s aq (dq (by omega)) hq h5 hr

theorem quad_cyclic (co : Coeff K) (h : co.WF) (hn : co.nvars = 3) (hd : co.Hom 2) (hc : co.isCyclicDefault = true) (a b c : K) :
    polyVal co.coeffs a b c = co.call [2, 0, 0] * (a ^ 2 + b ^ 2 + c ^ 2) + co.call [1, 1, 0] * (a * b + b * c + c * a) := by
  have hrot := (Coeff.isCyclicDefault_iff co h (by omega)).1 hc
  have r1 : ∀ x y z : ℕ, co.call [y, z, x] = co.call [x, y, z] := fun x y z => hrot [x, y, z] 1 (by simp [hn])
  have r2 : ∀ x y z : ℕ, co.call [z, x, y] = co.call [x, y, z] := fun x y z => hrot [x, y, z] 2 (by simp [hn])
  unfold polyVal
  rw [quad_ofCoeff co h hn hd]
  simp only [Quad.poly, Quad.ofCoeff]
  rw [r1 2 0 0, r2 2 0 0, r1 1 1 0, r2 1 1 0]
  ring

/-- **C51.** Given the contracts of the other files, an answer of the solver for acute triangles to a nonconstant homogeneous cyclic polynomial is an
identity for it, with nonnegative weights and with expressions and a denominator that are nonnegative for every right or acute triangle.  What is
missing: for degree one and for degrees from five on it is assumed that neither the polynomial nor those met in the recursion vanish identically on
`(t, 1, 1)`; without this the claim is false (`acute_axis_wrong`).  -/
theorem acuteSolve_sound_partial {X : AcuteExt K} (hX : X.SoundDense) (fuel : ℕ) (co : Coeff K) (h : co.WF) (hn : co.nvars = 3) {d : ℕ} (hd : co.Hom d)
    (h0 : d ≠ 0) (hne : co.coeffs ≠ []) (hax : d = 2 ∨ d = 3 ∨ d = 4 ∨ NoAxis X fuel co) {C : Cert K} (hs : acuteSolve X fuel co = .ok (some C)) :
    Shows Tri (fun a b c => Coeff.evalDict co.coeffs [a, b, c]) C := by
  have hp : Arity 3 co.coeffs := fun t ht => by rw [← hn]; exact h.length t ht
  have hdeg : co.degree = d := degree_of_hom hd hne
  change Shows Tri (polyVal co.coeffs) C
  unfold acuteSolve at hs
  split at hs
  · rename_i hc
    have low2 : d = 2 → ∀ E, acuteQuadratic (co.call [2, 0, 0]) (co.call [1, 1, 0]) = some E → Shows Tri (polyVal co.coeffs) E := by
      rintro rfl E hE
      exact (shows_of_proves (acuteQuadratic_sound hE)).congr fun a b c => (quad_cyclic co h hn hd hc a b c).symm
    have low3 : d = 3 → ∀ E, acuteCubic X (Cubic.ofCoeff co) = .ok (some E) → Shows Tri (polyVal co.coeffs) E := by
      rintro rfl E hE
      exact (acuteCubic_shows hX.toSound hE).congr fun a b c => (cubic_ofCoeff co h hn hd hc a b c).symm
    have low4 : d = 4 → ∀ E, acuteQuartic X (Quartic.ofCoeff co) = .ok (some E) → Shows Tri (polyVal co.coeffs) E := by
      rintro rfl E hE
      exact (acuteQuartic_shows hX.toSound hE).congr fun a b c => (quartic_ofCoeff co h hn hd hc a b c).symm
    rw [hdeg] at hs
    split at hs
    · exact absurd hs (by simp)
    · by_cases e2 : d = 2
      · cases fuel with
        | zero => exact absurd hs (by simp [acuteDense])
        | succ fuel =>
          unfold acuteDense at hs
          rw [hdeg, if_neg h0, if_pos e2] at hs
          exact low2 e2 C (Except.ok.inj hs)
      · by_cases e3 : d = 3
        · cases fuel with
          | zero => exact absurd hs (by simp [acuteDense])
          | succ fuel =>
            unfold acuteDense at hs
            rw [hdeg, if_neg h0, if_neg e2, if_pos e3] at hs
            exact low3 e3 C hs
        · by_cases e4 : d = 4
          · cases fuel with
            | zero => exact absurd hs (by simp [acuteDense])
            | succ fuel =>
              unfold acuteDense at hs
              rw [hdeg, if_neg h0, if_neg e2, if_neg e3, if_pos e4] at hs
              exact low4 e4 C hs
          · rcases hax with h5 | h5 | h5 | h5
            · exact absurd h5 e2
            · exact absurd h5 e3
            · exact absurd h5 e4
            · exact acuteDense_high hX h0 e2 e3 e4 fuel co C hp hd hne h5 hs
    · split at hs
      · rename_i e2
        exact low2 e2 C (Except.ok.inj hs)
      · split at hs
        · rename_i e3
          exact low3 e3 C hs
        · split at hs
          · rename_i e4
            exact low4 e4 C hs
          · exact absurd hs (by simp)
  · exact absurd hs (by simp)

/-- Other solvers that meet the contracts: the modelled cubic and quartic solvers, a sextic solver and a general solver that never answer, and a division
that returns its argument as the remainder. -/
noncomputable def exExt : AcuteExt ℝ where
  cub := cubicSolve true []
  quart := quarticSolve (fun _ => false) true (fun x => x) none []
  sextic := fun _ => none
  sqrt2 := Real.sqrt 2
  cands := fun _ _ => [1, 3 / 2]
  rational := fun _ _ => true
  ternary := fun _ => none
  div := fun p _ => ([], p)
  axis := fun _ _ => none

theorem exExt_sound : exExt.SoundDense where
  cub := fun f C h => cubicSolve_sound h
  quart := fun f C h => by
    obtain ⟨r, hr, hs⟩ := quarticSolve_sound (fun _ => false) true (fun x => x) none [] f
    have h' : quarticSolve (fun _ => false) true (fun x => x) none [] f = .ok (some C) := h
    rw [hr] at h'
    exact hs C (Except.ok.inj h')
  sextic := fun g C h => absurd h (by simp [exExt])
  sqrt_pos := Real.sqrt_pos.2 (by norm_num)
  sqrt_sq := Real.sq_sqrt (by norm_num)
  cands := fun x y t h => by
    simp only [exExt, List.mem_cons, List.not_mem_nil, or_false] at h
    rcases h with rfl | rfl <;> norm_num
  ternary := fun p C _ h => absurd h (by simp [exExt])
  div_eq := fun p g _ _ h => by
    have h' : p = [] := h
    subst h'
    refine ⟨fun t ht => absurd ht (by simp [exExt]), fun a b c => ?_⟩
    simp [exExt, polyVal, evalDict_nil]
  div_hom := fun p d _ _ _ t ht => absurd ht (by simp [exExt])
  div_small := fun s hs _ => hs
  axis := fun s d l h => absurd h (by simp [exExt])

/-- `(b+c-a)(c+a-b)(a+b-c)` is answered. -/
example : ∃ C, acuteCubic exExt ⟨-1, 1, 1, -2⟩ = .ok (some C) := by
  unfold acuteCubic
  rw [if_neg (by norm_num), if_neg (by norm_num)]
  unfold getSol
  rw [if_neg (by norm_num), if_neg (by norm_num), if_pos (by norm_num), if_pos (by norm_num)]
  exact ⟨_, rfl⟩

/-- `Σ(b²+c²-a²)a²` is answered. -/
example : ∃ C, acuteQuartic exExt ⟨-1, 0, 2, 0, 0⟩ = .ok (some C) := by
  unfold acuteQuartic
  rw [if_neg (by norm_num)]
  have h : ∃ C, acuteQuarticFirst (⟨-1, 0, 2, 0, 0⟩ : Quartic ℝ) = .ok (some C) := by
    unfold acuteQuarticFirst
    dsimp only
    rw [if_pos (by norm_num)]
    obtain ⟨C, hC⟩ := (acyclicQuadratic_complete (⟨1, 0, 0, 0, 0, 0⟩ : Quad ℝ)).2 (by
      rintro a b c ⟨ha, hb, hc⟩
      simp only [Quad.poly]
      positivity)
    have e : solveQuad (⟨-1, 0, 2, 0, 0⟩ : Quartic ℝ) ((2 / 2 + -1 + (if (0 : ℝ) < 2 / 2 then ((0 + 0) / 2) ^ 2 / (4 * (2 / 2)) else 0) - if (0 : ℝ) < 2 / 2 then ((0 + 0) / 2) ^ 2 / (4 * (2 / 2)) else 0) / 2)
        ((2 / 2 + -1 - (if (0 : ℝ) < 2 / 2 then ((0 + 0) / 2) ^ 2 / (4 * (2 / 2)) else 0) + if (0 : ℝ) < 2 / 2 then ((0 + 0) / 2) ^ 2 / (4 * (2 / 2)) else 0) / 2) = .ok (some (cycTimes fA C)) := by
      unfold solveQuad
      norm_num
      rw [hC]
      rfl
    rw [e]
    exact ⟨_, rfl⟩
  obtain ⟨C, hC⟩ := h
  rw [if_pos (by norm_num), hC]
  exact ⟨C, rfl⟩

/-! ### Polynomials that vanish on the axis -/

theorem axis_sum {co : Coeff K} (h : symAxis co = []) : (co.coeffs.map Prod.snd).sum = 0 := by
  have h1 : Coeff.evalDict (symAxis co) [1] = 0 := by rw [h, evalDict_nil]
  unfold symAxis at h1
  rw [evalDict_collect] at h1
  unfold Coeff.evalDict at h1
  rw [List.map_map] at h1
  rw [← h1]
  congr 1
  apply List.map_congr_left
  intro t _
  simp [Coeff.evalMonom]

/-- For every polynomial of degree at least five that vanishes on the axis `(t, 1, 1)` the solver answers zero. -/
theorem acute_axis_zero (X : AcuteExt K) (hdiv : (X.div [] discT).1 = []) (fuel : ℕ) (co : Coeff K) (hd : 5 ≤ co.degree) (hax : symAxis co = []) :
    ∃ C, acuteDense X (fuel + 2) co = .ok (some C) ∧ (∀ a b c, C.num a b c = 0) ∧ ∀ a b c, C.den a b c = 1 := by
  have hu : acuteUncentered X co = none := by
    unfold acuteUncentered
    dsimp only
    rw [axis_sum hax]
    split
    · rfl
    · exact if_pos le_rfl
  have h1 : acuteDense X (fuel + 1) (⟨[], 3⟩ : Coeff K) = .ok (some (.plain [])) := by
    unfold acuteDense
    exact if_pos rfl
  refine ⟨times discV (.plain []), ?_, fun _ _ _ => rfl, fun _ _ _ => rfl⟩
  unfold acuteDense
  rw [if_neg (by omega), if_neg (by omega), if_neg (by omega), if_neg (by omega), hu]
  dsimp only
  rw [if_pos hax, hdiv, h1]
  rfl

/-- `-(a-b)²(b-c)²(c-a)²`, written out. -/
def exDisc : Coeff ℚ := ⟨[([4, 2, 0], -1), ([4, 1, 1], 2), ([4, 0, 2], -1), ([3, 3, 0], 2), ([3, 2, 1], -2), ([3, 1, 2], -2), ([3, 0, 3], 2), ([2, 4, 0], -1),
  ([2, 3, 1], -2), ([2, 2, 2], 6), ([2, 1, 3], -2), ([2, 0, 4], -1), ([1, 4, 1], 2), ([1, 3, 2], -2), ([1, 2, 3], -2), ([1, 1, 4], 2), ([0, 4, 2], -1),
  ([0, 3, 3], 2), ([0, 2, 4], -1)], 3⟩

theorem exDisc_value (a b c : ℚ) : Coeff.evalDict exDisc.coeffs [a, b, c] = -((a - b) ^ 2 * (b - c) ^ 2 * (c - a) ^ 2) := by
  simp only [exDisc, Coeff.evalDict, Coeff.evalMonom, List.map_cons, List.map_nil, List.sum_cons, List.sum_nil, List.zipWith_cons_cons, List.zipWith_nil_right,
    List.prod_cons, List.prod_nil]
  ring

/-- **C51 fails** for polynomials that vanish on the axis: to `-(a-b)²(b-c)²(c-a)²`, which is negative for the acute triangle `10, 11, 12`, the
solver answers zero. -/
theorem acute_axis_wrong (X : AcuteExt ℚ) (hdiv : (X.div [] discT).1 = []) (fuel : ℕ) :
    ∃ C, acuteSolve X (fuel + 2) exDisc = .ok (some C) ∧ Tri (10 : ℚ) 11 12 ∧ C.den 10 11 12 ≠ 0 ∧ Coeff.evalDict exDisc.coeffs [10, 11, 12] < 0 ∧
      C.num 10 11 12 ≠ C.den 10 11 12 * Coeff.evalDict exDisc.coeffs [10, 11, 12] := by
  obtain ⟨C, hC, hnum, hden⟩ := acute_axis_zero X hdiv fuel exDisc (by decide +kernel) (by decide +kernel)
  refine ⟨C, ?_, ?_, ?_, ?_, ?_⟩
  · unfold acuteSolve
    have h1 : exDisc.isCyclicDefault = true := by decide +kernel
    have h2 : exDisc.isSymmetricDefault = .ok true := by decide +kernel
    rw [if_pos h1, h2]
    exact hC
  · exact ⟨by norm_num, by norm_num, by norm_num, by norm_num, by norm_num, by norm_num, by norm_num⟩
  · rw [hden]
    norm_num
  · rw [exDisc_value]
    norm_num
  · rw [hnum, hden, exDisc_value]
    norm_num

end Verif.Acute
