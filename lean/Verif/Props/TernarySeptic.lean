import Verif.Props.Dense
import Verif.Proofs.SepticIds

/-!
# What the ternary septic solver guarantees
-/

set_option linter.unusedSectionVars false

namespace Verif.Ternary

open Verif Verif.TermsPoly Verif.Acute Verif.Dense

variable {K : Type*} [Field K] [LinearOrder K] [IsStrictOrderedRing K]

/-- The denominator is positive at every point with positive coordinates that are not all equal.  Some answers divide by Schur's polynomial
`s(a(a-b)(a-c))`, which is zero for `a = b = c`; `nonneg_of_pos` extends the conclusion to the whole octant. -/
def PosIn (C : Cert K) : Prop := ∀ a b c, 0 < a → 0 < b → 0 < c → ¬ (a = b ∧ b = c) → 0 < C.den a b c

/-- A complete proof that `f` is nonnegative where all variables are nonnegative. -/
structure Holds (f : Val3 K) (C : Cert K) : Prop where
  shows_ : Shows Octant f C
  pos : PosIn C

/-- What an answer of the septic solver is: an identity for `f`, with expressions that are nonnegative on the octant, and with nonnegative weights if `f` is
nonnegative on the octant.  The solver does not test the sign of all the weights. -/
structure Answer (f : Val3 K) (C : Cert K) : Prop where
  identity : ∀ a b c, C.num a b c = C.den a b c * f a b c
  exprs : ∀ t ∈ C.terms, ∀ a b c, Octant a b c → 0 ≤ t.2 a b c
  den : ∀ a b c, Octant a b c → 0 ≤ C.den a b c
  pos : PosIn C
  weights : (∀ a b c, Octant a b c → 0 ≤ f a b c) → ∀ t ∈ C.terms, 0 ≤ t.1

theorem Holds.answer {f : Val3 K} {C : Cert K} (h : Holds f C) : Answer f C := ⟨h.1.identity, h.1.exprs, h.1.den, h.2, fun _ => h.1.weights⟩

/-- An answer whose polynomial is nonnegative is a complete proof of it. -/
theorem Answer.holds {f : Val3 K} {C : Cert K} (h : Answer f C) (hf : ∀ a b c, Octant a b c → 0 ≤ f a b c) : Holds f C :=
  ⟨⟨h.identity, h.weights hf, h.exprs, h.den⟩, h.pos⟩

theorem Holds.congr {f g : Val3 K} {C : Cert K} (h : Holds f C) (hfg : ∀ a b c, f a b c = g a b c) : Holds g C := ⟨h.1.congr hfg, h.2⟩

theorem Holds.times {f : Val3 K} {C : Cert K} (h : Holds f C) {e : Val3 K} (he : ∀ a b c, Octant a b c → 0 ≤ e a b c) :
    Holds (fun a b c => e a b c * f a b c) (times e C) := ⟨h.1.times he, h.2⟩

theorem Holds.add {f : Val3 K} {C : Cert K} (h : Holds f C) {w : K} (hw : 0 ≤ w) {e : Val3 K} (he : ∀ a b c, Octant a b c → 0 ≤ e a b c) :
    Holds (fun a b c => f a b c + w * e a b c) (C.add w e) := ⟨h.1.add hw he, h.2⟩

/-- The contracts of the calls.  `quart` is discharged for the modelled quartic solver by `quartic_contract`. -/
structure SepticExt.Sound (X : SepticExt K) : Prop where
  quart : ∀ g, ∃ r, X.quart g = .ok r ∧ ∀ C, r = some C → Holds g.poly C
  solve : ∀ p C, Arity 3 p → (∀ a b c, polyVal p b c a = polyVal p a b c) → X.solve p = .ok (some C) → Holds (polyVal p) C
  symm : ∀ f C, (∀ a b c, f.poly b a c = f.poly a b c) → X.symm f = .ok (some C) → Holds f.poly C
  div_eq : ∀ n p g, Arity n p → Arity n g → IsPoly n (X.div p g).1 ∧ IsPoly n (X.div p g).2 ∧
    ∀ x : List K, x.length = n → Coeff.evalDict p x = Coeff.evalDict (X.div p g).1 x * Coeff.evalDict g x + Coeff.evalDict (X.div p g).2 x
  div_exact : ∀ n p g q, Arity n p → Arity n g → Arity n q → (∀ x : List K, x.length = n → Coeff.evalDict p x = Coeff.evalDict q x * Coeff.evalDict g x) → (X.div p g).2 = []
  sqrtND : ∀ r v u, X.sqrtND r = some (v, u) → 0 ≤ v ∧ 0 < u ∧ r = v ^ 2 / u ^ 2
  exact : ∀ f z, X.hexZ f = .exact z → hexDet (f.c430 / f.c520) (f.c403 / f.c520) z = 0
  /-- For `m = 0` both equations have the factor `u*v - 1` (`star_common_factor`), so the resultant is zero and has no root in the list of `nroots`. -/
  starUV : ∀ f, f.c511 = 0 → X.starUV f = []

/-- The modelled quartic solver meets the contract `quart`. -/
theorem quartic_contract (irr : K → Bool) (rational : Bool) (approx : K → K) (u : Quartic K → Option K) (xs : Quartic K → List K) (g : Quartic K) :
    ∃ r, quarticSolve irr rational approx (u g) (xs g) g = .ok r ∧ ∀ C, r = some C → Holds g.poly C := by
  obtain ⟨r, hr, h⟩ := quarticSolve_sound irr rational approx (u g) (xs g) g
  refine ⟨r, hr, fun C hC => ⟨shows_of_proves (h C hC), fun a b c ha hb hc _ => (h C hC).pos a b c ⟨ha.le, hb.le, hc.le⟩ fun h0 => ha.ne' h0.1⟩⟩

/-! ### Values -/

theorem abcV_nonneg (a b c : K) (h : Octant a b c) : 0 ≤ abcV a b c := by
  obtain ⟨ha, hb, hc⟩ := h
  exact mul_nonneg (mul_nonneg ha hb) hc

theorem arity_scaleT {n : ℕ} {w : K} {p : TP K} (hp : Arity n p) : Arity n (scaleT w p) := by
  intro t ht
  obtain ⟨s, hs, rfl⟩ := List.mem_map.1 ht
  exact hp s hs

theorem polyVal_scaleT (w : K) (p : TP K) (a b c : K) : polyVal (scaleT w p) a b c = w * polyVal p a b c := by
  induction p with
  | nil => simp [scaleT, polyVal, Coeff.evalDict]
  | cons t p ih =>
    simp only [scaleT, polyVal, Coeff.evalDict, List.map_cons, List.sum_cons] at ih ⊢
    rw [ih]
    ring

theorem arity_septic (f : Septic K) : Arity 3 f.terms := by
  refine arity_cycT ?_
  intro t ht
  simp only [List.mem_cons, List.not_mem_nil, or_false] at ht
  rcases ht with rfl | rfl | rfl | rfl | rfl | rfl | rfl | rfl | rfl | rfl | rfl | rfl <;> rfl

theorem polyVal_septic (f : Septic K) (a b c : K) : polyVal f.terms a b c = f.poly a b c := by
  unfold Septic.terms
  rw [polyVal_cycT]
  · simp only [cyc3, polyVal, Coeff.evalDict, Coeff.evalMonom, List.map_cons, List.map_nil, List.sum_cons, List.sum_nil, List.zipWith_cons_cons, List.zipWith_nil_left,
      List.prod_cons, List.prod_nil, Septic.poly]
    ring
  · intro t ht
    simp only [List.mem_cons, List.not_mem_nil, or_false] at ht
    rcases ht with rfl | rfl | rfl | rfl | rfl | rfl | rfl | rfl | rfl | rfl | rfl | rfl <;> rfl

theorem septic_rot (f : Septic K) (a b c : K) : f.poly b c a = f.poly a b c := by
  unfold Septic.poly
  ring

theorem septic_reflect (f : Septic K) (a b c : K) : f.reflect.poly a b c = f.poly a c b := by
  unfold Septic.poly Septic.reflect
  ring

theorem poly111_eq (f : Septic K) : f.poly111 = f.poly 1 1 1 := by
  unfold Septic.poly111 Septic.poly
  ring

theorem cyc3_rot (f : Val3 K) (a b c : K) : cyc3 f b c a = cyc3 f a b c := by
  unfold cyc3
  ring

/-! ### The quartic part -/

theorem fastQuartic_ok {X : SepticExt K} (hX : X.Sound) (m p n q rem : K) : ∃ r, fastQuartic X m p n q rem = .ok r ∧
    ∀ C, r = some C → Holds (fun a b c => abcV a b c * (⟨m, p, n, q, rem - m - p - n - q⟩ : Quartic K).poly a b c) C := by
  unfold fastQuartic
  by_cases h0 : rem < 0
  · rw [if_pos h0]
    exact ⟨none, rfl, fun C h => absurd h (by simp)⟩
  rw [if_neg h0]
  push Not at h0
  dsimp only
  by_cases h1 : 0 < m ∧ 0 ≤ 3 * m * (m + n) - (p ^ 2 + p * q + q ^ 2)
  · rw [if_pos h1]
    refine ⟨_, rfl, ?_⟩
    intro C hC
    rw [← Option.some.inj hC]
    refine Holds.times ⟨plain_shows ?_ ?_ ?_, fun a b c _ _ _ _ => zero_lt_one⟩ abcV_nonneg
    · intro a b c
      have hm := h1.1.ne'
      simp only [List.map_cons, List.map_nil, List.sum_cons, List.sum_nil, cyc3, Quartic.poly]
      field_simp
      ring
    · have hm := h1.1
      have hd := h1.2
      intro t ht
      simp only [List.mem_cons, List.not_mem_nil, or_false] at ht
      rcases ht with rfl | rfl | rfl
      · change 0 ≤ m / 2
        positivity
      · exact div_nonneg (div_nonneg hd (by norm_num)) hm.le
      · exact h0
    · intro t ht a b c ho
      obtain ⟨ha, hb, hc⟩ := ho
      simp only [List.mem_cons, List.not_mem_nil, or_false] at ht
      rcases ht with rfl | rfl | rfl
      · simp only [cyc3]
        positivity
      · simp only [cyc3]
        positivity
      · simp only [cyc3]
        positivity
  · rw [if_neg h1]
    obtain ⟨r, hr, hs⟩ := hX.quart ⟨m, p, n, q, rem - m - p - n - q⟩
    rw [hr]
    refine ⟨r.map (times abcV), rfl, ?_⟩
    intro C hC
    obtain ⟨S, hS, rfl⟩ := Option.map_eq_some_iff.1 hC
    exact (hs S hS).times abcV_nonneg

theorem fastQuartic_some (X : SepticExt K) {m p n q rem : K} (h0 : 0 ≤ rem) (hm : 0 < m) (hd : 0 ≤ 3 * m * (m + n) - (p ^ 2 + p * q + q ^ 2)) :
    ∃ C, fastQuartic X m p n q rem = .ok (some C) := by
  unfold fastQuartic
  rw [if_neg (not_lt.2 h0)]
  dsimp only
  rw [if_pos ⟨hm, hd⟩]
  exact ⟨_, rfl⟩

/-! ### Perturbations -/

theorem pertLoop_mem {a b : K} : ∀ (n i : ℕ) (z t : K), t ∈ pertLoop a b n i z → 0 ≤ t ∧ t ≤ b
  | 0, _, _, _, h => absurd h (by simp [pertLoop])
  | n + 1, i, z, t, h => by
    unfold pertLoop at h
    dsimp only at h
    split at h
    · exact pertLoop_mem n _ _ t h
    · rename_i hc
      push Not at hc
      rcases List.mem_cons.1 h with rfl | h
      · exact hc
      · exact pertLoop_mem n _ _ t h

/-- Every `t` yielded by `square_perturbation` lies between zero and both numbers. -/
theorem squarePerturbation_mem {isqrt : K → K → K} {a b t : K} (h : t ∈ squarePerturbation isqrt a b) : 0 ≤ t ∧ t ≤ a ∧ t ≤ b := by
  unfold squarePerturbation at h
  split at h
  · rename_i hab
    obtain ⟨h1, h2⟩ := pertLoop_mem _ _ _ _ h
    exact ⟨h1, h2.trans hab.le, h2⟩
  · rename_i hab
    obtain ⟨h1, h2⟩ := pertLoop_mem _ _ _ _ h
    exact ⟨h1, h2, h2.trans (not_lt.1 hab)⟩

theorem pertLoop_square {a b : K} (hb : 0 < b) (hab : b < a) : ∀ (n i : ℕ) (z t : K), 0 < z → t ∈ pertLoop a b n i z → ∃ y : K, a - t = y ^ 2 * (b - t)
  | 0, _, _, _, _, h => absurd h (by simp [pertLoop])
  | n + 1, i, z, t, hz, h => by
    have ha := hb.trans hab
    have hr : 1 < a / b := (one_lt_div hb).2 hab
    have hz' : 0 < pertStep (a / b) i z := by
      unfold pertStep
      split
      · positivity
      · exact hz
    have hne : pertStep (a / b) i z ≠ 1 := by
      unfold pertStep
      split
      · intro h1
        have h2 : z ^ 2 + a / b = 2 * z := by
          field_simp at h1 ⊢
          linarith
        nlinarith [sq_nonneg (z - 1)]
      · rename_i hc
        push Not at hc
        exact hc.2
    have h1 : 1 - pertStep (a / b) i z * pertStep (a / b) i z ≠ 0 := by
      intro h0
      have : (1 - pertStep (a / b) i z) * (1 + pertStep (a / b) i z) = 0 := by linear_combination h0
      rcases mul_eq_zero.1 this with h2 | h2
      · exact hne (by linarith)
      · linarith
    unfold pertLoop at h
    dsimp only at h
    split at h
    · exact pertLoop_square hb hab n _ _ t hz' h
    · rcases List.mem_cons.1 h with rfl | h
      · refine ⟨pertStep (a / b) i z, ?_⟩
        generalize pertStep (a / b) i z = y at h1 ⊢
        have e : (a - y * y * b) / (1 - y * y) * (1 - y * y) = a - y * y * b := div_mul_cancel₀ _ h1
        linear_combination -e
      · exact pertLoop_square hb hab n _ _ t hz' h

/-- The documented purpose of `square_perturbation`: after subtracting `t` one number is a square times the other. -/
theorem squarePerturbation_square {isqrt : K → K → K} (hs : ∀ x y, 1 ≤ isqrt x y) {a b t : K} (ha : 0 < a) (hb : 0 < b) (hne : a ≠ b)
    (h : t ∈ squarePerturbation isqrt a b) : ∃ y : K, a - t = y ^ 2 * (b - t) ∨ b - t = y ^ 2 * (a - t) := by
  unfold squarePerturbation at h
  split at h
  · rename_i hab
    obtain ⟨y, hy⟩ := pertLoop_square hb hab _ _ _ t (lt_of_lt_of_le zero_lt_one (hs a b)) h
    exact ⟨y, Or.inl hy⟩
  · rename_i hab
    obtain ⟨y, hy⟩ := pertLoop_square ha (lt_of_le_of_ne (not_lt.1 hab) hne) _ _ _ t (lt_of_lt_of_le zero_lt_one (hs b a)) h
    exact ⟨y, Or.inr hy⟩

theorem solve_diff {X : SepticExt K} (hX : X.Sound) {f : Septic K} {t : K} {p : TP K} {e : Val3 K} (hp : Arity 3 p) (hpv : ∀ a b c, polyVal p a b c = e a b c)
    (hrot : ∀ a b c, e b c a = e a b c) {S : Cert K} (h : X.solve (collect (f.terms ++ pneg (scaleT t p))) = .ok (some S)) :
    Holds (fun a b c => f.poly a b c - t * e a b c) S := by
  have hv : ∀ a b c, polyVal (collect (f.terms ++ pneg (scaleT t p))) a b c = f.poly a b c - t * e a b c := by
    intro a b c
    rw [polyVal_diff, polyVal_septic, polyVal_scaleT, hpv]
  refine (hX.solve _ S (arity_collect (arity_append (arity_septic f) (arity_pneg (arity_scaleT hp)))) ?_ h).congr hv
  intro a b c
  rw [hv, hv, septic_rot, hrot]

theorem tryPert_ok {X : SepticExt K} (hX : X.Sound) {f : Septic K} {p : TP K} {e : Val3 K} (hp : Arity 3 p) (hpv : ∀ a b c, polyVal p a b c = e a b c)
    (hrot : ∀ a b c, e b c a = e a b c) (he : ∀ a b c, Octant a b c → 0 ≤ e a b c) : ∀ (l : List K), (∀ t ∈ l, 0 ≤ t) → ∀ C,
    tryPert X.solve f.terms p e l = .ok (some C) → Holds f.poly C
  | [], _, C, h => absurd h (by simp [tryPert])
  | t :: l, hl, C, h => by
    unfold tryPert at h
    split at h
    · exact absurd h (by simp)
    · rename_i S hS
      rw [← Option.some.inj (Except.ok.inj h)]
      exact ((solve_diff hX hp hpv hrot hS).add (hl t (by simp)) he).congr fun a b c => by ring
    · exact tryPert_ok hX hp hpv hrot he l (fun t ht => hl t (by simp [ht])) C h

theorem tryPert_error {rec : TP K → Except PyErr (Option (Cert K))} {poly p : TP K} {e : Val3 K} {err : PyErr} : ∀ (l : List K),
    tryPert rec poly p e l = .error err → ∃ g, rec g = .error err
  | [], h => absurd h (by simp [tryPert])
  | t :: l, h => by
    unfold tryPert at h
    split at h
    · rename_i er hS
      exact ⟨_, hS.trans (by rw [← h])⟩
    · exact absurd h (by simp)
    · exact tryPert_error l h

theorem arity_lit {n : ℕ} {p : TP K} (h : (p.all fun t => t.1.length == n) = true) : Arity n p := by
  intro t ht
  simpa using List.all_eq_true.1 h t ht

theorem arity_pertStarT : Arity 3 (pertStarT : TP K) := by
  unfold pertStarT
  exact arity_cycT (arity_pmul (arity_pmul (arity_lit rfl) (arity_pmul arity_abT arity_abT)) (arity_pmul (arity_lit rfl) (arity_lit rfl)))

theorem polyVal_pertStarT (a b c : K) : polyVal pertStarT a b c = pertStarV a b c := by
  unfold pertStarT
  have h1 : Arity 3 ([([0, 0, 1], 1)] : TP K) := arity_lit rfl
  have h2 : Arity 3 ([([1, 1, 0], 1), ([1, 0, 1], -1), ([0, 1, 1], -1)] : TP K) := arity_lit rfl
  have h3 := arity_pmul (K := K) arity_abT arity_abT
  dsimp only
  rw [polyVal_cycT (arity_pmul (arity_pmul h1 h3) (arity_pmul h2 h2))]
  simp only [cyc3, pertStarV, polyVal_pmul (arity_pmul h1 h3) (arity_pmul h2 h2), polyVal_pmul h1 h3, polyVal_pmul (K := K) arity_abT arity_abT, polyVal_pmul h2 h2, polyVal_abT]
  simp only [polyVal, Coeff.evalDict, Coeff.evalMonom, List.map_cons, List.map_nil, List.sum_cons, List.sum_nil, List.zipWith_cons_cons, List.zipWith_nil_left,
      List.prod_cons, List.prod_nil]
  ring

theorem pertStarV_nonneg (a b c : K) (h : Octant a b c) : 0 ≤ pertStarV a b c :=
  oct_cyc (fun a b c ho => by obtain ⟨_, _, hc⟩ := ho; positivity) a b c h

theorem arity_pertHexT : Arity 3 (pertHexT : TP K) := arity_pmul (arity_cycT (arity_lit rfl)) arity_discT

theorem polyVal_pertHexT (a b c : K) : polyVal pertHexT a b c = pertHexV a b c := by
  unfold pertHexT pertHexV
  have h1 : Arity 3 ([([1, 0, 0], 1)] : TP K) := arity_lit rfl
  rw [polyVal_pmul (arity_cycT h1) arity_discT, polyVal_discT, polyVal_cycT h1]
  congr 1
  simp [cyc3, polyVal, Coeff.evalDict, Coeff.evalMonom]

theorem pertHexV_nonneg (a b c : K) (h : Octant a b c) : 0 ≤ pertHexV a b c :=
  mul_nonneg (oct_cyc (fun a b c ho => by obtain ⟨ha, _, _⟩ := ho; exact ha) a b c h) (discV_nonneg a b c)

theorem pertHexV_rot (a b c : K) : pertHexV b c a = pertHexV a b c := by
  simp only [pertHexV, discV, cyc3, cycp3]
  ring

/-! ### The star -/

theorem starLoop_ok {X : SepticExt K} (hX : X.Sound) {f : Septic K} (hf : f.c700 = 0 ∧ f.c610 = 0 ∧ f.c601 = 0 ∧ f.c520 = 0 ∧ f.c502 = 0) (hk : 0 < f.c430)
    (he : f.c430 = f.c403) : ∀ (l : List (K × K)) (C : Cert K),
    starLoop X f.c430 (f.c511 / f.c430) (f.c421 / f.c430) (f.c331 / f.c430) (f.c412 / f.c430) f.poly111 l = .ok (some C) → Holds f.poly C
  | [], C, h => absurd h (by simp [starLoop])
  | (u, v) :: l, C, h => by
    unfold starLoop at h
    dsimp only at h
    split at h
    · obtain ⟨r, hr, hs⟩ := fastQuartic_ok hX (f.c511 / f.c430 * f.c430) ((f.c421 / f.c430 - (u ^ 2 - 2 * v)) * f.c430) ((f.c331 / f.c430 + 2 * u * v) * f.c430)
        ((f.c412 / f.c430 - (v ^ 2 - 2 * u)) * f.c430) (f.poly111 / 3)
      rw [hr] at h
      rcases r with _ | S
      · exact absurd h (by simp)
      · rw [← Option.some.inj (Except.ok.inj h)]
        refine ((hs S rfl).add hk.le (e := cyc3 fun a b c => c * (a ^ 2 * c - b ^ 2 * c - u * a ^ 2 * b + v * a * b ^ 2 + (u - v) * a * b * c) ^ 2)
          (oct_cyc fun a b c ho => by obtain ⟨_, _, hc⟩ := ho; positivity)).congr fun a b c => ?_
        obtain ⟨e1, e2, e3, e4, e5⟩ := hf
        have k0 := hk.ne'
        have e6 : f.poly111 / 3 = f.c511 + f.c430 + f.c421 + f.c412 + f.c430 + f.c331 + f.c322 := by
          unfold Septic.poly111
          rw [e1, e2, e3, e4, e5, ← he]
          ring
        simp only [sub_mul, add_mul, div_mul_cancel₀ _ k0]
        rw [e6]
        simp only [Quartic.poly, Septic.poly, cyc3, abcV, e1, e2, e3, e4, e5, ← he]
        ring
    · exact starLoop_ok hX hf hk he l C h

/-- The quotient by `abc` of the septic minus the sum of squares. -/
def starQuotT (f : Septic K) (t W Z x U V : K) : TP K :=
  cycT [([4, 0, 0], f.c511), ([3, 1, 0], f.c421 - t * (2 * W * U + V ^ 2)), ([2, 2, 0], f.c331 - t * (2 * W * x + 2 * Z * x + 2 * U * V)),
    ([1, 3, 0], f.c412 - t * (U ^ 2 + 2 * Z * V)), ([2, 1, 1], f.c322 - t * (x ^ 2 + 2 * W * Z + 2 * W * V + 2 * x * U + 2 * x * V + 2 * Z * U))]

theorem abc_cancel {p q : TP K} (hp : Arity 3 p) (hq : Arity 3 q) (h : ∀ a b c : K, polyVal p a b c * (a * b * c) = polyVal q a b c * (a * b * c)) (a b c : K) :
    polyVal p a b c = polyVal q a b c := by
  have ev : ∀ (p : TP K), Arity 3 p → ∀ x : Fin 3 → K, MvPolynomial.eval x (toMv 3 p) = polyVal p (x 0) (x 1) (x 2) := by
    intro p hp x
    rw [eval_toMv x hp]
    simp [List.ofFn_succ, polyVal]
  have hz : (toMv 3 p - toMv 3 q) * (MvPolynomial.X 0 * MvPolynomial.X 1 * MvPolynomial.X 2) = 0 := by
    apply MvPolynomial.funext
    intro x
    rw [map_mul, map_sub, ev _ hp, ev _ hq, map_mul, map_mul, MvPolynomial.eval_X, MvPolynomial.eval_X, MvPolynomial.eval_X, map_zero, sub_mul, h, sub_self]
  have h0 : (MvPolynomial.X 0 * MvPolynomial.X 1 * MvPolynomial.X 2 : MvPolynomial (Fin 3) K) ≠ 0 :=
    mul_ne_zero (mul_ne_zero (MvPolynomial.X_ne_zero 0) (MvPolynomial.X_ne_zero 1)) (MvPolynomial.X_ne_zero 2)
  have h1 := sub_eq_zero.1 ((mul_eq_zero.1 hz).resolve_right h0)
  have h2 := congrArg (MvPolynomial.eval ![a, b, c]) h1
  rw [ev _ hp, ev _ hq] at h2
  exact h2

theorem arity_abcT : Arity 3 (abcT : TP K) := arity_lit rfl

theorem polyVal_abcT (a b c : K) : polyVal abcT a b c = a * b * c := by
  simp [polyVal, abcT, Coeff.evalDict, Coeff.evalMonom, mul_assoc]

/-- Division by `abc` of a polynomial that `abc` divides, with the remainder ignored. -/
theorem div_abc {X : SepticExt K} (hX : X.Sound) {G q : TP K} (hG : Arity 3 G) (hq : Arity 3 q) (h : ∀ a b c, polyVal G a b c = polyVal q a b c * (a * b * c)) :
    Arity 3 (X.div G abcT).1 ∧ ∀ a b c, polyVal (X.div G abcT).1 a b c = polyVal q a b c := by
  have hr : (X.div G abcT).2 = [] := by
    refine hX.div_exact 3 G abcT q hG arity_abcT hq fun x hx => ?_
    obtain ⟨a, b, c, rfl⟩ := List.length_eq_three.1 hx
    have := h a b c
    rw [← polyVal_abcT] at this
    exact this
  obtain ⟨h1, _, hE⟩ := hX.div_eq 3 G abcT hG arity_abcT
  rw [hr] at hE
  refine ⟨h1.arity, abc_cancel h1.arity hq fun a b c => ?_⟩
  rw [← h, ← polyVal_abcT]
  have := hE [a, b, c] rfl
  rw [evalDict_nil, add_zero] at this
  exact this.symm

theorem arity_starExprT (first : Bool) (z u v : K) : Arity 3 (starExprT first z u v) := by
  cases first <;> exact arity_lit rfl

theorem polyVal_starExprT (first : Bool) (z u v a b c : K) : polyVal (starExprT first z u v) a b c = starExpr first z u v a b c := by
  cases first
  · simp only [starExprT, starExpr, polyVal, Coeff.evalDict, Coeff.evalMonom, List.map_cons, List.map_nil, List.sum_cons, List.sum_nil, List.zipWith_cons_cons,
      List.zipWith_nil_left, List.prod_cons, List.prod_nil, Bool.false_eq_true, if_false]
    ring
  · simp only [starExprT, starExpr, polyVal, Coeff.evalDict, Coeff.evalMonom, List.map_cons, List.map_nil, List.sum_cons, List.sum_nil, List.zipWith_cons_cons,
      List.zipWith_nil_left, List.prod_cons, List.prod_nil, if_true]
    ring

theorem star_exact {f : Septic K} (hf : f.c700 = 0 ∧ f.c610 = 0 ∧ f.c601 = 0 ∧ f.c520 = 0 ∧ f.c502 = 0) {t W Z x U V : K} (h1 : t * W ^ 2 = f.c430)
    (h2 : t * Z ^ 2 = f.c403) (a b c : K) :
    f.poly a b c - t * cyc3 (fun a b c => b * (W * (a ^ 2 * b) + x * (a * b * c) + Z * (b * c ^ 2) + U * (a ^ 2 * c) + V * (a * c ^ 2)) ^ 2) a b c =
      polyVal (starQuotT f t W Z x U V) a b c * (a * b * c) := by
  obtain ⟨e1, e2, e3, e4, e5⟩ := hf
  unfold starQuotT
  rw [polyVal_cycT (arity_lit rfl)]
  simp only [polyVal, Coeff.evalDict, Coeff.evalMonom, List.map_cons, List.map_nil, List.sum_cons, List.sum_nil, List.zipWith_cons_cons,
      List.zipWith_nil_left, List.prod_cons, List.prod_nil, Septic.poly, cyc3, e1, e2, e3, e4, e5, ← h1, ← h2]
  ring

/-- Every answer of the solver of stars is a complete proof. -/
theorem septicStar_holds {X : SepticExt K} (hX : X.Sound) {f : Septic K} {C : Cert K} (h : septicStar X f = .ok (some C)) : Holds f.poly C := by
  unfold septicStar at h
  split at h
  · exact absurd h (by simp)
  rename_i g1
  push Not at g1
  split at h
  · exact absurd h (by simp)
  rename_i g2
  push Not at g2
  obtain ⟨g43, g34, _⟩ := g2
  split at h
  · exact absurd h (by simp)
  split at h
  · rename_i g4
    obtain ⟨r, hr, hs⟩ := fastQuartic_ok hX f.c511 f.c421 f.c331 f.c412 (f.poly111 / 3)
    rw [hr] at h
    refine (hs C (Except.ok.inj h)).congr fun a b c => ?_
    obtain ⟨e1, e2, e3, e4, e5⟩ := g1
    simp only [Septic.poly111, Quartic.poly, Septic.poly, abcV, e1, e2, e3, e4, e5, g4.1, g4.2]
    ring
  rename_i g4
  split at h
  · exact absurd h (by simp)
  split at h
  · rename_i g5
    refine starLoop_ok hX g1 (lt_of_le_of_ne g43 fun h0 => g4 ⟨h0.symm, ?_⟩) g5 _ C h
    rw [← g5, ← h0]
  rename_i g5
  split at h
  · rename_i sp sq hsq
    dsimp only at h
    split at h
    · exact absurd h (by simp)
    rename_i u v hopt
    generalize ht : (if f.c430 = 0 then f.c403 else f.c430) = t at h
    generalize hz : (if f.c430 = 0 then (0 : K) else sp / sq) = z at h
    have ht0 : 0 ≤ t := by
      rw [← ht]
      split
      · exact g34
      · exact g43
    -- the general form of the squared expression
    obtain ⟨W, Z, x, hW, hZ, hexp⟩ : ∃ W Z x : K, t * W ^ 2 = f.c430 ∧ t * Z ^ 2 = f.c403 ∧ ∀ a b c, starExpr (decide (f.c430 ≠ 0)) z u v a b c =
        W * (a ^ 2 * b) + x * (a * b * c) + Z * (b * c ^ 2) + (u + v) * (a ^ 2 * c) + (v - u) * (a * c ^ 2) := by
      by_cases h0 : f.c430 = 0
      · rw [if_pos h0] at ht
        refine ⟨0, 1, -2 * v - 1, by rw [h0]; ring, by rw [← ht]; ring, fun a b c => ?_⟩
        have : decide (f.c430 ≠ 0) = false := by simp [h0]
        rw [this]
        simp only [starExpr, Bool.false_eq_true, if_false]
        ring
      · rw [if_neg h0] at ht hz hsq
        obtain ⟨_, hu, hr⟩ := hX.sqrtND _ _ _ hsq
        have hz2 : f.c403 / f.c430 = z ^ 2 := by rw [← hz, hr, div_pow]
        refine ⟨1, -z, z - 1 - 2 * v, by rw [← ht]; ring, ?_, fun a b c => ?_⟩
        · rw [neg_sq, ← hz2, ← ht, mul_div_cancel₀ _ h0]
        · have : decide (f.c430 ≠ 0) = true := by simp [h0]
          rw [this]
          simp only [starExpr, if_true]
          ring
    have hb : Arity 3 ([([0, 1, 0], 1)] : TP K) := arity_lit rfl
    have hE := arity_starExprT (decide (f.c430 ≠ 0)) z u v
    have hEE := arity_pmul hE hE
    have hS := arity_pmul hb hEE
    have hval : ∀ a b c, polyVal (collect (f.terms ++ pneg (scaleT t (cycT (TermsPoly.pmul [([0, 1, 0], 1)]
        (TermsPoly.pmul (starExprT (decide (f.c430 ≠ 0)) z u v) (starExprT (decide (f.c430 ≠ 0)) z u v))))))) a b c =
        f.poly a b c - t * cyc3 (fun a b c => b * starExpr (decide (f.c430 ≠ 0)) z u v a b c ^ 2) a b c := by
      intro a b c
      rw [polyVal_diff, polyVal_septic, polyVal_scaleT, polyVal_cycT hS]
      congr 2
      have : ∀ a b c, polyVal (TermsPoly.pmul [([0, 1, 0], 1)] (TermsPoly.pmul (starExprT (decide (f.c430 ≠ 0)) z u v) (starExprT (decide (f.c430 ≠ 0)) z u v))) a b c =
          b * starExpr (decide (f.c430 ≠ 0)) z u v a b c ^ 2 := by
        intro a b c
        rw [polyVal_pmul hb hEE, polyVal_pmul hE hE, polyVal_starExprT, pow_two]
        congr 1
        simp [polyVal, Coeff.evalDict, Coeff.evalMonom]
      simp only [cyc3, this]
    have hq : Arity 3 (starQuotT f t W Z x (u + v) (v - u)) := arity_cycT (arity_lit rfl)
    obtain ⟨hd1, hd2⟩ := div_abc hX (arity_collect (arity_append (arity_septic f) (arity_pneg (arity_scaleT (arity_cycT hS))))) hq fun a b c => by
      rw [hval, ← star_exact g1 hW hZ]
      simp only [hexp]
    cases hrec : X.solve (X.div (collect (f.terms ++ pneg (scaleT t (cycT (TermsPoly.pmul [([0, 1, 0], 1)]
        (TermsPoly.pmul (starExprT (decide (f.c430 ≠ 0)) z u v) (starExprT (decide (f.c430 ≠ 0)) z u v))))))) abcT).1 with
    | error e =>
      rw [hrec] at h
      exact absurd h (by simp [Except.map])
    | ok r =>
      rw [hrec] at h
      obtain ⟨S, rfl, hC⟩ := Option.map_eq_some_iff.1 (Except.ok.inj h)
      rw [← hC]
      have hrot : ∀ a b c, polyVal (starQuotT f t W Z x (u + v) (v - u)) b c a = polyVal (starQuotT f t W Z x (u + v) (v - u)) a b c := by
        intro a b c
        unfold starQuotT
        rw [polyVal_cycT (arity_lit rfl), polyVal_cycT (arity_lit rfl), cyc3_rot]
      have hS' := hX.solve _ S hd1 (fun a b c => by rw [hd2, hd2, hrot]) hrec
      refine ((hS'.times abcV_nonneg).add ht0 (e := cyc3 fun a b c => b * starExpr (decide (f.c430 ≠ 0)) z u v a b c ^ 2)
        (oct_cyc fun a b c ho => by obtain ⟨_, hb, _⟩ := ho; positivity)).congr fun a b c => ?_
      rw [hd2]
      have := star_exact g1 hW hZ (x := x) (U := u + v) (V := v - u) a b c
      simp only [← hexp] at this
      simp only [abcV]
      linear_combination -this
  · split at h
    · exact tryPert_ok hX arity_pertStarT polyVal_pertStarT (fun a b c => cyc3_rot _ a b c) pertStarV_nonneg _ (fun t ht => (squarePerturbation_mem ht).1) C h
    · exact absurd h (by simp)

/-! ### The biased hexagon -/

theorem biasedCore_answer {f : Septic K} (hf : f.c700 = 0 ∧ f.c610 = 0 ∧ f.c601 = 0 ∧ f.c520 = 0 ∧ f.c430 = 0) {C : Cert K} (h : biasedCore f = some C) :
    Answer f.poly C := by
  unfold biasedCore at h
  dsimp only at h
  split at h
  swap
  · exact absurd h (by simp)
  rename_i g1
  obtain ⟨g1, k0⟩ := g1
  split at h
  swap
  · exact absurd h (by simp)
  rename_i hm
  split at h
  swap
  · exact absurd h (by simp)
  rename_i hdet
  have m1 : f.c511 = f.c511 / f.c403 * f.c403 := (div_mul_cancel₀ _ k0).symm
  have p1 : f.c421 = (f.c421 / f.c403 + 2 - 2) * f.c403 := by rw [add_sub_cancel_right, div_mul_cancel₀ _ k0]
  have n1 : f.c331 = f.c331 / f.c403 * f.c403 := (div_mul_cancel₀ _ k0).symm
  have q1 : f.c412 = f.c412 / f.c403 * f.c403 := (div_mul_cancel₀ _ k0).symm
  generalize hm' : f.c511 / f.c403 = m at h hm hdet m1
  generalize hp' : f.c421 / f.c403 + 2 = p at h hdet p1
  generalize hn' : f.c331 / f.c403 = n at h hdet n1
  generalize hq' : f.c412 / f.c403 = q at h hdet q1
  have hx : -(6 * m + p + 2 * q + 6) / (3 * m + 4) * (3 * m + 4) = -(6 * m + p + 2 * q + 6) := div_mul_cancel₀ _ (by positivity)
  generalize -(6 * m + p + 2 * q + 6) / (3 * m + 4) = x at h hx
  have hm0 := hm.ne'
  generalize hn2 : n - (x ^ 2 + 4 * x + 3) = n2 at h
  generalize hq2 : q + (2 * x + 3) = q2 at h
  have hu : -(p + 2 * q2) / 3 / m * (3 * m) = -(p + 2 * q2) := by field_simp
  have hv : -(2 * p + q2) / 3 / m * (3 * m) = -(2 * p + q2) := by field_simp
  generalize -(p + 2 * q2) / 3 / m = u at h hu
  generalize -(2 * p + q2) / 3 / m = v at h hv
  rw [← Option.some.inj h]
  have hid := biased_id hf rfl g1.symm k0 m1 p1 n1 q1 hm0 hn2.symm hq2.symm hu hv
  refine ⟨?_, ?_, ?_, ?_, ?_⟩
  · intro a b c
    change _ = sumA a b c * f.poly a b c
    have e : sumA a b c = a + b + c := by simp [sumA, cyc3]
    rw [e, ← hid]
    simp only [Cert.num, List.map_cons, List.map_nil, List.sum_cons, List.sum_nil, abcV, cycp3, e]
    ring
  · intro t ht a b c ho
    have hs : 0 ≤ sumA a b c := oct_cyc (fun a b c ho => ho.1) a b c ho
    have hp := abcV_nonneg a b c ho
    have sq : ∀ (F : Val3 K) (a b c : K), 0 ≤ cyc3 (fun a b c => F a b c ^ 2) a b c := fun F a b c => by simp only [cyc3]; positivity
    simp only [List.mem_cons, List.not_mem_nil, or_false] at ht
    rcases ht with rfl | rfl | rfl | rfl | rfl
    · dsimp only
      exact oct_cyc (fun a b c ho => by obtain ⟨ha, _, hc⟩ := ho; positivity) a b c ho
    · dsimp only
      exact sq (fun a b c => a ^ 3 * c - a ^ 2 * b ^ 2 - a ^ 2 * b * c * (x + 1) - a * b ^ 3 + a * b ^ 2 * c * (x + 2) - a * b * c ^ 2 + b ^ 2 * c ^ 2) a b c
    · exact mul_nonneg (mul_nonneg (sq (fun a b c => a ^ 2 - b ^ 2 + (u - v) * a * b - u * a * c + v * b * c) a b c) hs) hp
    · exact mul_nonneg (mul_nonneg (oct_cyc (fun a b c _ => by positivity) a b c ho) hs) hp
    · dsimp only
      unfold cycp3
      positivity
  · exact fun a b c ho => oct_cyc (fun a b c ho => ho.1) a b c ho
  · intro a b c ha hb hc _
    change 0 < sumA a b c
    simp only [sumA, cyc3]
    positivity
  · intro hnn t ht
    have hk : 0 < f.c403 := by
      have := hnn 1 1 0 ⟨zero_le_one, zero_le_one, le_refl 0⟩
      have e : f.poly 1 1 0 = 2 * f.c403 := by
        simp only [Septic.poly, hf.1, hf.2.1, hf.2.2.1, hf.2.2.2.1, hf.2.2.2.2, ← g1]
        ring
      rw [e] at this
      exact lt_of_le_of_ne (by linarith) (Ne.symm k0)
    simp only [List.mem_cons, List.not_mem_nil, or_false] at ht
    rcases ht with rfl | rfl | rfl | rfl | rfl
    · exact hk.le
    · change 0 ≤ 1 / 2 * f.c403
      positivity
    · change 0 ≤ m / 2 * f.c403
      positivity
    · refine mul_nonneg (div_nonneg ?_ (by norm_num)) hk.le
      rw [sub_nonneg, div_le_iff₀ hm]
      subst hn2
      subst hq2
      have h34 : 0 < 3 * m + 4 := by positivity
      have key : (3 * (m + (n - (x ^ 2 + 4 * x + 3))) * m - (p ^ 2 + (q + (2 * x + 3)) ^ 2 + p * (q + (2 * x + 3)))) * (3 * m + 4) =
          -3 * (m * (-3 * m ^ 2 - 3 * m * n - 7 * m - 4 * n + p ^ 2 + p * q - p + q ^ 2 - 2 * q - 3) + p ^ 2) := by
        linear_combination (-(3 * m + 4) * x - (6 * m + p + 2 * q + 6)) * hx
      by_contra hcon
      push Not at hcon
      nlinarith
    · change 0 ≤ (m + p + n + q + f.c322 / f.c403) * f.c403
      have h1 := hnn 1 1 1 ⟨zero_le_one, zero_le_one, zero_le_one⟩
      have e : f.poly 1 1 1 = 3 * ((m + p + n + q + f.c322 / f.c403) * f.c403) := by
        have e2 : (m + p + n + q + f.c322 / f.c403) * f.c403 = (m + p + n + q) * f.c403 + f.c322 := by rw [add_mul, div_mul_cancel₀ _ k0]
        rw [e2]
        simp only [Septic.poly, hf.1, hf.2.1, hf.2.2.1, hf.2.2.2.1, hf.2.2.2.2, ← g1, m1, p1, n1, q1]
        ring
      rw [e] at h1
      linarith

theorem reflect_answer {f : Septic K} {C : Cert K} (h : Answer f.reflect.poly C) : Answer f.poly C.reflect := by
  have hnum : ∀ a b c, C.reflect.num a b c = C.num a c b := by
    intro a b c
    simp only [Cert.num, Cert.reflect, List.map_map]
    rfl
  refine ⟨?_, ?_, fun a b c ho => h.den a c b ⟨ho.1, ho.2.2, ho.2.1⟩, fun a b c ha hb hc hn => h.pos a c b ha hc hb fun hh => hn ⟨hh.1.trans hh.2, hh.2.symm⟩, ?_⟩
  · intro a b c
    rw [hnum, h.identity, septic_reflect]
    rfl
  · intro t ht a b c ho
    obtain ⟨s, hs, rfl⟩ := List.mem_map.1 ht
    exact h.exprs s hs a c b ⟨ho.1, ho.2.2, ho.2.1⟩
  · intro hnn t ht
    obtain ⟨s, hs, rfl⟩ := List.mem_map.1 ht
    refine h.weights (fun a b c ho => ?_) s hs
    rw [septic_reflect]
    exact hnn a c b ⟨ho.1, ho.2.2, ho.2.1⟩

theorem septicBiased_answer {X : SepticExt K} {f : Septic K} (hf : f.c700 = 0 ∧ f.c610 = 0 ∧ f.c601 = 0) {C : Cert K} (h : septicBiased X f = .ok (some C)) :
    Answer f.poly C := by
  unfold septicBiased at h
  split at h
  · exact absurd h (by simp)
  split at h
  · split at h
    · exact absurd h (by simp)
    · rename_i g
      push Not at g
      obtain ⟨S, hS, rfl⟩ := Option.map_eq_some_iff.1 (Except.ok.inj h)
      exact reflect_answer (biasedCore_answer (f := f.reflect) ⟨hf.1, hf.2.2, hf.2.1, g.1, g.2⟩ hS)
  · rename_i g
    push Not at g
    exact biasedCore_answer ⟨hf.1, hf.2.1, hf.2.2, g.1, g.2⟩ (Except.ok.inj h)

/-! ### The hexagon with equal corners -/

/-- A root or a verified candidate of `Det` never makes the denominator vanish. -/
theorem hexD_pos {p q z : K} (h0 : ¬ (p = q ∧ z + 8 = p + q)) (hd : 0 ≤ hexDet p q z) : 0 < hexD p q z := by
  have h1 := hexD_eq p q z
  refine lt_of_le_of_ne (by rw [h1]; positivity) fun hD => h0 ?_
  have hg : (z + 8) ^ 2 - 4 * p * q = 0 := by
    have : ((z + 8) ^ 2 - 4 * p * q) ^ 2 ≤ 0 := by linarith
    exact pow_eq_zero_iff two_ne_zero |>.1 (le_antisymm this (sq_nonneg _))
  have hD' : 8 * (2 * p + 2 * q + (z + 8)) * (3 * (p - q) ^ 2 + (z + 8 - p - q) ^ 2) = 0 := hD.symm
  have split : ∀ x y : K, 3 * x ^ 2 + y ^ 2 = 0 → x = 0 ∧ y = 0 := by
    intro x y h
    have hx : x ^ 2 = 0 := le_antisymm (by nlinarith [sq_nonneg y]) (sq_nonneg x)
    have hy : y ^ 2 = 0 := le_antisymm (by nlinarith [sq_nonneg x]) (sq_nonneg y)
    exact ⟨pow_eq_zero_iff two_ne_zero |>.1 hx, pow_eq_zero_iff two_ne_zero |>.1 hy⟩
  rcases mul_eq_zero.1 hD' with h2 | h2
  · have hw : z + 8 = -2 * (p + q) := by linarith
    rw [hw] at hg
    have h3 : 3 * (p + q) ^ 2 + (p - q) ^ 2 = 0 := by linear_combination hg
    obtain ⟨h4, h5⟩ := split _ _ h3
    refine ⟨by linarith, ?_⟩
    rw [hw, h4]
    ring
  · obtain ⟨h4, h5⟩ := split _ _ h2
    exact ⟨by linarith, by linarith⟩

theorem hexVerify_ok {k p q m0 p0 n0 q0 z : K} {check : Bool} (h : check = true ∨ 0 ≤ hexDet p q z) : ∃ b, hexVerify k p q m0 p0 n0 q0 check z = .ok b ∧
    (b = true → 0 ≤ hexDet p q z ∧ 0 < hexD p q z) := by
  unfold hexVerify
  split
  · exact ⟨false, rfl, by simp⟩
  rename_i h1
  split
  · exact ⟨false, rfl, by simp⟩
  rename_i h2
  have hd : 0 ≤ hexDet p q z := by
    rcases h with h | h
    · push Not at h2
      exact h2 h
    · exact h
  have hD := hexD_pos h1 hd
  rw [if_neg hD.ne']
  exact ⟨_, rfl, fun _ => ⟨hd, hD⟩⟩

theorem hexFind_ok {k p q m0 p0 n0 q0 : K} : ∀ l : List K, ∃ r, hexFind k p q m0 p0 n0 q0 l = .ok r ∧ ∀ z, r = some z → z ∈ l ∧ 0 ≤ hexDet p q z ∧ 0 < hexD p q z
  | [] => ⟨none, rfl, by simp⟩
  | z :: l => by
    unfold hexFind
    obtain ⟨b, hb, hb'⟩ := hexVerify_ok (k := k) (p := p) (q := q) (m0 := m0) (p0 := p0) (n0 := n0) (q0 := q0) (z := z) (check := true) (Or.inl rfl)
    rw [hb]
    cases b
    · obtain ⟨r, hr, hr'⟩ := hexFind_ok (k := k) (p := p) (q := q) (m0 := m0) (p0 := p0) (n0 := n0) (q0 := q0) l
      exact ⟨r, hr, fun z hz => ⟨List.mem_cons_of_mem _ (hr' z hz).1, (hr' z hz).2⟩⟩
    · refine ⟨some z, rfl, ?_⟩
      intro y hy
      rw [← Option.some.inj hy]
      exact ⟨by simp, hb' rfl⟩

theorem corner_nonneg {f : Septic K} (hf : f.c700 = 0 ∧ f.c610 = 0 ∧ f.c601 = 0) (h2 : f.c520 = f.c502) (hnn : ∀ a b c, Octant a b c → 0 ≤ f.poly a b c) : 0 ≤ f.c520 := by
  by_contra hk
  push Not at hk
  generalize hp : f.c430 / f.c520 = p
  generalize hq : f.c403 / f.c520 = q
  have ep : f.c430 = p * f.c520 := by rw [← hp, div_mul_cancel₀ _ hk.ne]
  have eq : f.c403 = q * f.c520 := by rw [← hq, div_mul_cancel₀ _ hk.ne]
  have hd : 0 < 2 + |p| + |q| := by positivity
  have ht : 0 < 1 / (2 + |p| + |q|) := by positivity
  have ht1 : 1 / (2 + |p| + |q|) * (2 + |p| + |q|) = 1 := by field_simp
  generalize 1 / (2 + |p| + |q|) = t at ht ht1
  have hv := hnn 1 t 0 ⟨zero_le_one, ht.le, le_refl 0⟩
  have e : f.poly 1 t 0 = f.c520 * (t ^ 2 * (1 + p * t + q * t ^ 2 + t ^ 3)) := by
    simp only [Septic.poly, hf.1, hf.2.1, hf.2.2, ← h2, ep, eq]
    ring
  have hap := neg_abs_le p
  have haq := neg_abs_le q
  have hp0 := abs_nonneg p
  have hq0 := abs_nonneg q
  have t1 : t < 1 := by nlinarith
  have e1 : -(|p| * t) ≤ p * t := by nlinarith
  have e2 : -(|q| * t) ≤ q * t ^ 2 := by
    have : -(|q| * t ^ 2) ≤ q * t ^ 2 := by nlinarith [sq_nonneg t]
    have h3 : |q| * t ^ 2 ≤ |q| * t := mul_le_mul_of_nonneg_left (by nlinarith) hq0
    linarith
  have hpos : 0 < 1 + p * t + q * t ^ 2 + t ^ 3 := by
    have : 0 < t ^ 3 := by positivity
    nlinarith
  have : 0 < t ^ 2 * (1 + p * t + q * t ^ 2 + t ^ 3) := by positivity
  rw [e] at hv
  nlinarith

theorem hexAnswer_ok {X : SepticExt K} (hX : X.Sound) {f : Septic K} (hf : f.c700 = 0 ∧ f.c610 = 0 ∧ f.c601 = 0) (h2 : f.c520 = f.c502) (k0 : f.c520 ≠ 0) {z : K}
    (hd : 0 ≤ hexDet (f.c430 / f.c520) (f.c403 / f.c520) z) (hD : 0 < hexD (f.c430 / f.c520) (f.c403 / f.c520) z) :
    ∃ r, hexAnswer X f f.c520 (f.c430 / f.c520) (f.c403 / f.c520) z = .ok r ∧ ∀ C, r = some C → Answer f.poly C := by
  have ep : f.c430 = f.c430 / f.c520 * f.c520 := (div_mul_cancel₀ _ k0).symm
  have eq : f.c403 = f.c403 / f.c520 * f.c520 := (div_mul_cancel₀ _ k0).symm
  generalize f.c430 / f.c520 = p at *
  generalize f.c403 / f.c520 = q at *
  unfold hexAnswer hexMPNQ
  dsimp only
  have T1 := hex_thm1 p q z
  have T2 := hex_thm2 ((z + 8) ^ 2 - 4 * p * q) (4 * (2 * p ^ 2 - q * (z + 8))) (4 * (2 * q ^ 2 - p * (z + 8)))
  have hDe := hexD_eq p q z
  have hd1 : 1 / hexD p q z * hexD p q z = 1 := by field_simp
  have hw1 : 0 ≤ 1 / hexD p q z := by positivity
  generalize 1 / hexD p q z = d at *
  generalize hexD p q z = D at *
  generalize hexDet p q z = E at *
  generalize (z + 8) ^ 2 - 4 * p * q = g at *
  generalize 4 * (2 * p ^ 2 - q * (z + 8)) = u at *
  generalize 4 * (2 * q ^ 2 - p * (z + 8)) = v at *
  have hw2 : 1 - g ^ 2 * d = E * d := by linear_combination -hd1 + d * hDe
  generalize hm1 : f.c511 - (2 * f.c520 - 4 * d * f.c520 * g ^ 2 - (1 - g ^ 2 * d) * f.c520 * 4) = m1
  generalize hp1 : f.c421 - ((p + z + 1) * f.c520 - 4 * d * f.c520 * g * (u - 2 * v) + 2 * ((1 - g ^ 2 * d) * f.c520 * 4)) = p1
  generalize hn1 : f.c331 - (-(z + 2) * f.c520 - 4 * d * f.c520 * (u ^ 2 - u * v + v ^ 2 - g ^ 2) - 3 * ((1 - g ^ 2 * d) * f.c520 * 4)) = n1
  generalize hq1 : f.c412 - ((q + z + 1) * f.c520 - 4 * d * f.c520 * g * (v - 2 * u) + 2 * ((1 - g ^ 2 * d) * f.c520 * 4)) = q1
  obtain ⟨r, hr, hs⟩ := fastQuartic_ok hX m1 p1 n1 q1 (f.poly111 / 3)
  rw [hr]
  refine ⟨_, rfl, ?_⟩
  intro C hC
  obtain ⟨S, hS, rfl⟩ := Option.map_eq_some_iff.1 hC
  have hS := hs S hS
  -- the rest of the septic is the quartic part
  have hrest : ∀ a b c, f.poly a b c = f.c520 * ((a * b + b * c + c * a) * cyc3 (fun a b c => a ^ 4 * b + p * a ^ 3 * b ^ 2 + q * a ^ 2 * b ^ 3 + a * b ^ 4 +
        z * a ^ 3 * b * c - (p + q + z + 2) * a ^ 2 * b ^ 2 * c) a b c) + abcV a b c * (⟨m1, p1, n1, q1, f.poly111 / 3 - m1 - p1 - n1 - q1⟩ : Quartic K).poly a b c -
      2 * (a * b * c) * (d * f.c520) * cyc3 (fun a b c => (g * (a ^ 2 - b ^ 2) + u * (a * b - a * c) + v * (b * c - a * b)) ^ 2) a b c -
      4 * (a * b * c) * ((1 - g ^ 2 * d) * f.c520) * (a ^ 2 + b ^ 2 + c ^ 2 - a * b - b * c - c * a) ^ 2 := by
    intro a b c
    simp only [Septic.poly111, Septic.poly, Quartic.poly, abcV, cyc3, hf.1, hf.2.1, hf.2.2, ← h2, ep, eq, ← hm1, ← hp1, ← hn1, ← hq1]
    ring
  have hid : ∀ a b c, f.poly a b c = abcV a b c * (⟨m1, p1, n1, q1, f.poly111 / 3 - m1 - p1 - n1 - q1⟩ : Quartic K).poly a b c +
      d * f.c520 * cyc3 (fun a b c => c * (a * (g * (b ^ 2 - c ^ 2) + u * (b * c - b * a) + v * (c * a - b * c)) +
        b * (g * (c ^ 2 - a ^ 2) + u * (c * a - c * b) + v * (a * b - c * a))) ^ 2) a b c +
      (1 - g ^ 2 * d) * f.c520 * cyc3 (fun a b c => a * (b - c) ^ 2 * (a ^ 2 - 2 * a * b - 2 * a * c + 3 * b * c) ^ 2) a b c := by
    intro a b c
    have t1 := T1 a b c
    have t2 := T2 a b c
    have t3 := hex_thm2' a b c
    rw [hrest a b c]
    generalize cyc3 (fun a b c => a ^ 4 * b + p * a ^ 3 * b ^ 2 + q * a ^ 2 * b ^ 3 + a * b ^ 4 + z * a ^ 3 * b * c - (p + q + z + 2) * a ^ 2 * b ^ 2 * c) a b c = F at *
    generalize cyc3 (fun a b c => c * (g * (a ^ 2 - b ^ 2) + u * (a * b - a * c) + v * (b * c - a * b)) ^ 2) a b c = S1 at *
    generalize cyc3 (fun a b c => c * (a - b) ^ 4) a b c = S2 at *
    generalize cyc3 (fun a b c => (g * (a ^ 2 - b ^ 2) + u * (a * b - a * c) + v * (b * c - a * b)) ^ 2) a b c = R1 at *
    generalize cyc3 (fun a b c => a * (b - c) ^ 2 * (a ^ 2 - 2 * a * b - 2 * a * c + 3 * b * c) ^ 2) a b c = E2 at *
    generalize cyc3 (fun a b c => c * (a * (g * (b ^ 2 - c ^ 2) + u * (b * c - b * a) + v * (c * a - b * c)) +
        b * (g * (c ^ 2 - a ^ 2) + u * (c * a - c * b) + v * (a * b - c * a))) ^ 2) a b c = E1 at *
    generalize a ^ 2 + b ^ 2 + c ^ 2 - a * b - b * c - c * a = R2 at *
    generalize a * b + b * c + c * a = s at *
    rw [hw2]
    linear_combination -(f.c520 * s * F) * hd1 + f.c520 * d * s * t1 + f.c520 * d * t2 + f.c520 * d * E * t3
  refine ⟨?_, ?_, hS.1.den, hS.2, ?_⟩
  · intro a b c
    have := hS.1.identity a b c
    rw [hid a b c]
    change _ * (_ * S.den a b c) + (_ * (_ * S.den a b c) + S.num a b c) = S.den a b c * _
    rw [this]
    ring
  · intro t ht a b c ho
    rcases List.mem_cons.1 ht with rfl | ht
    · exact mul_nonneg (oct_cyc (fun a b c ho => by obtain ⟨ha, _, _⟩ := ho; positivity) a b c ho) (hS.1.den a b c ho)
    rcases List.mem_cons.1 ht with rfl | ht
    · exact mul_nonneg (oct_cyc (fun a b c ho => by obtain ⟨_, _, hc⟩ := ho; positivity) a b c ho) (hS.1.den a b c ho)
    · exact hS.1.exprs t ht a b c ho
  · intro hnn t ht
    have hk := corner_nonneg hf h2 hnn
    rcases List.mem_cons.1 ht with rfl | ht
    · change 0 ≤ (1 - g ^ 2 * d) * f.c520
      rw [hw2]
      positivity
    rcases List.mem_cons.1 ht with rfl | ht
    · exact mul_nonneg hw1 hk
    · exact hS.1.weights t ht

/-! ### The other hexagons -/

theorem arity_hexExprT (u v r s z w : K) : Arity 3 (hexExprT u v r s z w) := arity_lit rfl

theorem polyVal_hexExprT (u v r s z w a b c : K) : polyVal (hexExprT u v r s z w) a b c = hexExpr u v r s z w a b c := by
  simp only [hexExprT, hexExpr, polyVal, Coeff.evalDict, Coeff.evalMonom, List.map_cons, List.map_nil, List.sum_cons, List.sum_nil, List.zipWith_cons_cons,
      List.zipWith_nil_left, List.prod_cons, List.prod_nil]
  ring

theorem hexLoop_ok {X : SepticExt K} (hX : X.Sound) {f : Septic K} {t u v : K} (ht : 0 ≤ t) : ∀ (l : List (K × K)) (C : Cert K),
    hexLoop X f t u v l = .ok (some C) → Holds f.poly C
  | [], C, h => absurd h (by simp [hexLoop])
  | (w, z) :: l, C, h => by
    unfold hexLoop at h
    split at h
    · exact hexLoop_ok hX ht l C h
    · rename_i r s _
      dsimp only at h
      have ha : Arity 3 ([([1, 0, 0], 1)] : TP K) := arity_lit rfl
      have hE := arity_hexExprT u v r s z w
      have hv : ∀ a b c, polyVal (cycT (TermsPoly.pmul [([1, 0, 0], 1)] (TermsPoly.pmul (hexExprT u v r s z w) (hexExprT u v r s z w)))) a b c =
          cyc3 (fun a b c => a * hexExpr u v r s z w a b c ^ 2) a b c := by
        intro a b c
        rw [polyVal_cycT (arity_pmul ha (arity_pmul hE hE))]
        have : ∀ a b c, polyVal (TermsPoly.pmul [([1, 0, 0], 1)] (TermsPoly.pmul (hexExprT u v r s z w) (hexExprT u v r s z w))) a b c =
            a * hexExpr u v r s z w a b c ^ 2 := by
          intro a b c
          rw [polyVal_pmul ha (arity_pmul hE hE), polyVal_pmul hE hE, polyVal_hexExprT, pow_two]
          congr 1
          simp [polyVal, Coeff.evalDict, Coeff.evalMonom]
        simp only [cyc3, this]
      cases hrec : X.solve (collect (f.terms ++ pneg (scaleT t (cycT (TermsPoly.pmul [([1, 0, 0], 1)]
          (TermsPoly.pmul (hexExprT u v r s z w) (hexExprT u v r s z w))))))) with
      | error e =>
        rw [hrec] at h
        exact absurd h (by simp [Except.map])
      | ok r' =>
        rw [hrec] at h
        obtain ⟨S, rfl, hC⟩ := Option.map_eq_some_iff.1 (Except.ok.inj h)
        rw [← hC]
        refine ((solve_diff hX (arity_cycT (arity_pmul ha (arity_pmul hE hE))) hv (fun a b c => cyc3_rot _ a b c) hrec).add ht
          (oct_cyc fun a b c ho => by obtain ⟨ha, _, _⟩ := ho; positivity)).congr fun a b c => by ring

theorem hexRest_holds {X : SepticExt K} (hX : X.Sound) {f : Septic K} {C : Cert K} (h : hexRest X f = .ok (some C)) : Holds f.poly C := by
  unfold hexRest at h
  split at h
  · exact absurd h (by simp)
  split at h
  · dsimp only at h
    generalize (if f.c520 = 0 then f.c502 else _) = t at h
    split at h
    · exact absurd h (by simp)
    · rename_i ht
      exact hexLoop_ok hX (not_lt.1 ht) _ C h
  · split at h
    · exact tryPert_ok hX arity_pertHexT polyVal_pertHexT pertHexV_rot pertHexV_nonneg _ (fun t ht => (squarePerturbation_mem ht).1) C h
    · exact absurd h (by simp)

theorem septicHexagon_answer {X : SepticExt K} (hX : X.Sound) {f : Septic K} {C : Cert K} (h : septicHexagon X f = .ok (some C)) : Answer f.poly C := by
  unfold septicHexagon at h
  split at h
  · exact absurd h (by simp)
  rename_i g1
  push Not at g1
  split at h
  · exact absurd h (by simp)
  · rename_i C' hC'
    rw [← Option.some.inj (Except.ok.inj h)]
    split at hC'
    · exact septicBiased_answer g1 hC'
    · exact absurd hC' (by simp)
  split at h
  · exact absurd h (by simp)
  split at h
  swap
  · exact (hexRest_holds hX h).answer
  rename_i g2
  split at h
  · exact (septicStar_holds hX h).answer
  rename_i g3
  dsimp only at h
  split at h
  · exact absurd h (by simp)
  · exact absurd h (by simp)
  · exact (hexRest_holds hX h).answer
  · rename_i z hz
    have hdz : 0 ≤ hexDet (f.c430 / f.c520) (f.c403 / f.c520) z ∧ 0 < hexD (f.c430 / f.c520) (f.c403 / f.c520) z := by
      split at hz
      · exact absurd hz (by simp)
      · rename_i y hy
        have hdet := hX.exact f y hy
        obtain ⟨b, hb, hb'⟩ := hexVerify_ok (k := f.c520) (p := f.c430 / f.c520) (q := f.c403 / f.c520) (m0 := f.c511) (p0 := f.c421) (n0 := f.c331) (q0 := f.c412) (z := y)
          (check := false) (Or.inr hdet.ge)
        rw [hb] at hz
        cases b
        · exact absurd hz (by simp [Except.map])
        · have : y = z := by simpa [Except.map] using hz
          rw [← this]
          exact hb' rfl
      · rename_i first zs hy
        split at hz
        · obtain ⟨r, hr, hr'⟩ := hexFind_ok (k := f.c520) (p := f.c430 / f.c520) (q := f.c403 / f.c520) (m0 := f.c511) (p0 := f.c421) (n0 := f.c331) (q0 := f.c412) zs
          rw [hr] at hz
          rcases r with _ | y
          · exact absurd hz (by simp [Except.map])
          · have : y = z := by simpa [Except.map] using hz
            rw [← this]
            exact (hr' y rfl).2
        · exact absurd hz (by simp)
    obtain ⟨r, hr, hs⟩ := hexAnswer_ok hX g1 g2 g3 hdz.1 hdz.2
    rw [hr] at h
    rcases r with _ | C'
    · exact (hexRest_holds hX h).answer
    · exact hs C (Except.ok.inj h)

/-- **C76.** Every answer of the septic solver is an identity for the polynomial, with expressions and a denominator that are nonnegative where the variables are
nonnegative; if the polynomial is nonnegative there, all weights are nonnegative. -/
theorem septicSolve_answer {X : SepticExt K} (hX : X.Sound) {f : Septic K} {C : Cert K} (h : septicSolve X f = .ok (some C)) : Answer f.poly C := by
  unfold septicSolve at h
  split at h
  · split at h
    · exact (septicStar_holds hX h).answer
    · exact septicHexagon_answer hX h
  · split at h
    · rename_i g
      refine (hX.symm f C (fun a b c => ?_) h).answer
      simp only [Septic.poly, g.1, g.2.1, g.2.2.1, g.2.2.2]
      ring
    · exact absurd h (by simp)

/-! ### Exceptions -/

/-- Without the term `a^5bc` the two equations for `(u, v)` (septic.py 127-128) have a common factor. -/
theorem star_common_factor (u v p q : K) :
    u ^ 3 * v + 2 * u ^ 2 * 0 - u ^ 2 - 2 * u * v ^ 2 - 4 * u * 0 - 4 * v ^ 2 * 0 + 2 * v * 0 + 2 * v - p * (u * v - 1) = (u * v - 1) * (u ^ 2 - 2 * v - p) ∧
    -2 * u ^ 2 * v - 4 * u ^ 2 * 0 + u * v ^ 3 + 2 * u * 0 + 2 * u + 2 * v ^ 2 * 0 - v ^ 2 - 4 * v * 0 - q * (u * v - 1) = (u * v - 1) * (v ^ 2 - 2 * u - q) := by
  constructor <;> ring

theorem starLoop_total {X : SepticExt K} (hX : X.Sound) {c43 m p n q rem : K} (hk : 0 < c43) (hm : 0 < m) (hrem : 0 ≤ rem) : ∀ l, ∃ r, starLoop X c43 m p n q rem l = .ok r
  | [] => ⟨none, rfl⟩
  | (u, v) :: l => by
    unfold starLoop
    dsimp only
    split
    · rename_i h
      obtain ⟨C, hC⟩ := fastQuartic_some X (m := m * c43) (p := (p - (u ^ 2 - 2 * v)) * c43) (n := (n + 2 * u * v) * c43) (q := (q - (v ^ 2 - 2 * u)) * c43)
        (rem := rem / 3) (by positivity) (by positivity) (by
          have : 3 * (m * c43) * (m * c43 + (n + 2 * u * v) * c43) - (((p - (u ^ 2 - 2 * v)) * c43) ^ 2 + (p - (u ^ 2 - 2 * v)) * c43 * ((q - (v ^ 2 - 2 * u)) * c43) +
            ((q - (v ^ 2 - 2 * u)) * c43) ^ 2) = c43 ^ 2 * (3 * m * (m + (n + 2 * u * v)) - ((p - (u ^ 2 - 2 * v)) ^ 2 + (p - (u ^ 2 - 2 * v)) * (q - (v ^ 2 - 2 * u)) +
            (q - (v ^ 2 - 2 * u)) ^ 2)) := by ring
          rw [this]
          positivity)
      rw [hC]
      exact ⟨_, rfl⟩
    · exact starLoop_total hX hk hm hrem l

theorem map_err {α β : Type*} {g : α → β} {x : Except PyErr α} {err : PyErr} (h : x.map g = .error err) : x = .error err := by
  cases x with
  | error e => exact congrArg Except.error (Except.error.inj h)
  | ok a => exact absurd h (by simp [Except.map])

theorem septicStar_error {X : SepticExt K} (hX : X.Sound) {f : Septic K} {err : PyErr} (h : septicStar X f = .error err) : ∃ g, X.solve g = .error err := by
  unfold septicStar at h
  split at h
  · exact absurd h (by simp)
  split at h
  · exact absurd h (by simp)
  rename_i g2
  push Not at g2
  split at h
  · exact absurd h (by simp)
  rename_i g3
  split at h
  · obtain ⟨r, hr, _⟩ := fastQuartic_ok hX f.c511 f.c421 f.c331 f.c412 (f.poly111 / 3)
    rw [hr] at h
    exact absurd h (by simp)
  rename_i g4
  split at h
  · exact absurd h (by simp)
  split at h
  · rename_i g5
    have hk : 0 < f.c430 := lt_of_le_of_ne g2.1 fun h0 => g4 ⟨h0.symm, by rw [← g5, ← h0]⟩
    rcases g2.2.2.lt_or_eq with hm | hm
    · obtain ⟨r, hr⟩ := starLoop_total hX (p := f.c421 / f.c430) (n := f.c331 / f.c430) (q := f.c412 / f.c430) hk (div_pos hm hk) (not_lt.1 g3) (X.starUV f)
      rw [hr] at h
      exact absurd h (by simp)
    · rw [hX.starUV f hm.symm] at h
      exact absurd h (by simp [starLoop])
  split at h
  · dsimp only at h
    split at h
    · exact absurd h (by simp)
    · exact ⟨_, map_err h⟩
  · split at h
    · exact tryPert_error _ h
    · exact absurd h (by simp)

theorem hexLoop_error {X : SepticExt K} {f : Septic K} {t u v : K} {err : PyErr} : ∀ l, hexLoop X f t u v l = .error err → ∃ g, X.solve g = .error err
  | [], h => absurd h (by simp [hexLoop])
  | (w, z) :: l, h => by
    unfold hexLoop at h
    split at h
    · exact hexLoop_error l h
    · exact ⟨_, map_err h⟩

theorem hexRest_error {X : SepticExt K} {f : Septic K} {err : PyErr} (h : hexRest X f = .error err) : ∃ g, X.solve g = .error err := by
  unfold hexRest at h
  split at h
  · exact absurd h (by simp)
  split at h
  · dsimp only at h
    generalize (if f.c520 = 0 then f.c502 else _) = t at h
    split at h
    · exact absurd h (by simp)
    · exact hexLoop_error _ h
  · split at h
    · exact tryPert_error _ h
    · exact absurd h (by simp)

theorem septicHexagon_error {X : SepticExt K} (hX : X.Sound) {f : Septic K} {err : PyErr} (h : septicHexagon X f = .error err) :
    (∃ g, X.solve g = .error err) ∨ (err = .valueError ∧ f.c520 = f.c502 ∧ f.c520 ≠ 0 ∧ X.hexZ f = .noRoot) := by
  unfold septicHexagon at h
  split at h
  · exact absurd h (by simp)
  rename_i g1
  push Not at g1
  split at h
  · rename_i er hC'
    exfalso
    split at hC'
    · rename_i g
      unfold septicBiased at hC'
      split at hC'
      · exact absurd hC' (by simp)
      split at hC'
      · rename_i g2
        split at hC'
        · rename_i g3
          rcases g with g | g
          · exact g2.elim (fun h => h g.1) (fun h => h g.2)
          · exact g3.elim (fun h => h g.2) (fun h => h g.1)
        · exact absurd hC' (by simp)
      · exact absurd hC' (by simp)
    · exact absurd hC' (by simp)
  · exact absurd h (by simp)
  split at h
  · exact absurd h (by simp)
  split at h
  swap
  · exact Or.inl (hexRest_error h)
  rename_i g2
  split at h
  · exact Or.inl (septicStar_error hX h)
  rename_i g3
  dsimp only at h
  split at h
  · rename_i er hz
    refine Or.inr ?_
    split at hz
    · rename_i hno
      have e1 : er = .valueError := (Except.error.inj hz).symm
      exact ⟨(Except.error.inj h).symm.trans e1, g2, g3, hno⟩
    · rename_i y hy
      obtain ⟨b, hb, _⟩ := hexVerify_ok (k := f.c520) (p := f.c430 / f.c520) (q := f.c403 / f.c520) (m0 := f.c511) (p0 := f.c421) (n0 := f.c331) (q0 := f.c412) (z := y)
        (check := false) (Or.inr (hX.exact f y hy).ge)
      rw [hb] at hz
      exact absurd hz (by simp [Except.map])
    · rename_i first zs hy
      split at hz
      · obtain ⟨r, hr, _⟩ := hexFind_ok (k := f.c520) (p := f.c430 / f.c520) (q := f.c403 / f.c520) (m0 := f.c511) (p0 := f.c421) (n0 := f.c331) (q0 := f.c412) zs
        rw [hr] at hz
        exact absurd hz (by simp [Except.map])
      · exact absurd hz (by simp)
  · exact absurd h (by simp)
  · exact Or.inl (hexRest_error h)
  · rename_i z hz
    refine Or.inl ?_
    unfold hexAnswer at h
    generalize hexMPNQ f.c520 (f.c430 / f.c520) (f.c403 / f.c520) f.c511 f.c421 f.c331 f.c412 z = w at h
    obtain ⟨m1, p1, n1, q1⟩ := w
    obtain ⟨r, hr, _⟩ := fastQuartic_ok hX m1 p1 n1 q1 (f.poly111 / 3)
    dsimp only at h
    rw [hr] at h
    rcases r with _ | C'
    · exact hexRest_error h
    · exact absurd h (by simp [Except.map])

/-- **C76 (exceptions).** Besides the exceptions of the recursive solver and of the symmetric solver, the only exception is the `ValueError` of `min([])` on a
hexagon with equal corners for which `Det` has no real root. -/
theorem septicSolve_error {X : SepticExt K} (hX : X.Sound) {f : Septic K} {err : PyErr} (h : septicSolve X f = .error err) :
    (∃ g, X.solve g = .error err) ∨ X.symm f = .error err ∨ (err = .valueError ∧ f.c520 = f.c502 ∧ f.c520 ≠ 0 ∧ X.hexZ f = .noRoot) := by
  unfold septicSolve at h
  split at h
  · split at h
    · exact Or.inl (septicStar_error hX h)
    · rcases septicHexagon_error hX h with h | h
      · exact Or.inl h
      · exact Or.inr (Or.inr h)
  · split at h
    · exact Or.inr (Or.inl h)
    · exact absurd h (by simp)

/-- `s(a5b2 + a2b5 - a4b3 - 2a3b4)`: `Det` is negative everywhere. -/
def exNoRoot (K : Type*) [Field K] : Septic K := ⟨0, 0, 0, 1, 0, 1, -1, 0, 0, -2, 0, 0⟩

theorem exNoRoot_det (z : K) : hexDet ((exNoRoot K).c430 / (exNoRoot K).c520) ((exNoRoot K).c403 / (exNoRoot K).c520) z < 0 := by
  have e : hexDet ((exNoRoot K).c430 / (exNoRoot K).c520) ((exNoRoot K).c403 / (exNoRoot K).c520) z =
      -(((z + 8) ^ 2 - 4 * (z + 8) - 20) ^ 2 + 8 * (z + 8 + 2) ^ 2 + 208) := by
    simp only [exNoRoot, hexDet]
    ring
  rw [e, neg_lt_zero]
  positivity

/-- On this polynomial the solver raises `ValueError` instead of giving up, for every root finder that only reports roots. -/
theorem septicSolve_raises_wrong {X : SepticExt K} (hX : X.Sound) (hfl : ∀ f first zs, X.hexZ f = .float first zs → ∃ z, hexDet (f.c430 / f.c520) (f.c403 / f.c520) z = 0) :
    septicSolve X (exNoRoot K) = .error .valueError := by
  have hz : X.hexZ (exNoRoot K) = .noRoot := by
    cases h : X.hexZ (exNoRoot K) with
    | noRoot => rfl
    | exact z => exact absurd (hX.exact _ z h) (exNoRoot_det z).ne
    | float first zs =>
      obtain ⟨z, hz⟩ := hfl _ _ _ h
      exact absurd hz (exNoRoot_det z).ne
  have n1 : ¬ ((exNoRoot K).c520 = 0 ∧ (exNoRoot K).c502 = 0) := by simp [exNoRoot]
  unfold septicSolve
  rw [if_pos (by simp [exNoRoot]), if_neg n1]
  unfold septicHexagon
  rw [if_neg (by simp [exNoRoot]), if_neg (by simp [exNoRoot])]
  dsimp only
  rw [if_neg (by simp [exNoRoot]), if_pos (by simp [exNoRoot]), if_neg (by simp [exNoRoot]), hz]

/-! ### From the coefficient table -/

/-- The twelve numbers determine the value of a cyclic septic. -/
theorem septic_ofCoeff (co : Coeff K) (h : co.WF) (hn : co.nvars = 3) (hd : co.Hom 7) (hc : co.isCyclicDefault = true) (a b c : K) :
    Coeff.evalDict co.coeffs [a, b, c] = (Septic.ofCoeff co).poly a b c := by
  have hrot := (Coeff.isCyclicDefault_iff co h (by omega)).1 hc
  rw [Coeff.evalDict_hom co h 7 hd, hn]
  have e : generatePartitions 3 7 true = [[7, 0, 0], [6, 1, 0], [6, 0, 1], [5, 2, 0], [5, 1, 1], [5, 0, 2], [4, 3, 0], [4, 2, 1], [4, 1, 2], [4, 0, 3], [3, 4, 0],
    [3, 3, 1], [3, 2, 2], [3, 1, 3], [3, 0, 4], [2, 5, 0], [2, 4, 1], [2, 3, 2], [2, 2, 3], [2, 1, 4], [2, 0, 5], [1, 6, 0], [1, 5, 1], [1, 4, 2], [1, 3, 3],
    [1, 2, 4], [1, 1, 5], [1, 0, 6], [0, 7, 0], [0, 6, 1], [0, 5, 2], [0, 4, 3], [0, 3, 4], [0, 2, 5], [0, 1, 6], [0, 0, 7]] := by decide +kernel
  have r1 : ∀ x y z : ℕ, co.call [y, z, x] = co.call [x, y, z] := fun x y z => hrot [x, y, z] 1 (by simp [hn])
  have r2 : ∀ x y z : ℕ, co.call [z, x, y] = co.call [x, y, z] := fun x y z => hrot [x, y, z] 2 (by simp [hn])
  rw [e]
  simp only [List.map_cons, List.map_nil, List.sum_cons, List.sum_nil, Coeff.evalMonom, List.zipWith_cons_cons, List.zipWith_nil_left, List.zipWith_nil_right,
    List.prod_cons, List.prod_nil, Septic.poly, Septic.ofCoeff]
  rw [r1 7 0 0, r2 7 0 0, r1 6 1 0, r2 6 1 0, r1 6 0 1, r2 6 0 1, r1 5 2 0, r2 5 2 0, r1 5 1 1, r2 5 1 1, r1 2 5 0, r2 2 5 0, r1 4 3 0, r2 4 3 0, r1 4 2 1, r2 4 2 1,
    r1 2 4 1, r2 2 4 1, r1 3 4 0, r2 3 4 0, r1 3 3 1, r2 3 3 1, r1 3 2 2, r2 3 2 2]
  ring

/-- **C76 (on polynomials).** For every cyclic polynomial of degree seven that is nonnegative on the octant, an answer is a complete proof. -/
theorem septicSolve_partial {X : SepticExt K} (hX : X.Sound) (co : Coeff K) (h : co.WF) (hn : co.nvars = 3) (hd : co.Hom 7) (hc : co.isCyclicDefault = true)
    {C : Cert K} (hs : septicSolve X (Septic.ofCoeff co) = .ok (some C)) :
    (∀ a b c, C.num a b c = C.den a b c * Coeff.evalDict co.coeffs [a, b, c]) ∧
      ((∀ a b c, Octant a b c → 0 ≤ Coeff.evalDict co.coeffs [a, b, c]) → Holds (fun a b c => Coeff.evalDict co.coeffs [a, b, c]) C) := by
  have hA := septicSolve_answer hX hs
  have e := septic_ofCoeff co h hn hd hc
  refine ⟨fun a b c => by rw [e, hA.identity], fun hnn => (hA.holds fun a b c ho => ?_).congr fun a b c => (e a b c).symm⟩
  rw [← e]
  exact hnn a b c ho

/-! ### Examples -/

/-- An environment that meets the contracts: the modelled quartic solver, exact division, and one candidate for `z`. -/
noncomputable def exSeptic : SepticExt ℚ where
  quart g := quarticSolve (fun _ => false) true id none [] g
  solve _ := .ok none
  div := exDiv
  symm _ := .ok none
  rational := true
  starUV _ := []
  sqrtND _ := none
  starOpt _ := none
  hexZ _ := .float true [0]
  hexWZ _ := []
  hexOpt _ _ := none
  isqrt _ _ := 1

theorem exSeptic_sound : exSeptic.Sound where
  quart := quartic_contract _ _ _ (fun _ => none) (fun _ => [])
  solve _ _ _ _ h := absurd h (by simp [exSeptic])
  symm _ _ _ h := absurd h (by simp [exSeptic])
  div_eq _ _ _ hp hg := ⟨(exDiv_spec hp hg).1, (exDiv_spec hp hg).2.1, (exDiv_spec hp hg).2.2.1⟩
  div_exact _ _ _ q hp hg hq h := (exDiv_spec hp hg).2.2.2.1 ⟨q, hq, h⟩
  sqrtND _ _ _ h := absurd h (by simp [exSeptic])
  exact _ _ h := absurd h (by simp [exSeptic])
  starUV _ _ := rfl

/-- Whether there is an answer. -/
def answered (r : Except PyErr (Option (Cert ℚ))) : Bool := match r with | .ok (some _) => true | _ => false

theorem answered_iff (r : Except PyErr (Option (Cert ℚ))) (h : answered r = true) : ∃ C, r = .ok (some C) := by
  unfold answered at h
  split at h
  · exact ⟨_, rfl⟩
  · exact absurd h (by simp)

/-- A hexagon, `s(a5b2 + a2b5 + a4b3 + 20a5bc - 20a3b2c2)`, that is answered. -/
theorem exHexagon_answered : ∃ C, septicSolve exSeptic ⟨0, 0, 0, 1, 20, 1, 1, 0, 0, 0, 0, -20⟩ = .ok (some C) ∧
    Answer (⟨0, 0, 0, 1, 20, 1, 1, 0, 0, 0, 0, -20⟩ : Septic ℚ).poly C := by
  obtain ⟨C, hC⟩ := answered_iff (septicSolve exSeptic ⟨0, 0, 0, 1, 20, 1, 1, 0, 0, 0, 0, -20⟩) (by decide +kernel)
  exact ⟨C, hC, septicSolve_answer exSeptic_sound hC⟩

/-- The solver answers a polynomial that is negative at `(1, 1, 0)`, with negative weights: a sign is not tested. -/
theorem septicSolve_weights_wrong : ∃ C, septicSolve exSeptic ⟨0, 0, 0, 0, -1, -1, 0, 2, 0, -1, 0, 0⟩ = .ok (some C) ∧ (∃ t ∈ C.terms, t.1 < 0) ∧
    (⟨0, 0, 0, 0, -1, -1, 0, 2, 0, -1, 0, 0⟩ : Septic ℚ).poly 1 1 0 < 0 := by
  obtain ⟨C, hC⟩ := answered_iff (septicSolve exSeptic ⟨0, 0, 0, 0, -1, -1, 0, 2, 0, -1, 0, 0⟩) (by decide +kernel)
  have hneg : (⟨0, 0, 0, 0, -1, -1, 0, 2, 0, -1, 0, 0⟩ : Septic ℚ).poly 1 1 0 < 0 := by norm_num [Septic.poly]
  refine ⟨C, hC, ?_, hneg⟩
  have hA := septicSolve_answer exSeptic_sound hC
  by_contra hcon
  push Not at hcon
  have hden : 0 < C.den 1 1 0 := by
    have h1 : (septicSolve exSeptic ⟨0, 0, 0, 0, -1, -1, 0, 2, 0, -1, 0, 0⟩).toOption.join.map (fun C => decide (0 < C.den 1 1 0)) = some true := by decide +kernel
    rw [hC] at h1
    simpa [Except.toOption] using h1
  have := (⟨hA.identity, hcon, hA.exprs, hA.den⟩ : Shows Octant _ C).nonneg (a := 1) (b := 1) (c := 0) ⟨zero_le_one, zero_le_one, le_refl 0⟩ hden.ne'
  linarith

/-- A root finder that reports nothing meets the hypotheses of `septicSolve_raises_wrong`. -/
example : septicSolve { exSeptic with hexZ := fun _ => .noRoot } (exNoRoot ℚ) = .error .valueError :=
  septicSolve_raises_wrong { exSeptic_sound with exact := fun _ _ h => absurd h (by simp) } fun _ _ _ h => absurd h (by simp)

end Verif.Ternary
