import Mathlib.Tactic.LinearCombination
import Mathlib.Tactic.Positivity
import Mathlib.Tactic.FieldSimp
import Verif.Model.Acute
import Verif.Props.TernaryAcyclic

/-!
# What the solvers for acute triangles guarantee
-/

namespace Verif.Acute

open Verif.Ternary Verif.TermsPoly

variable {K : Type*} [Field K] [LinearOrder K] [IsStrictOrderedRing K]

/-- The sides of a right or acute triangle, degenerate ones included. -/
structure Tri (a b c : K) : Prop where
  ha : 0 ≤ a
  hb : 0 ≤ b
  hc : 0 ≤ c
  fa : 0 ≤ b ^ 2 + c ^ 2 - a ^ 2
  fb : 0 ≤ c ^ 2 + a ^ 2 - b ^ 2
  fc : 0 ≤ a ^ 2 + b ^ 2 - c ^ 2
  ne : ¬ (a = 0 ∧ b = 0 ∧ c = 0)

theorem Tri.rot {a b c : K} (h : Tri a b c) : Tri b c a :=
  ⟨h.hb, h.hc, h.ha, h.fb, h.fc, h.fa, fun ⟨h1, h2, h3⟩ => h.ne ⟨h3, h1, h2⟩⟩

theorem Tri.octant {a b c : K} (h : Tri a b c) : Octant a b c := ⟨h.ha, h.hb, h.hc⟩

theorem Tri.two {a b c : K} (h : Tri a b c) : OctantTwo a b c := by
  refine ⟨h.octant, ?_⟩
  obtain ⟨ha, hb, hc, fa, fb, fc, ne⟩ := h
  by_contra hn
  have h1 := mul_nonneg ha hb
  have h2 := mul_nonneg hb hc
  have h3 := mul_nonneg hc ha
  have e1 : a * b = 0 := by linarith
  have e2 : b * c = 0 := by linarith
  have e3 : c * a = 0 := by linarith
  have z : ∀ x : K, x ^ 2 ≤ 0 → x = 0 := fun x hx => by
    have := le_antisymm hx (sq_nonneg x)
    exact pow_eq_zero_iff (two_ne_zero) |>.1 this
  rcases mul_eq_zero.1 e1 with e | e
  · rcases mul_eq_zero.1 e2 with e' | e'
    · subst e e'
      exact ne ⟨rfl, rfl, z c (by nlinarith)⟩
    · subst e e'
      exact ne ⟨rfl, z b (by nlinarith), rfl⟩
  · subst e
    rcases mul_eq_zero.1 e3 with e' | e'
    · subst e'
      exact ne ⟨z a (by nlinarith), rfl, rfl⟩
    · subst e'
      exact ne ⟨rfl, rfl, z c (by nlinarith)⟩

theorem Tri.sum_pos {a b c : K} (h : Tri a b c) : 0 < a + b + c := sum_pos_of_octant h.octant h.ne

/-- What an answer means: it is an identity for the polynomial, the weights are nonnegative, and on the domain the expressions and the denominator
are nonnegative.  The denominator may vanish at points of the domain. -/
structure Shows (D : K → K → K → Prop) (f : Val3 K) (C : Cert K) : Prop where
  identity : ∀ a b c, C.num a b c = C.den a b c * f a b c
  weights : ∀ t ∈ C.terms, 0 ≤ t.1
  exprs : ∀ t ∈ C.terms, ∀ a b c, D a b c → 0 ≤ t.2 a b c
  den : ∀ a b c, D a b c → 0 ≤ C.den a b c

theorem shows_of_proves {D : K → K → K → Prop} {f : Val3 K} {C : Cert K} (h : Proves D f C) : Shows D f C := ⟨h.identity, h.weights, h.exprs, h.den⟩

theorem Shows.mono {D D' : K → K → K → Prop} {f : Val3 K} {C : Cert K} (h : Shows D f C) (hD : ∀ a b c, D' a b c → D a b c) : Shows D' f C :=
  ⟨h.identity, h.weights, fun t ht a b c hd => h.exprs t ht a b c (hD a b c hd), fun a b c hd => h.den a b c (hD a b c hd)⟩

theorem Shows.congr {D : K → K → K → Prop} {f g : Val3 K} {C : Cert K} (h : Shows D f C) (hfg : ∀ a b c, f a b c = g a b c) : Shows D g C :=
  ⟨fun a b c => by rw [h.identity, hfg], h.weights, h.exprs, h.den⟩

/-- An answer shows that the polynomial is nonnegative at every point of the domain where its denominator is not zero. -/
theorem Shows.nonneg {D : K → K → K → Prop} {f : Val3 K} {C : Cert K} (h : Shows D f C) {a b c : K} (hD : D a b c) (hd : C.den a b c ≠ 0) : 0 ≤ f a b c := by
  have hpos : 0 < C.den a b c := lt_of_le_of_ne (h.den a b c hD) (Ne.symm hd)
  have hnum : 0 ≤ C.num a b c := by
    unfold Cert.num
    apply List.sum_nonneg
    intro x hx
    obtain ⟨t, ht, rfl⟩ := List.mem_map.1 hx
    exact mul_nonneg (h.weights t ht) (h.exprs t ht a b c hD)
  rw [h.identity] at hnum
  exact nonneg_of_mul_nonneg_right hnum hpos

theorem num_smul (w : K) (C : Cert K) (a b c : K) : (C.smul w).num a b c = w * C.num a b c := by
  unfold Cert.num Cert.smul
  simp only [List.map_map, ← List.sum_map_mul_left]
  congr 1
  apply List.map_congr_left
  intro t _
  simp only [Function.comp]
  ring

theorem num_times (e : Val3 K) (C : Cert K) (a b c : K) : (times e C).num a b c = e a b c * C.num a b c := by
  unfold Cert.num times
  simp only [List.map_map, ← List.sum_map_mul_left]
  congr 1
  apply List.map_congr_left
  intro t _
  simp only [Function.comp]
  ring

theorem num_plus (C E : Cert K) (a b c : K) : (C.plus E).num a b c = C.num a b c * E.den a b c + E.num a b c * C.den a b c := by
  unfold Cert.num Cert.plus
  simp only [List.map_append, List.sum_append, List.map_map, ← List.sum_map_mul_right]
  congr 2
  · apply List.map_congr_left
    intro t _
    simp only [Function.comp]
    ring
  · apply List.map_congr_left
    intro t _
    simp only [Function.comp]
    ring

theorem Shows.add {D : K → K → K → Prop} {f : Val3 K} {C : Cert K} (h : Shows D f C) {w : K} (hw : 0 ≤ w) {e : Val3 K} (he : ∀ a b c, D a b c → 0 ≤ e a b c) :
    Shows D (fun a b c => f a b c + w * e a b c) (C.add w e) := by
  refine ⟨?_, ?_, ?_, h.den⟩
  · intro a b c
    change w * (e a b c * C.den a b c) + C.num a b c = C.den a b c * (f a b c + w * e a b c)
    rw [h.identity]
    ring
  · intro t ht
    rcases List.mem_cons.1 ht with rfl | ht
    · exact hw
    · exact h.weights t ht
  · intro t ht a b c hD
    rcases List.mem_cons.1 ht with rfl | ht
    · exact mul_nonneg (he a b c hD) (h.den a b c hD)
    · exact h.exprs t ht a b c hD

theorem Shows.smul {D : K → K → K → Prop} {f : Val3 K} {C : Cert K} (h : Shows D f C) {w : K} (hw : 0 ≤ w) : Shows D (fun a b c => w * f a b c) (C.smul w) := by
  refine ⟨?_, ?_, ?_, h.den⟩
  · intro a b c
    rw [num_smul, h.identity]
    change _ = C.den a b c * _
    ring
  · intro t ht
    obtain ⟨u, hu, rfl⟩ := List.mem_map.1 ht
    exact mul_nonneg hw (h.weights u hu)
  · intro t ht a b c hD
    obtain ⟨u, hu, rfl⟩ := List.mem_map.1 ht
    exact h.exprs u hu a b c hD

theorem Shows.times {D : K → K → K → Prop} {f : Val3 K} {C : Cert K} (h : Shows D f C) {e : Val3 K} (he : ∀ a b c, D a b c → 0 ≤ e a b c) :
    Shows D (fun a b c => e a b c * f a b c) (times e C) := by
  refine ⟨?_, ?_, ?_, h.den⟩
  · intro a b c
    rw [num_times, h.identity]
    change _ = C.den a b c * _
    ring
  · intro t ht
    obtain ⟨u, hu, rfl⟩ := List.mem_map.1 ht
    exact h.weights u hu
  · intro t ht a b c hD
    obtain ⟨u, hu, rfl⟩ := List.mem_map.1 ht
    exact mul_nonneg (he a b c hD) (h.exprs u hu a b c hD)

theorem Shows.plus {D : K → K → K → Prop} {f g : Val3 K} {C E : Cert K} (h : Shows D f C) (h' : Shows D g E) :
    Shows D (fun a b c => f a b c + g a b c) (C.plus E) := by
  refine ⟨?_, ?_, ?_, fun a b c hd => mul_nonneg (h.den a b c hd) (h'.den a b c hd)⟩
  · intro a b c
    rw [num_plus, h.identity, h'.identity]
    change _ = C.den a b c * E.den a b c * _
    ring
  · intro t ht
    rcases List.mem_append.1 ht with ht | ht
    · obtain ⟨u, hu, rfl⟩ := List.mem_map.1 ht
      exact h.weights u hu
    · obtain ⟨u, hu, rfl⟩ := List.mem_map.1 ht
      exact h'.weights u hu
  · intro t ht a b c hD
    rcases List.mem_append.1 ht with ht | ht
    · obtain ⟨u, hu, rfl⟩ := List.mem_map.1 ht
      exact mul_nonneg (h.exprs u hu a b c hD) (h'.den a b c hD)
    · obtain ⟨u, hu, rfl⟩ := List.mem_map.1 ht
      exact mul_nonneg (h'.exprs u hu a b c hD) (h.den a b c hD)

/-- A quotient: the numerator shows the product of the denominator with the polynomial. -/
theorem Shows.over {D : K → K → K → Prop} {f g e : Val3 K} {C : Cert K} (h : Shows D g C) (he : ∀ a b c, D a b c → 0 ≤ e a b c)
    (hg : ∀ a b c, g a b c = e a b c * f a b c) : Shows D f (over C e) := by
  refine ⟨?_, h.weights, h.exprs, fun a b c hd => mul_nonneg (h.den a b c hd) (he a b c hd)⟩
  intro a b c
  change C.num a b c = C.den a b c * e a b c * f a b c
  rw [h.identity, hg]
  ring

theorem Shows.rot {D : K → K → K → Prop} (hD : ∀ a b c, D a b c → D b c a) {f : Val3 K} {C : Cert K} (h : Shows D f C) (k : ℕ) :
    Shows D (rotVal k f) (C.rot k) := by
  refine ⟨?_, ?_, ?_, ?_⟩
  · intro a b c
    rw [rot_num]
    change rotVal k C.num a b c = rotVal k C.den a b c * rotVal k f a b c
    rcases k with _ | _ | k <;> exact h.identity _ _ _
  · intro t ht
    obtain ⟨u, hu, rfl⟩ := List.mem_map.1 ht
    exact h.weights u hu
  · intro t ht a b c hd
    obtain ⟨u, hu, rfl⟩ := List.mem_map.1 ht
    rcases k with _ | _ | k
    · exact h.exprs u hu _ _ _ hd
    · exact h.exprs u hu _ _ _ (hD _ _ _ hd)
    · exact h.exprs u hu _ _ _ (hD _ _ _ (hD _ _ _ hd))
  · intro a b c hd
    rcases k with _ | _ | k
    · exact h.den _ _ _ hd
    · exact h.den _ _ _ (hD _ _ _ hd)
    · exact h.den _ _ _ (hD _ _ _ (hD _ _ _ hd))

theorem Shows.cycTimes {f : Val3 K} {C : Cert K} (h : Shows Tri f C) {e : Val3 K} (he : ∀ a b c, Tri a b c → 0 ≤ e a b c) :
    Shows Tri (cyc3 fun a b c => e a b c * f a b c) (cycTimes e C) := by
  have h0 := h.times he
  exact ((h0.plus (h0.rot (fun a b c => Tri.rot) 1)).plus (h0.rot (fun a b c => Tri.rot) 2)).congr fun a b c => rfl

theorem plain_shows {D : K → K → K → Prop} {f : Val3 K} {l : List (K × Val3 K)} (hid : ∀ a b c, (l.map fun t => t.1 * t.2 a b c).sum = f a b c)
    (hw : ∀ t ∈ l, 0 ≤ t.1) (he : ∀ t ∈ l, ∀ a b c, D a b c → 0 ≤ t.2 a b c) : Shows D f (Cert.plain l) :=
  shows_of_proves (plain_proves hid hw he)

theorem tri_cyc {f : Val3 K} (hf : ∀ a b c, Tri a b c → 0 ≤ f a b c) (a b c : K) (h : Tri a b c) : 0 ≤ cyc3 f a b c := by
  have h1 := hf a b c h
  have h2 := hf b c a h.rot
  have h3 := hf c a b h.rot.rot
  unfold cyc3
  linarith

theorem tri_cycp {f : Val3 K} (hf : ∀ a b c, Tri a b c → 0 ≤ f a b c) (a b c : K) (h : Tri a b c) : 0 ≤ cycp3 f a b c := by
  have h1 := hf a b c h
  have h2 := hf b c a h.rot
  have h3 := hf c a b h.rot.rot
  unfold cycp3
  positivity

theorem fA_nonneg (a b c : K) (h : Tri a b c) : 0 ≤ fA a b c := h.fa

theorem fBC_nonneg (a b c : K) (h : Tri a b c) : 0 ≤ fBC a b c := mul_nonneg h.fb h.fc

theorem tri_sumA (a b c : K) (h : Tri a b c) : 0 < sumA a b c := sumA_pos h.octant h.ne

theorem tri_prodA (a b c : K) (h : Tri a b c) : 0 ≤ prodA a b c := prodA_nonneg a b c h.octant

theorem tri_sumSq (a b c : K) (h : Tri a b c) : 0 < cyc3 (fun a _ _ => a ^ 2) a b c := by
  have h1 := h.sum_pos
  unfold cyc3
  nlinarith [sq_nonneg (a - b), sq_nonneg (b - c), sq_nonneg (c - a), mul_pos h1 h1]

theorem tri_denPar (a b c : K) (h : Tri a b c) : 0 < denPar a b c := mul_pos (tri_sumA a b c h) (tri_sumSq a b c h)

/-! ### Quadratics -/

/-- **C51 (quadratics).** An answer is an identity for the polynomial whose denominator is positive for every right or acute triangle. -/
theorem acuteQuadratic_sound {c2 c1 : K} {C : Cert K} (h : acuteQuadratic c2 c1 = some C) :
    Proves Tri (fun a b c => c2 * (a ^ 2 + b ^ 2 + c ^ 2) + c1 * (a * b + b * c + c * a)) C := by
  unfold acuteQuadratic at h
  split at h
  · exact (quadratic_sound h).mono fun a b c => Tri.octant
  · split at h
    · rename_i hc
      rw [← Option.some.inj h]
      refine ⟨?_, ?_, ?_, fun a b c hd => (tri_sumA a b c hd).le, fun a b c hd _ => tri_sumA a b c hd⟩
      · intro a b c
        simp only [Cert.num, Cert.add, List.map_cons, List.map_nil, List.sum_cons, List.sum_nil, fA, cyc3, sumA, prodA, cycp3]
        ring
      · intro t ht
        simp only [Cert.add, List.mem_cons, List.not_mem_nil, or_false] at ht
        rcases ht with rfl | rfl
        · change 0 ≤ c2 + c1 / 2
          linarith [hc.2]
        · change 0 ≤ c1 / 2
          linarith [hc.1, hc.2]
      · intro t ht a b c hd
        simp only [Cert.add, List.mem_cons, List.not_mem_nil, or_false] at ht
        rcases ht with rfl | rfl
        · exact mul_nonneg (tri_sumSq a b c hd).le (tri_sumA a b c hd).le
        · have h1 := tri_cyc (f := fun a b c => fA a b c * a) (fun a b c h => mul_nonneg (fA_nonneg a b c h) h.ha) a b c hd
          have h2 := tri_prodA a b c hd
          change 0 ≤ _ + 6 * _
          linarith
    · exact absurd h (by simp)

/-- **C51 (quadratics, completeness).** The quadratic solver answers exactly for the polynomials that are nonnegative for all right and acute triangles. -/
theorem acuteQuadratic_complete (c2 c1 : K) :
    (∃ C, acuteQuadratic c2 c1 = some C) ↔ ∀ a b c, Tri a b c → 0 ≤ c2 * (a ^ 2 + b ^ 2 + c ^ 2) + c1 * (a * b + b * c + c * a) := by
  constructor
  · rintro ⟨C, hC⟩ a b c h
    exact (acuteQuadratic_sound hC).nonneg h h.ne
  · intro h
    have h1 := h 1 1 1 ⟨by norm_num, by norm_num, by norm_num, by norm_num, by norm_num, by norm_num, by norm_num⟩
    have h2 := h 1 1 0 ⟨by norm_num, by norm_num, by norm_num, by norm_num, by norm_num, by norm_num, by norm_num⟩
    unfold acuteQuadratic
    by_cases hc : 0 ≤ c2
    · have h3 : 0 ≤ c2 + c1 := by linarith
      rw [if_pos ⟨hc, h3⟩]
      apply Option.ne_none_iff_exists'.1
      rw [quadratic_complete]
      rintro a b c ⟨ha, hb, hc'⟩
      have h4 : 0 ≤ a * b + b * c + c * a := by positivity
      nlinarith [mul_nonneg h3 h4, mul_nonneg hc (sq_nonneg (a - b)), mul_nonneg hc (sq_nonneg (b - c)), mul_nonneg hc (sq_nonneg (c - a))]
    · rw [if_neg (fun hh => hc hh.1), if_pos ⟨by linarith, by linarith⟩]
      exact ⟨_, rfl⟩

/-- The hypotheses are satisfiable: `Σ(2ab - a²)` is answered. -/
example : ∃ C, acuteQuadratic (-1 : ℚ) 2 = some C := by
  unfold acuteQuadratic
  rw [if_neg (by norm_num), if_pos (by norm_num)]
  exact ⟨_, rfl⟩

/-! ### Symmetric cubics -/

/-- `-Σa³ + xΣ(a²b + a²c) + y abc`. -/
def cubP (x y : K) : Val3 K := fun a b c =>
  -(a ^ 3 + b ^ 3 + c ^ 3) + x * (a ^ 2 * b + a ^ 2 * c + b ^ 2 * c + b ^ 2 * a + c ^ 2 * a + c ^ 2 * b) + y * (a * b * c)

theorem tri_fAa (a b c : K) (h : Tri a b c) : 0 ≤ cyc3 (fun a b c => fA a b c * a) a b c :=
  tri_cyc (f := fun a b c => fA a b c * a) (fun a b c h => mul_nonneg (fA_nonneg a b c h) h.ha) a b c h

theorem tri_schur (a b c : K) (h : Tri a b c) : 0 ≤ cyc3 (fun a b c => a * (b - c) ^ 2) a b c :=
  tri_cyc (f := fun a b c => a * (b - c) ^ 2) (fun a b c h => mul_nonneg h.ha (sq_nonneg _)) a b c h

theorem solveTrivial_proves {t : K} (ht : 1 ≤ t) : Proves Tri (cubP t (6 - 6 * t)) (solveTrivial t) := by
  apply plain_proves
  · intro a b c
    simp only [List.map_cons, List.map_nil, List.sum_cons, List.sum_nil, fA, cyc3, cubP]
    ring
  · intro u hu
    simp only [List.mem_cons, List.not_mem_nil, or_false] at hu
    rcases hu with rfl | rfl
    · exact zero_le_one
    · exact sub_nonneg.2 ht
  · intro u hu a b c hd
    simp only [List.mem_cons, List.not_mem_nil, or_false] at hu
    rcases hu with rfl | rfl
    · exact tri_fAa a b c hd
    · exact tri_schur a b c hd

theorem solveParabola_proves {t : K} (ht : t ^ 2 - 2 * t - 7 < 0) : Proves Tri (cubP (parX t) (parY t)) (solveParabola t) := by
  have hw : (0 : K) < -t ^ 2 + 2 * t + 7 := by linarith
  have hD : t ^ 2 - 2 * t - 7 ≠ 0 := ne_of_lt ht
  by_cases h1 : t = 1
  · subst h1
    unfold solveParabola
    rw [if_pos rfl]
    have hx : parX (1 : K) = 1 := by unfold parX; norm_num
    have hy : parY (1 : K) = -2 := by unfold parY; norm_num
    rw [hx, hy]
    refine ⟨?_, ?_, ?_, fun a b c hd => (tri_denPar a b c hd).le, fun a b c hd _ => tri_denPar a b c hd⟩
    · intro a b c
      simp only [Cert.num, List.map_cons, List.map_nil, List.sum_cons, List.sum_nil, fA, cyc3, cycp3, cubP, denPar, sumA]
      ring
    · intro u hu
      simp only [List.mem_cons, List.not_mem_nil, or_false] at hu
      rcases hu with rfl | rfl
      · norm_num
      · exact zero_le_one
    · intro u hu a b c hd
      simp only [List.mem_cons, List.not_mem_nil, or_false] at hu
      rcases hu with rfl | rfl
      · exact tri_cycp (f := fun a _ _ => a ^ 2) (fun a b c _ => sq_nonneg a) a b c hd
      · exact tri_cycp fA_nonneg a b c hd
  · unfold solveParabola
    rw [if_neg h1]
    refine ⟨?_, ?_, ?_, fun a b c hd => (tri_denPar a b c hd).le, fun a b c hd _ => tri_denPar a b c hd⟩
    · intro a b c
      simp only [Cert.num, List.map_cons, List.map_nil, List.sum_cons, List.sum_nil, fA, cyc3, cycp3, cubP, denPar, sumA, parX, parY]
      have hw' : -t ^ 2 + 2 * t + 7 ≠ 0 := ne_of_gt hw
      have e : t ^ 2 - 2 * t - 7 = -(-t ^ 2 + 2 * t + 7) := by ring
      rw [e]
      generalize hq : -t ^ 2 + 2 * t + 7 = q at hw'
      have hq2 : t ^ 2 = 2 * t + 7 - q := by rw [← hq]; ring
      field_simp
      rw [← hq]
      ring
    · intro u hu
      simp only [List.mem_cons, List.not_mem_nil, or_false] at hu
      rcases hu with rfl | rfl
      · change 0 ≤ 1 / (-t ^ 2 + 2 * t + 7)
        positivity
      · change 0 ≤ 1 / (-t ^ 2 + 2 * t + 7) * 8
        positivity
    · intro u hu a b c hd
      simp only [List.mem_cons, List.not_mem_nil, or_false] at hu
      rcases hu with rfl | rfl
      · exact sq_nonneg _
      · exact tri_cycp fA_nonneg a b c hd

theorem solveBottom_shows (X : AcuteExt K) (hsex : ∀ g C, X.sextic g = some C → Shows Tri g C) {t : K} {C : Cert K} (h : solveBottom X t = .ok (some C)) :
    Shows Tri (cubP t (3 - 6 * t)) C := by
  have hker : ∀ a b c : K, Tri a b c → 0 ≤ cyc3 (fun a b c => fBC a b c * (b - c) ^ 2) a b c :=
    tri_cyc fun a b c h => mul_nonneg (fBC_nonneg a b c h) (sq_nonneg _)
  unfold solveBottom at h
  by_cases h2 : 2 ≤ t
  · rw [if_pos h2] at h
    rw [← Option.some.inj (Except.ok.inj h)]
    refine ⟨?_, ?_, ?_, fun a b c hd => ?_⟩
    · intro a b c
      simp only [Cert.num, Cert.add, List.map_cons, List.map_nil, List.sum_cons, List.sum_nil, fBC, cyc3, cubP, denPar, sumA]
      ring
    · intro u hu
      simp only [Cert.add, List.mem_cons, List.not_mem_nil, or_false] at hu
      rcases hu with rfl | rfl | rfl
      · exact sub_nonneg.2 h2
      · norm_num
      · norm_num
    · intro u hu a b c hd
      simp only [Cert.add, List.mem_cons, List.not_mem_nil, or_false] at hu
      rcases hu with rfl | rfl | rfl
      · exact mul_nonneg (tri_schur a b c hd) (by have := tri_denPar a b c hd; positivity)
      · exact hker a b c hd
      · exact sq_nonneg _
    · change 0 ≤ 2 * denPar a b c
      have := tri_denPar a b c hd
      positivity
  · rw [if_neg h2] at h
    by_cases h1 : t = 1
    · rw [if_pos h1] at h
      exact absurd h (by simp)
    · rw [if_neg h1] at h
      obtain ⟨s, hs, rfl⟩ := Option.map_eq_some_iff.1 (Except.ok.inj h)
      have h3 := hsex _ _ hs
      have h4 : Shows Tri (bottomKer2 t) (Cert.plain (bottomKer t)) := by
        apply plain_shows
        · intro a b c
          simp only [bottomKer, bottomKer2, fBC, List.map_cons, List.map_nil, List.sum_cons, List.sum_nil, cyc3]
          ring
        · intro u hu
          simp only [bottomKer, List.mem_cons, List.not_mem_nil, or_false] at hu
          rcases hu with rfl | rfl
          · exact zero_le_one
          · change 0 ≤ 1 / (t - 1) ^ 2 / 4
            positivity
        · intro u hu a b c hd
          simp only [bottomKer, List.mem_cons, List.not_mem_nil, or_false] at hu
          rcases hu with rfl | rfl
          · exact hker a b c hd
          · exact sq_nonneg _
      refine (h3.plus h4).over ?_ ?_
      · intro a b c hd
        obtain ⟨ha, hb, hc⟩ := hd.octant
        have : 0 ≤ (8 - 2 * t) / 3 := by linarith
        simp only [bottomMult, cyc3]
        positivity
      · intro a b c
        simp only [bottomPoly, bottomMult, cyc3, cubP]
        ring

/-- The last point lies on the segment between the two others. -/
theorem getUxW_line {x y t ux w : K} (ht : t ^ 2 - 2 * t - 7 < 0) (h : getUxW x y t = some (ux, w)) :
    w * parX t + (1 - w) * ux = x ∧ w * parY t + (1 - w) * (3 - 6 * ux) = y := by
  have hD : t ^ 2 - 2 * t - 7 ≠ 0 := ne_of_lt ht
  have hx : parX t * (t ^ 2 - 2 * t - 7) = -(t ^ 2 - 2 * t + 9) := div_mul_cancel₀ _ hD
  have hy : parY t * (t ^ 2 - 2 * t - 7) = 16 * t := div_mul_cancel₀ _ hD
  unfold getUxW at h
  by_cases h2 : ux2 x y t = 0
  · rw [if_pos h2] at h
    exact absurd h (by simp)
  · rw [if_neg h2] at h
    dsimp only at h
    have hu : ∀ q : K, q = ux1 x y t / ux2 x y t → (q - x) * (parY t - y) = (3 - 6 * q - y) * (parX t - x) := by
      intro q hq
      have hq2 : q * ux2 x y t = ux1 x y t := by rw [hq]; exact div_mul_cancel₀ _ h2
      unfold ux1 ux2 at hq2
      have : ((q - x) * (parY t - y) - (3 - 6 * q - y) * (parX t - x)) * (t ^ 2 - 2 * t - 7) = 0 := by
        linear_combination hq2 + (q - x) * hy - (3 - 6 * q - y) * hx
      rcases mul_eq_zero.1 this with h0 | h0
      · exact sub_eq_zero.1 h0
      · exact absurd h0 hD
    by_cases hne : ux1 x y t / ux2 x y t ≠ parX t
    · rw [if_pos hne] at h
      obtain ⟨rfl, rfl⟩ := Prod.mk.inj (Option.some.inj h)
      have hl := hu _ rfl
      generalize ux1 x y t / ux2 x y t = q at hne hl
      have hs : q - parX t ≠ 0 := sub_ne_zero.2 hne
      constructor
      · field_simp
        ring
      · field_simp
        linear_combination hl
    · rw [if_neg hne] at h
      obtain ⟨rfl, rfl⟩ := Prod.mk.inj (Option.some.inj h)
      push Not at hne
      have hl := hu _ rfl
      rw [hne] at hl ⊢
      have hs : 3 - 6 * parX t - parY t ≠ 0 := by
        intro h0
        have : (3 - 6 * parX t - parY t) * (t ^ 2 - 2 * t - 7) = 9 * t ^ 2 - 34 * t + 33 := by linear_combination (-6) * hx - hy
        rw [h0, zero_mul] at this
        nlinarith [sq_nonneg (9 * t - 17)]
      have hxx : parX t = x := by
        have : (parX t - x) * (3 - 6 * parX t - parY t) = 0 := by linear_combination -hl
        rcases mul_eq_zero.1 this with h0 | h0
        · exact sub_eq_zero.1 h0
        · exact absurd h0 hs
      constructor
      · rw [← hxx]
        ring
      · field_simp
        ring

/-- A combination of two solved points of the plane of cubics. -/
theorem Shows.mix {x y x1 y1 x2 y2 w : K} {C E : Cert K} (h1 : Shows Tri (cubP x1 y1) C) (h2 : Shows Tri (cubP x2 y2) E) (h0 : 0 ≤ w) (hw : w ≤ 1)
    (hx : w * x1 + (1 - w) * x2 = x) (hy : w * y1 + (1 - w) * y2 = y) : Shows Tri (cubP x y) ((C.smul w).plus (E.smul (1 - w))) := by
  refine ((h1.smul h0).plus (h2.smul (sub_nonneg.2 hw))).congr fun a b c => ?_
  rw [← hx, ← hy]
  unfold cubP
  ring

/-- The contracts of the calls in other files that the cubic and quartic solvers rely on. -/
structure AcuteExt.Sound (X : AcuteExt K) : Prop where
  cub : ∀ f C, X.cub f = .ok (some C) → Proves OctantTwo f.poly C
  quart : ∀ f C, X.quart f = .ok (some C) → Proves Octant f.poly C
  sextic : ∀ g C, X.sextic g = some C → Shows Tri g C
  sqrt_pos : 0 < X.sqrt2
  sqrt_sq : X.sqrt2 ^ 2 = 2
  /-- The candidates approach the positive root of `t^2 + 2t - 7` from below. -/
  cands : ∀ x y t, t ∈ X.cands x y → 0 < t ∧ t ^ 2 + 2 * t - 7 ≤ 0

theorem chooseT_ok {X : AcuteExt K} (hX : X.Sound) {x y t : K} (h : chooseT X x y = some t) : t ^ 2 - 2 * t - 7 < 0 := by
  have hs : (2 * X.sqrt2 - 1) ^ 2 - 2 * (2 * X.sqrt2 - 1) - 7 < 0 := by
    nlinarith [hX.sqrt_pos, hX.sqrt_sq]
  unfold chooseT at h
  split at h
  · rw [← Option.some.inj h]
    exact hs
  · split at h
    · rw [← Option.some.inj h]
      norm_num
    · split at h
      · rename_i u hu
        rw [← Option.some.inj h]
        have h1 := hX.cands x y u (List.mem_of_find?_eq_some hu)
        nlinarith [h1.1, h1.2]
      · split at h
        · exact absurd h (by simp)
        · split at h
          · rw [← Option.some.inj h]
            exact hs
          · exact absurd h (by simp)

theorem getSolEnd_shows {X : AcuteExt K} (hX : X.Sound) {x y : K} {C : Cert K} (h : getSolEnd X x y = .ok (some C)) : Shows Tri (cubP x y) C := by
  unfold getSolEnd at h
  split at h
  · exact absurd h (by simp)
  · rename_i t ht
    have hD := chooseT_ok hX ht
    split at h
    · exact absurd h (by simp)
    · rename_i ux w huw
      obtain ⟨hx, hy⟩ := getUxW_line hD huw
      by_cases hw : 0 ≤ w ∧ w ≤ 1
      · rw [if_pos hw] at h
        cases hb : solveBottom X ux with
        | error e =>
          rw [hb] at h
          exact absurd h (by simp [Except.map])
        | ok r =>
          rw [hb] at h
          obtain ⟨s, hs, rfl⟩ := Option.map_eq_some_iff.1 (Except.ok.inj h)
          rw [hs] at hb
          exact (shows_of_proves (solveParabola_proves hD)).mix (solveBottom_shows X hX.sextic hb) hw.1 hw.2 hx hy
      · rw [if_neg hw] at h
        exact absurd h (by simp)

theorem parX_sub_one {t : K} (ht : t ^ 2 - 2 * t - 7 < 0) : (parX t - 1) * (t ^ 2 - 2 * t - 7) = -2 * (t - 1) ^ 2 := by
  have hx : parX t * (t ^ 2 - 2 * t - 7) = -(t ^ 2 - 2 * t + 9) := div_mul_cancel₀ _ (ne_of_lt ht)
  linear_combination hx

theorem getSolPar_shows {x y : K} (h1 : x ≠ 1) {C : Cert K} (h : getSolPar x y = some C) : Proves Tri (cubP x y) C := by
  unfold getSolPar at h
  by_cases h0 : x + y + 1 ≠ 0
  · rw [if_pos h0] at h
    dsimp only at h
    have ht0 : (9 - 7 * x + y) / (x + y + 1) * (x + y + 1) = 9 - 7 * x + y := div_mul_cancel₀ _ h0
    generalize (9 - 7 * x + y) / (x + y + 1) = t at h ht0
    by_cases hD : t ^ 2 - 2 * t - 7 < 0
    · rw [if_pos hD] at h
      have hp := parX_sub_one hD
      have hy : parY t * (t ^ 2 - 2 * t - 7) = 16 * t := div_mul_cancel₀ _ (ne_of_lt hD)
      have hne : t ≠ 1 := by
        rintro rfl
        apply h1
        linarith
      have hpx : parX t - 1 ≠ 0 := by
        intro h2
        rw [h2, zero_mul] at hp
        have : (t - 1) ^ 2 = 0 := by linarith
        exact hne (sub_eq_zero.1 (pow_eq_zero_iff two_ne_zero |>.1 this))
      by_cases hw : 0 ≤ (parX t - x) / (parX t - 1) ∧ (parX t - x) / (parX t - 1) ≤ 1
      · rw [if_pos hw] at h
        rw [← Option.some.inj h]
        have e1 : parX (1 : K) = 1 := by unfold parX; norm_num
        have e2 : parY (1 : K) = -2 := by unfold parY; norm_num
        have p1 := (solveParabola_proves (t := (1 : K)) (by norm_num)).smul hw.1
        have p2 := (solveParabola_proves hD).smul (sub_nonneg.2 hw.2)
        refine (p1.plus p2).congr fun a b c => ?_
        rw [e1, e2]
        have hX : (parX t - x) / (parX t - 1) * 1 + (1 - (parX t - x) / (parX t - 1)) * parX t = x := by
          field_simp
          ring
        have hY : (parX t - x) / (parX t - 1) * -2 + (1 - (parX t - x) / (parX t - 1)) * parY t = y := by
          have key : (x - 1) * (parY t + 2) = (y + 2) * (parX t - 1) := by
            have : ((x - 1) * (parY t + 2) - (y + 2) * (parX t - 1)) * (t ^ 2 - 2 * t - 7) = 0 := by
              linear_combination (x - 1) * hy - (y + 2) * hp + 2 * (t - 1) * ht0
            rcases mul_eq_zero.1 this with h2 | h2
            · exact sub_eq_zero.1 h2
            · exact absurd h2 (ne_of_lt hD)
          field_simp
          linear_combination key
        unfold cubP
        linear_combination (a ^ 2 * b + a ^ 2 * c + b ^ 2 * c + b ^ 2 * a + c ^ 2 * a + c ^ 2 * b) * hX + (a * b * c) * hY
      · rw [if_neg hw] at h
        exact absurd h (by simp)
    · rw [if_neg hD] at h
      exact absurd h (by simp)
  · rw [if_neg h0] at h
    exact absurd h (by simp)

theorem getSolTan_shows {x y : K} (h1 : 1 < x) {C : Cert K} (h : getSolTan x y = some C) : Proves Tri (cubP x y) C := by
  unfold getSolTan at h
  by_cases h0 : 0 < 6 * x + y - 4
  · rw [if_pos h0] at h
    dsimp only at h
    have ht0 : (8 * x + y - 6) / (6 * x + y - 4) * (6 * x + y - 4) = 8 * x + y - 6 := div_mul_cancel₀ _ (ne_of_gt h0)
    generalize (8 * x + y - 6) / (6 * x + y - 4) = t at h ht0
    have ht : 1 < t := by
      by_contra hle
      have : (t - 1) * (6 * x + y - 4) = 2 * (x - 1) := by linear_combination ht0
      nlinarith [mul_nonneg (sub_nonneg.2 (not_lt.1 hle)) h0.le]
    have hne : t - 1 ≠ 0 := by linarith
    by_cases hw : 0 ≤ (t - x) / (t - 1) ∧ (t - x) / (t - 1) ≤ 1
    · rw [if_pos hw] at h
      rw [← Option.some.inj h]
      have p0 : Proves Tri (fun a b c => -(a ^ 3 + b ^ 3 + c ^ 3) + 1 * (a ^ 2 * b + a ^ 2 * c + b ^ 2 * c + b ^ 2 * a + c ^ 2 * a + c ^ 2 * b) + (-2) * (a * b * c))
          (⟨[(1, cyc3 fun a b c => fA a b c * a ^ 2)], sumA⟩ : Cert K) := by
        refine ⟨?_, ?_, ?_, fun a b c hd => (tri_sumA a b c hd).le, fun a b c hd _ => tri_sumA a b c hd⟩
        · intro a b c
          simp only [Cert.num, List.map_cons, List.map_nil, List.sum_cons, List.sum_nil, fA, cyc3, sumA]
          ring
        · intro u hu
          simp only [List.mem_cons, List.not_mem_nil, or_false] at hu
          subst hu
          exact zero_le_one
        · intro u hu a b c hd
          simp only [List.mem_cons, List.not_mem_nil, or_false] at hu
          subst hu
          exact tri_cyc (f := fun a b c => fA a b c * a ^ 2) (fun a b c h => mul_nonneg (fA_nonneg a b c h) (sq_nonneg a)) a b c hd
      refine ((p0.smul hw.1).plus ((solveTrivial_proves ht.le).smul (sub_nonneg.2 hw.2))).congr fun a b c => ?_
      have hX : (t - x) / (t - 1) * 1 + (1 - (t - x) / (t - 1)) * t = x := by
        field_simp
        ring
      have hY : (t - x) / (t - 1) * -2 + (1 - (t - x) / (t - 1)) * (6 - 6 * t) = y := by
        field_simp
        linear_combination (-1) * ht0
      unfold cubP
      linear_combination (a ^ 2 * b + a ^ 2 * c + b ^ 2 * c + b ^ 2 * a + c ^ 2 * a + c ^ 2 * b) * hX + (a * b * c) * hY
    · rw [if_neg hw] at h
      exact absurd h (by simp)
  · rw [if_neg h0] at h
    exact absurd h (by simp)

theorem getSol_shows {X : AcuteExt K} (hX : X.Sound) {x y : K} {C : Cert K} (h : getSol X x y = .ok (some C)) : Shows Tri (cubP x y) C := by
  unfold getSol at h
  by_cases hx : x < 1
  · rw [if_pos hx] at h
    exact absurd h (by simp)
  · rw [if_neg hx] at h
    push Not at hx
    by_cases h6 : 0 ≤ 6 * x + y - 6
    · rw [if_pos h6] at h
      rw [← Option.some.inj (Except.ok.inj h)]
      refine (shows_of_proves ((solveTrivial_proves hx).add h6 tri_prodA)).congr fun a b c => ?_
      unfold cubP prodA cycp3
      ring
    · rw [if_neg h6] at h
      by_cases h1 : x = 1
      · rw [if_pos h1] at h
        by_cases hy : -2 ≤ y
        · rw [if_pos hy] at h
          rw [← Option.some.inj (Except.ok.inj h)]
          refine (shows_of_proves ((solveParabola_proves (t := (1 : K)) (by norm_num)).add (by linarith : 0 ≤ y + 2) tri_prodA)).congr fun a b c => ?_
          have e1 : parX (1 : K) = 1 := by unfold parX; norm_num
          have e2 : parY (1 : K) = -2 := by unfold parY; norm_num
          rw [e1, e2, h1]
          unfold cubP prodA cycp3
          ring
        · rw [if_neg hy] at h
          exact absurd h (by simp)
      · rw [if_neg h1] at h
        split at h
        · rename_i E hE
          rw [← Option.some.inj (Except.ok.inj h)]
          exact shows_of_proves (getSolTan_shows (lt_of_le_of_ne hx (Ne.symm h1)) hE)
        · split at h
          · exact absurd h (by simp)
          · split at h
            · exact absurd h (by simp)
            · split at h
              · rename_i E hE
                rw [← Option.some.inj (Except.ok.inj h)]
                exact shows_of_proves (getSolPar_shows h1 hE)
              · exact getSolEnd_shows hX h

/-! ### Quartics -/

theorem solveQuad_shows {f : Quartic K} {vb2 vc2 : K} (hv : vb2 + vc2 = f.n / 2 + f.m) {C : Cert K} (h : solveQuad f vb2 vc2 = .ok (some C)) :
    Shows Tri f.poly C := by
  unfold solveQuad at h
  obtain ⟨r, hr, hs⟩ := acyclicQuadratic_sound (⟨f.n / 2, (f.q + f.r) / 2, (f.p + f.r) / 2, vb2, (f.p + f.q) / 2, vc2⟩ : Quad K)
  rw [hr] at h
  obtain ⟨s, hs', rfl⟩ := Option.map_eq_some_iff.1 (Except.ok.inj h)
  refine (((shows_of_proves (hs s hs')).mono fun a b c => Tri.octant).cycTimes fA_nonneg).congr fun a b c => ?_
  have hvc : vc2 = f.n / 2 + f.m - vb2 := by linarith
  subst hvc
  simp only [cyc3, fA, Quad.poly, Quartic.poly]
  ring

theorem secondWeights_sum {f : Quartic K} {s1 s2 : K} {w : K × K} (h : secondWeights f s1 s2 = some w) : w.1 + w.2 = f.n / 2 + f.m := by
  unfold secondWeights at h
  dsimp only at h
  split at h
  · rw [← Option.some.inj h]
    ring
  · split at h
    · split at h <;> (rw [← Option.some.inj h]; ring)
    · split at h
      · split at h <;> (rw [← Option.some.inj h]; ring)
      · exact absurd h (by simp)

theorem acuteQuarticFirst_shows {f : Quartic K} {C : Cert K} (h : acuteQuarticFirst f = .ok (some C)) : Shows Tri f.poly C := by
  unfold acuteQuarticFirst at h
  dsimp only at h
  split at h
  · exact absurd h (by simp)
  · rename_i E hE
    rw [← Option.some.inj (Except.ok.inj h)]
    by_cases h0 : 0 < f.n / 2
    · rw [if_pos h0] at hE
      exact solveQuad_shows (by ring) hE
    · rw [if_neg h0] at hE
      exact absurd hE (by simp)
  · split at h
    · exact absurd h (by simp)
    · rename_i w hw
      exact solveQuad_shows (secondWeights_sum hw) h

theorem tri_denQuart (a b c : K) (h : Tri a b c) : 0 ≤ denQuart a b c := by
  obtain ⟨ha, hb, hc⟩ := h.octant
  unfold denQuart cyc3
  positivity

theorem acuteQuarticSecond_shows {X : AcuteExt K} (hX : X.Sound) {f : Quartic K} {C : Cert K} (h : acuteQuarticSecond X f = .ok (some C)) : Shows Tri f.poly C := by
  unfold acuteQuarticSecond at h
  dsimp only at h
  by_cases hx : 0 ≤ (f.n + f.p + f.q) / 4
  · rw [if_pos hx] at h
    cases hq : X.quart ⟨f.m + (f.n + f.p + f.q) / 4, f.p - (f.n + f.p + f.q) / 4, f.n - 2 * ((f.n + f.p + f.q) / 4), f.q - (f.n + f.p + f.q) / 4,
        f.r + 3 * ((f.n + f.p + f.q) / 4)⟩ with
    | error e =>
      rw [hq] at h
      exact absurd h (by simp [Except.map])
    | ok r =>
      rw [hq] at h
      obtain ⟨s, rfl, rfl⟩ := Option.map_eq_some_iff.1 (Except.ok.inj h)
      generalize hxx : (f.n + f.p + f.q) / 4 = x at hx hq
      have h1 := (shows_of_proves (hX.quart _ _ hq)).mono (fun a b c => Tri.octant (K := K) (a := a) (b := b) (c := c))
      have h2 : Shows Tri (fun a b c => x * cyc3 (fun a b c => fA a b c * (a - b) * (a - c)) a b c)
          (⟨[(2 * x, cyc3 fun a b c => fA a b c * (2 * a + b + c) * (a - b) ^ 2 * (a - c) ^ 2)], denQuart⟩ : Cert K) := by
        refine ⟨?_, ?_, ?_, tri_denQuart⟩
        · intro a b c
          simp only [Cert.num, List.map_cons, List.map_nil, List.sum_cons, List.sum_nil, fA, cyc3, denQuart]
          ring
        · intro u hu
          simp only [List.mem_cons, List.not_mem_nil, or_false] at hu
          subst hu
          change 0 ≤ 2 * x
          linarith
        · intro u hu a b c hd
          simp only [List.mem_cons, List.not_mem_nil, or_false] at hu
          subst hu
          refine tri_cyc (f := fun a b c => fA a b c * (2 * a + b + c) * (a - b) ^ 2 * (a - c) ^ 2) (fun a b c h => ?_) a b c hd
          have h3 := fA_nonneg a b c h
          obtain ⟨ha, hb, hc⟩ := h.octant
          change 0 ≤ fA a b c * (2 * a + b + c) * (a - b) ^ 2 * (a - c) ^ 2
          positivity
      refine (h1.plus h2).congr fun a b c => ?_
      simp only [Quartic.poly, cyc3, fA]
      ring
  · rw [if_neg hx] at h
    exact absurd h (by simp)

/-- **C51 (quartics).** -/
theorem acuteQuartic_shows {X : AcuteExt K} (hX : X.Sound) {f : Quartic K} {C : Cert K} (h : acuteQuartic X f = .ok (some C)) : Shows Tri f.poly C := by
  unfold acuteQuartic at h
  by_cases h0 : f.m + f.p + f.n + f.q + f.r < 0
  · rw [if_pos h0] at h
    exact absurd h (by simp)
  · rw [if_neg h0] at h
    split at h
    · exact absurd h (by simp)
    · rename_i E hE
      rw [← Option.some.inj (Except.ok.inj h)]
      split at hE
      · exact acuteQuarticFirst_shows hE
      · exact absurd hE (by simp)
    · exact acuteQuarticSecond_shows hX h

end Verif.Acute
