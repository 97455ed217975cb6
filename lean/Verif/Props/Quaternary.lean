import Verif.Model.Quaternary
import Verif.Proofs.Forms
import Verif.Props.Sparse
import Verif.Props.StructUtils
import Mathlib.Tactic.FieldSimp
import Mathlib.Tactic.LinearCombination
import Mathlib.Tactic.Positivity

/-!
# C15, C57: the four-variable cubic and quartic solvers
-/

set_option linter.unusedSectionVars false

namespace Verif.Quaternary
open Verif Verif.Coeff

variable {K : Type*} [Field K] [LinearOrder K] [IsStrictOrderedRing K]

theorem div_add_of {N s r P : K} (hs : s ≠ 0) (h : N = s * (P - r)) : N / s + r = P := by
  rw [h, mul_div_cancel_left₀ _ hs]; ring

/-! ## Symmetric cubics -/

theorem sym_eq {co : Coeff K} (h : co.WF) (hn : co.nvars = 4) (hs : co.isSymmetricDefault = .ok true) :
    ∀ m m' : List ℕ, m.length = 4 → m.Perm m' → co.call m = co.call m' := by
  obtain ⟨b, hb, hb2⟩ := isSymmetricDefault_iff co h (by omega)
  rw [hs] at hb
  cases hb
  rw [hn] at hb2
  exact hb2.1 rfl

/-- The value of a symmetric four-variable cubic. -/
theorem symForm43 (co : Coeff K) (h : co.WF) (hn : co.nvars = 4) (hd : co.Hom 3)
    (hs : co.isSymmetricDefault = .ok true) (a b c d : K) :
    evalDict co.coeffs [a,b,c,d] = co.call [3,0,0,0] * (a^3 + b^3 + c^3 + d^3) +
      co.call [2,1,0,0] * (a^2*b + a^2*c + a^2*d + b^2*a + b^2*c + b^2*d + c^2*a + c^2*b + c^2*d + d^2*a + d^2*b + d^2*c) +
      co.call [1,1,1,0] * (a*b*c + a*b*d + a*c*d + b*c*d) := by
  have e := sym_eq h hn hs
  rw [form43 co h hn hd,
    e [2,0,1,0] [2,1,0,0] rfl (by decide), e [2,0,0,1] [2,1,0,0] rfl (by decide),
    e [1,2,0,0] [2,1,0,0] rfl (by decide), e [1,1,0,1] [1,1,1,0] rfl (by decide),
    e [1,0,2,0] [2,1,0,0] rfl (by decide), e [1,0,1,1] [1,1,1,0] rfl (by decide),
    e [1,0,0,2] [2,1,0,0] rfl (by decide), e [0,3,0,0] [3,0,0,0] rfl (by decide),
    e [0,2,1,0] [2,1,0,0] rfl (by decide), e [0,2,0,1] [2,1,0,0] rfl (by decide),
    e [0,1,2,0] [2,1,0,0] rfl (by decide), e [0,1,1,1] [1,1,1,0] rfl (by decide),
    e [0,1,0,2] [2,1,0,0] rfl (by decide), e [0,0,3,0] [3,0,0,0] rfl (by decide),
    e [0,0,2,1] [2,1,0,0] rfl (by decide), e [0,0,1,2] [2,1,0,0] rfl (by decide),
    e [0,0,0,3] [3,0,0,0] rfl (by decide)]
  ring

theorem sym4_nonneg (f : Val4 K) (hf : ∀ a b c d, 0 ≤ a → 0 ≤ b → 0 ≤ c → 0 ≤ d → 0 ≤ f a b c d)
    (a b c d : K) (ha : 0 ≤ a) (hb : 0 ≤ b) (hc : 0 ≤ c) (hd : 0 ≤ d) : 0 ≤ sym4 f a b c d := by
  unfold sym4 sym3 cyc3
  have := hf
  repeat' apply add_nonneg
  all_goals (apply hf <;> assumption)

/-- **C57 (symmetric cubic).** A returned expression equals the polynomial wherever its denominator (a multiple
of the sum of all pairwise products) is nonzero, and is nonnegative on the orthant. -/
theorem cubicSymmetric_sound (co : Coeff K) (h : co.WF) (hn : co.nvars = 4) (hd : co.Hom 3)
    (hs : co.isSymmetricDefault = .ok true) (f : Val4 K) (hf : cubicSymmetric co = some f) :
    (∀ a b c d : K, a*b + a*c + a*d + b*c + b*d + c*d ≠ 0 → f a b c d = evalDict co.coeffs [a,b,c,d]) ∧
    ∀ a b c d : K, 0 ≤ a → 0 ≤ b → 0 ≤ c → 0 ≤ d → 0 ≤ f a b c d := by
  unfold cubicSymmetric at hf
  simp only at hf
  have hden : ∀ a b c d : K, sym4 (fun a b _ _ => a * b) a b c d = 4 * (a*b + a*c + a*d + b*c + b*d + c*d) := by
    intro a b c d; simp only [sym4, sym3, cyc3]; ring
  have hden0 : ∀ a b c d : K, 0 ≤ a → 0 ≤ b → 0 ≤ c → 0 ≤ d → 0 ≤ sym4 (fun a b _ _ => a * b) a b c d :=
    fun a b c d => sym4_nonneg _ (fun _ _ _ _ _ _ _ _ => by positivity) a b c d
  have hF1 : ∀ x : K, 0 ≤ x → ∀ a b c d : K, 0 ≤ a → 0 ≤ b → 0 ≤ c → 0 ≤ d → 0 ≤ cubicF1 x a b c d := by
    intro x hx a b c d ha hb hc hd
    unfold cubicF1
    have h1 := sym4_nonneg (fun a b c _ => a * (b - c) ^ 2 * (b + c - a) ^ 2)
      (fun _ _ _ _ _ _ _ _ => by positivity) a b c d ha hb hc hd
    have h2 := sym4_nonneg (fun a _ _ _ => a) (fun _ _ _ _ h _ _ _ => h) a b c d ha hb hc hd
    positivity
  by_cases h1 : 0 ≤ co.call [3,0,0,0] ∧ 0 ≤ co.call [2,1,0,0] / 2 + co.call [1,1,1,0] / 6 ∧
      0 ≤ co.call [3,0,0,0] + co.call [2,1,0,0]
  · rw [if_pos h1] at hf
    have := Option.some.inj hf
    subst this
    obtain ⟨hx, hy, hz⟩ := h1
    refine ⟨?_, ?_⟩
    · intro a b c d hne
      beta_reduce
      rw [symForm43 co h hn hd hs, hden]
      have h4 : (4:K) * (a*b + a*c + a*d + b*c + b*d + c*d) ≠ 0 := mul_ne_zero (by norm_num) hne
      rw [add_assoc]
      apply div_add_of h4
      simp only [cubicF1, sym4, sym3, cyc3]
      ring
    · intro a b c d ha hb hc hd
      have h2 := sym4_nonneg (fun a b c _ => a * b * c) (fun _ _ _ _ _ _ _ _ => by positivity) a b c d ha hb hc hd
      have h3 := sym4_nonneg (fun a b c _ => a * (b - c) ^ 2) (fun _ _ _ _ _ _ _ _ => by positivity) a b c d ha hb hc hd
      have h4 := hden0 a b c d ha hb hc hd
      have h5 := hF1 _ hx a b c d ha hb hc hd
      have := div_nonneg h5 h4
      have := mul_nonneg hy h2
      have := mul_nonneg (div_nonneg hz (by norm_num : (0:K) ≤ 4)) h3
      linarith
  · rw [if_neg h1] at hf
    by_cases h2 : 0 ≤ co.call [1,1,1,0] + 3 * co.call [2,1,0,0] + co.call [3,0,0,0] ∧
        0 ≤ -co.call [1,1,1,0] - 3 * co.call [2,1,0,0] ∧
        0 ≤ co.call [1,1,1,0] / 3 + 2 * co.call [2,1,0,0] + co.call [3,0,0,0]
    · rw [if_pos h2] at hf
      have := Option.some.inj hf
      subst this
      obtain ⟨hx, hy, hz⟩ := h2
      refine ⟨?_, ?_⟩
      · intro a b c d hne
        beta_reduce
        rw [symForm43 co h hn hd hs, hden]
        have h4 : (4:K) * (a*b + a*c + a*d + b*c + b*d + c*d) ≠ 0 := mul_ne_zero (by norm_num) hne
        apply div_add_of h4
        simp only [cubicF1, sym4, sym3, cyc3]
        ring
      · intro a b c d ha hb hc hd
        have h2 := sym4_nonneg (fun a b c _ => a * (b - c) ^ 2 * (b + c - a) ^ 2)
          (fun _ _ _ _ _ _ _ _ => by positivity) a b c d ha hb hc hd
        have h3 := sym4_nonneg (fun a b c _ => a * (b - c) ^ 2) (fun _ _ _ _ _ _ _ _ => by positivity) a b c d ha hb hc hd
        have h6 := sym4_nonneg (fun a b c d => a * (b - c) ^ 2 * (b + c - d) ^ 2)
          (fun _ _ _ _ _ _ _ _ => by positivity) a b c d ha hb hc hd
        have h7 := sym4_nonneg (fun a b c _ => a * b * c * (a - b) ^ 2)
          (fun _ _ _ _ _ _ _ _ => by positivity) a b c d ha hb hc hd
        have h4 := hden0 a b c d ha hb hc hd
        have h5 := hF1 _ hx a b c d ha hb hc hd
        set y := -co.call [1,1,1,0] - 3 * co.call [2,1,0,0]
        apply add_nonneg
        · apply div_nonneg _ h4
          have : 0 ≤ 2 * y / 3 := by positivity
          have : 0 ≤ y / 3 := by positivity
          positivity
        · exact mul_nonneg (div_nonneg hz (by norm_num : (0:K) ≤ 4)) h3
    · rw [if_neg h2] at hf
      cases hf

/-- Σa³ + 3·(...)-type example: `Σ a³ + Σ abc` is accepted. -/
def exSym : Coeff ℚ := ofDict [([3,0,0,0],1),([0,3,0,0],1),([0,0,3,0],1),([0,0,0,3],1),
  ([1,1,1,0],-1),([1,1,0,1],-1),([1,0,1,1],-1),([0,1,1,1],-1)]
example : exSym.WF ∧ exSym.nvars = 4 ∧ exSym.Hom 3 := ⟨⟨by decide, by decide⟩, rfl, by unfold Coeff.Hom; decide⟩
example : exSym.isSymmetricDefault = .ok true := by decide +kernel
example : ((cubicSymmetric exSym).map fun f => f 1 2 3 4) = some 50 := by decide +kernel

/-! ## C15: cubics invariant under rotating `a, b, c` -/

theorem rot_eq {co : Coeff K} (h : co.WF) (hn : co.nvars = 4) (hs : co.isCyclic [[1,2,0,3]] = true) :
    ∀ i j k l : ℕ, co.call [j,k,i,l] = co.call [i,j,k,l] := by
  have hg : ∀ p ∈ ([[1,2,0,3]] : List (List ℕ)), p.Perm (List.range co.nvars) := by
    intro p hp
    simp only [List.mem_singleton] at hp
    subst hp; rw [hn]; decide
  have := (isCyclic_iff co h _ hg).1 hs [1,2,0,3] (.gen _ (by simp))
  intro i j k l
  exact this [i,j,k,l] (by simp [hn])

/-- The value of a four-variable cubic invariant under rotating `a, b, c`. -/
theorem rotForm43 (co : Coeff K) (h : co.WF) (hn : co.nvars = 4) (hd : co.Hom 3)
    (hs : co.isCyclic [[1,2,0,3]] = true) (a b c d : K) :
    evalDict co.coeffs [a,b,c,d] = co.call [3,0,0,0] * (a^3 + b^3 + c^3) +
      co.call [2,1,0,0] * (a^2*b + b^2*c + c^2*a) + co.call [2,0,1,0] * (a^2*c + b^2*a + c^2*b) +
      co.call [1,1,1,0] * (a*b*c) + co.call [2,0,0,1] * ((a^2 + b^2 + c^2)*d) +
      co.call [1,1,0,1] * ((a*b + b*c + c*a)*d) + co.call [1,0,0,2] * ((a + b + c)*d^2) +
      co.call [0,0,0,3] * d^3 := by
  have e := rot_eq h hn hs
  have e0 : co.call [0,0,3,0] = co.call [3,0,0,0] := e 3 0 0 0
  have e1 : co.call [0,3,0,0] = co.call [3,0,0,0] := (e 0 0 3 0).trans (e 3 0 0 0)
  have e2 : co.call [1,0,2,0] = co.call [2,1,0,0] := e 2 1 0 0
  have e3 : co.call [0,2,1,0] = co.call [2,1,0,0] := (e 1 0 2 0).trans (e 2 1 0 0)
  have e4 : co.call [0,1,2,0] = co.call [2,0,1,0] := e 2 0 1 0
  have e5 : co.call [1,2,0,0] = co.call [2,0,1,0] := (e 0 1 2 0).trans (e 2 0 1 0)
  have e6 : co.call [0,0,2,1] = co.call [2,0,0,1] := e 2 0 0 1
  have e7 : co.call [0,2,0,1] = co.call [2,0,0,1] := (e 0 0 2 1).trans (e 2 0 0 1)
  have e8 : co.call [1,0,1,1] = co.call [1,1,0,1] := e 1 1 0 1
  have e9 : co.call [0,1,1,1] = co.call [1,1,0,1] := (e 1 0 1 1).trans (e 1 1 0 1)
  have e10 : co.call [0,0,1,2] = co.call [1,0,0,2] := e 1 0 0 2
  have e11 : co.call [0,1,0,2] = co.call [1,0,0,2] := (e 0 0 1 2).trans (e 1 0 0 2)
  rw [form43 co h hn hd, e0, e1, e2, e3, e4, e5, e6, e7, e8, e9, e10, e11]
  ring

theorem getSol1_eq (v a b c d : K) (hne : a + b + c ≠ 0) :
    getSol1 v a b c d = 3*v^2/4*(a+b+c)*d^2 + v*(a^2+b^2+c^2-2*(a*b+b*c+c*a))*d + a*b*c := by
  have h2 : 8 * (a + b + c)^2 ≠ 0 := mul_ne_zero (by norm_num) (pow_ne_zero _ hne)
  unfold getSol1
  simp only [cyc3]
  rw [div_eq_iff h2]
  ring

theorem getSol2_eq (v a b c d : K) (hne : a + b + c ≠ 0) :
    getSol2 v a b c d = 4*v^3*d^3 + v*(a^2+b^2+c^2-2*(a*b+b*c+c*a))*d + a*b*c := by
  have h2 : 2 * (a + b + c)^2 ≠ 0 := mul_ne_zero (by norm_num) (pow_ne_zero _ hne)
  unfold getSol2
  simp only [cyc3, cycp3]
  rw [div_eq_iff h2]
  ring

theorem getSol1_nonneg (v a b c d : K) (hv : 0 ≤ v) (ha : 0 ≤ a) (hb : 0 ≤ b) (hc : 0 ≤ c) (hd : 0 ≤ d) :
    0 ≤ getSol1 v a b c d := by
  unfold getSol1 cyc3
  positivity

theorem getSol2_nonneg (v a b c d : K) (hv : 0 ≤ v) (ha : 0 ≤ a) (hb : 0 ≤ b) (hc : 0 ≤ c) (hd : 0 ≤ d) :
    0 ≤ getSol2 v a b c d := by
  unfold getSol2 cyc3 cycp3
  positivity

/-- What the choice of `x` guarantees. -/
theorem chooseX_spec (c100 c000 c2 : K) (cands : List (K × Bool)) (h2 : 0 ≤ c2) (h0 : 0 ≤ c000)
    (hroot : ∀ t ∈ cands, t.2 = true → 9 * t.1 ^ 2 - 12 * c2 * t.1 + 4 * c100 = 0)
    (x : K) (hx : chooseX c100 c000 c2 cands = some x) :
    checkX c100 c000 c2 x = true ∧
    (x = 0 ∨ (c2 ≠ 0 ∧ x = 4 * c100 / 3 / c2) ∨ (4 * c100 < 3 * c2 ^ 2 ∧
      (9 * x ^ 2 - 12 * c2 * x + 4 * c100 = 0 ∨ (2 * c2 / 3 ≤ x ∧ 0 ≤ 9 * x ^ 2 - 12 * c2 * x + 4 * c100)))) := by
  unfold chooseX at hx
  by_cases h1 : checkX c100 c000 c2 0 = true
  · rw [if_pos h1] at hx
    cases hx
    exact ⟨h1, Or.inl rfl⟩
  · rw [if_neg h1] at hx
    by_cases h3 : c2 ≠ 0 ∧ checkX c100 c000 c2 (4 * c100 / 3 / c2) = true
    · rw [if_pos h3] at hx
      cases hx
      exact ⟨h3.2, Or.inr (Or.inl ⟨h3.1, rfl⟩)⟩
    · rw [if_neg h3] at hx
      simp only at hx
      split_ifs at hx with hdet hS
      unfold pickX at hx
      rw [Option.map_eq_some_iff] at hx
      obtain ⟨t, ht, rfl⟩ := hx
      have hmem := List.mem_of_find?_eq_some ht
      have hp := List.find?_some ht
      simp only [Bool.and_eq_true, Bool.or_eq_true, decide_eq_true_eq] at hp
      refine ⟨hp.2, ?_⟩
      by_cases hx0 : t.1 = 0
      · exact Or.inl hx0
      right; right
      refine ⟨?_, ?_⟩
      · -- otherwise the second candidate would have been accepted
        by_contra hge
        push Not at hge
        have hc2 : c2 ≠ 0 := by
          rintro rfl
          have hc : c100 = 0 := by nlinarith
          apply h1
          simp [checkX, hc, getConst, h0]
        have hpos : 0 < c2 := lt_of_le_of_ne h2 (Ne.symm hc2)
        have hcpos : 0 < c100 := by
          have : 0 < 3 * c2 ^ 2 := by positivity
          linarith
        apply h3
        refine ⟨hc2, ?_⟩
        set w := 4 * c100 / 3 / c2 with hw
        have hwpos : 0 < w := by positivity
        have hwc : 3 * c2 * w = 4 * c100 := by rw [hw]; field_simp
        have hwge : c2 ≤ w := by
          have : 3 * c2 * c2 ≤ 3 * c2 * w := by rw [hwc]; nlinarith
          exact le_of_mul_le_mul_left this (by positivity)
        have hle : c100 ≤ 3 * w ^ 2 / 4 := by nlinarith
        unfold checkX
        rw [if_neg hwpos.ne', if_neg (not_not.2 hle)]
        unfold getConst
        rw [if_neg hwpos.ne']
        by_cases hwc2 : w = c2
        · simp [hwc2, h0]
        · have hD : 3 * w ^ 2 - 4 * c100 ≠ 0 := by
            intro hz
            have : 3 * w * (w - c2) = 0 := by linear_combination hz - hwc
            rcases mul_eq_zero.1 this with h | h
            · exact hwpos.ne' (by linarith)
            · exact hwc2 (by linarith)
          rw [if_neg hwc2, if_neg hD, hwc]
          simp [h0]
      · rcases hp.1 with he | ⟨he1, he2⟩
        · exact Or.inl (hroot t hmem he)
        · exact Or.inr ⟨he1, he2⟩

/-- The weights computed from `x` satisfy the three coefficient equations and are nonnegative. -/
theorem weights_spec (c100 c000 c2 x res : K) (h2 : 0 ≤ c2) (hchk : checkX c100 c000 c2 x = true)
    (hx : x = 0 ∨ (c2 ≠ 0 ∧ x = 4 * c100 / 3 / c2) ∨ (4 * c100 < 3 * c2 ^ 2 ∧
      (9 * x ^ 2 - 12 * c2 * x + 4 * c100 = 0 ∨ (2 * c2 / 3 ≤ x ∧ 0 ≤ 9 * x ^ 2 - 12 * c2 * x + 4 * c100))))
    (hres : getConst c100 c000 c2 x = some res)
    (t1 t2 y : K) (ht1 : t1 = if x ≠ 0 then c100 / (3 * x ^ 2 / 4) else 0) (ht2 : t2 = 1 - t1)
    (hy : y = if t2 ≠ 0 then (c2 - x * t1) / t2 else 0) (h1n : 0 ≤ t1) (h2n : 0 ≤ t2) :
    t1 * (3 * x ^ 2 / 4) = c100 ∧ t1 * x + t2 * y = c2 ∧ 4 * y ^ 3 * t2 + res = c000 ∧ 0 ≤ x ∧ 0 ≤ y := by
  by_cases hx0 : x = 0
  · subst hx0
    simp only [checkX, if_true, Bool.and_eq_true, decide_eq_true_eq] at hchk
    simp only [getConst, if_true, Option.some.injEq] at hres
    rw [if_neg (by simp)] at ht1
    subst ht1
    have h3 : t2 = 1 := by rw [ht2]; ring
    subst h3
    rw [if_pos one_ne_zero] at hy
    have hy2 : y = c2 := by rw [hy]; ring
    subst hy2
    refine ⟨by rw [hchk.1]; ring, by ring, by rw [← hres]; ring, le_refl _, h2⟩
  · rw [if_pos hx0] at ht1
    have hsq : 0 < x ^ 2 := by positivity
    unfold checkX at hchk
    rw [if_neg hx0] at hchk
    have hle : c100 ≤ 3 * x ^ 2 / 4 := by
      by_contra hcon
      rw [if_pos hcon] at hchk; cases hchk
    have ht1m : t1 * (3 * x ^ 2 / 4) = c100 := by rw [ht1]; field_simp
    have hc100 : 0 ≤ c100 := by rw [← ht1m]; positivity
    -- x is positive
    have hxpos : 0 < x := by
      rcases hx with h | ⟨h, h'⟩ | ⟨_, h | ⟨h, _⟩⟩
      · exact absurd h hx0
      · rw [h']
        have hc2p : 0 < c2 := lt_of_le_of_ne h2 (Ne.symm h)
        have : x ≠ 0 := hx0
        have hge : 0 ≤ 4 * c100 / 3 / c2 := by positivity
        rw [h'] at this
        exact lt_of_le_of_ne hge (Ne.symm this)
      · by_contra hneg
        push Not at hneg
        have : 0 ≤ -(12 * c2 * x) := by nlinarith
        nlinarith
      · have h3 : 0 ≤ x := le_trans (by positivity) h
        exact lt_of_le_of_ne h3 (Ne.symm hx0)
    have hN : 0 ≤ 3 * c2 * x - 4 * c100 := by
      rcases hx with h | ⟨h, h'⟩ | ⟨hlt, _⟩
      · exact absurd h hx0
      · have : 3 * c2 * x = 4 * c100 := by rw [h']; field_simp
        linarith
      · by_contra hneg
        push Not at hneg
        -- 3x² ≥ 4 c100 > 3 c2 x, so x > c2, but 4 c100 < 3 c2² and 3 c2 x < 4 c100
        have h3 : 3 * c2 * x < 3 * x * x := by nlinarith
        have h4 : c2 < x := by
          have : c2 * (3 * x) < x * (3 * x) := by nlinarith
          exact lt_of_mul_lt_mul_right this (by positivity)
        have h5 : 3 * c2 * c2 ≤ 3 * c2 * x := by nlinarith
        nlinarith
    by_cases ht20 : t2 = 0
    · -- then 3x² = 4 c100 and x = c2
      have hD : 3 * x ^ 2 - 4 * c100 = 0 := by
        have : t1 = 1 := by linarith [ht2, ht20]
        rw [this] at ht1m; linarith
      unfold getConst at hres
      rw [if_neg hx0] at hres
      by_cases hxc : x = c2
      · rw [if_pos hxc] at hres
        rw [if_neg (by simpa using ht20)] at hy
        have ht11 : t1 = 1 := by linarith [ht2, ht20]
        refine ⟨ht1m, by rw [ht20, ht11, hxc]; ring, ?_, hxpos.le, by rw [hy]⟩
        rw [ht20]; simp only [Option.some.injEq] at hres; rw [hres]; ring
      · rw [if_neg hxc, if_pos hD] at hres; cases hres
    · rw [if_pos ht20] at hy
      have hD : 3 * x ^ 2 - 4 * c100 ≠ 0 := by
        intro hz
        apply ht20
        rw [ht2, ht1]
        have : c100 = 3 * x ^ 2 / 4 := by linarith
        rw [this]
        have h9 : 3 * x ^ 2 / 4 ≠ 0 := by positivity
        rw [div_self h9]; ring
      have hDpos : 0 < 3 * x ^ 2 - 4 * c100 := lt_of_le_of_ne (by linarith) (Ne.symm hD)
      have ht2v : t2 = (3 * x ^ 2 - 4 * c100) / (3 * x ^ 2) := by
        rw [ht2, ht1]; field_simp
      have hyv : y = x * (3 * c2 * x - 4 * c100) / (3 * x ^ 2 - 4 * c100) := by
        rw [hy, ht2v, ht1]; field_simp
      have hlin : t1 * x + t2 * y = c2 := by rw [hy]; field_simp; ring
      refine ⟨ht1m, hlin, ?_, hxpos.le, ?_⟩
      · unfold getConst at hres
        rw [if_neg hx0] at hres
        by_cases hxc : x = c2
        · exfalso
          rcases hx with h | ⟨h, h'⟩ | ⟨hlt, h | ⟨_, h⟩⟩
          · exact hx0 h
          · apply hD
            have : 3 * c2 * x = 4 * c100 := by rw [h']; field_simp
            rw [← hxc] at this; linear_combination this
          · apply hD; rw [hxc] at h ⊢; linear_combination -h
          · rw [hxc] at h hDpos; nlinarith
        · rw [if_neg hxc, if_neg hD] at hres
          rw [← Option.some.inj hres, hyv, ht2v]
          field_simp
          ring
      · rw [hyv]; positivity

/-- **C15 (part).** For a four-variable cubic invariant under rotating `a, b, c` without the terms
`a²c + b²a + c²b`, an expression returned on the main path (coefficient of `abc` nonzero) equals the polynomial
wherever `a + b + c ≠ 0`, and is nonnegative on the orthant.  Missing from the full claim: inputs with those terms,
for which it is false (`cubicPartial_wrong`, `cubicPartial_quad_wrong`).  `cands` are the candidates produced by
the root finder; exact ones are assumed to be roots. -/
theorem cubicPartial_sound_partial (co : Coeff K) (h : co.WF) (hn : co.nvars = 4) (hd : co.Hom 3)
    (hs : co.isCyclic [[1,2,0,3]] = true) (h2010 : co.call [2,0,1,0] = 0)
    (cands : List (K × Bool))
    (hroot : ∀ t ∈ cands, t.2 = true → 9 * t.1 ^ 2 -
      12 * (-(co.call [2,0,0,1] / co.call [1,1,1,0]) - co.call [1,1,0,1] / co.call [1,1,1,0]) * t.1 +
      4 * (co.call [1,0,0,2] / co.call [1,1,1,0]) = 0)
    (f : Val4 K) (hf : cubicPartial cands co = .ok (some (.expr f))) :
    (∀ a b c d : K, a + b + c ≠ 0 → f a b c d = evalDict co.coeffs [a,b,c,d]) ∧
    ∀ a b c d : K, 0 ≤ a → 0 ≤ b → 0 ≤ c → 0 ≤ d → 0 ≤ f a b c d := by
  unfold cubicPartial at hf
  by_cases h1 : co.call [3,0,0,0] ≠ 0 ∨ co.call [2,1,0,0] ≠ 0
  · rw [if_pos h1] at hf; cases hf
  rw [if_neg h1] at hf
  push Not at h1
  simp only at hf
  by_cases h111 : co.call [1,1,1,0] = 0
  · rw [if_pos h111] at hf
    cases hq : Sparse.sosQuadratic co with
    | error e => rw [hq] at hf; cases hf
    | ok o =>
      cases o with
      | none => rw [hq] at hf; cases hf
      | some us => rw [hq] at hf; cases hf
  rw [if_neg h111] at hf
  by_cases h3 : co.call [1,1,1,0] < 0 ∨ co.call [0,0,0,3] < 0
  · rw [if_pos h3] at hf; cases hf
  rw [if_neg h3] at hf
  push Not at h3
  have hc111 : 0 < co.call [1,1,1,0] := lt_of_le_of_ne h3.1 (Ne.symm h111)
  set c111 := co.call [1,1,1,0] with hc111d
  set c100 := co.call [1,0,0,2] / c111 with hc100
  set c000 := co.call [0,0,0,3] / c111 with hc000
  set c200 := co.call [2,0,0,1] / c111 with hc200
  set c110 := co.call [1,1,0,1] / c111 with hc110
  by_cases h4 : 2 * c200 + c110 < 0 ∨ -c200 - c110 < 0
  · rw [if_pos h4] at hf; cases hf
  rw [if_neg h4] at hf
  push Not at h4
  obtain ⟨hc1, hc2⟩ := h4
  cases hx : chooseX c100 c000 (-c200 - c110) cands with
  | none => simp only [hx] at hf; cases hf
  | some x =>
    simp only [hx] at hf
    cases hr : getConst c100 c000 (-c200 - c110) x with
    | none => simp only [hr] at hf; cases hf
    | some res =>
      simp only [hr] at hf
      by_cases hr0 : res < 0
      · rw [if_pos hr0] at hf; cases hf
      rw [if_neg hr0] at hf
      push Not at hr0
      set t1 : K := if x ≠ 0 then c100 / (3 * x ^ 2 / 4) else 0 with ht1
      by_cases ht : t1 < 0 ∨ 1 - t1 < 0
      · rw [if_pos ht] at hf; cases hf
      rw [if_neg ht] at hf
      push Not at ht
      set y : K := if 1 - t1 ≠ 0 then (-c200 - c110 - x * t1) / (1 - t1) else 0 with hy
      have hc000n : 0 ≤ c000 := div_nonneg h3.2 hc111.le
      obtain ⟨hchk, hxc⟩ := chooseX_spec c100 c000 (-c200 - c110) cands hc2 hc000n hroot x hx
      obtain ⟨e1, e2, e3, hxn, hyn⟩ := weights_spec c100 c000 (-c200 - c110) x res hc2 hchk hxc hr t1 (1 - t1) y
        ht1 rfl hy ht.1 ht.2
      injection hf with hf
      injection hf with hf
      injection hf with hf
      subst hf
      refine ⟨?_, ?_⟩
      · intro a b c d hne
        beta_reduce
        rw [rotForm43 co h hn hd hs, getSol1_eq x a b c d hne, getSol2_eq y a b c d hne, h1.1, h1.2, h2010]
        have f1 : co.call [1,0,0,2] = c111 * c100 := by rw [hc100]; field_simp
        have f2 : co.call [0,0,0,3] = c111 * c000 := by rw [hc000]; field_simp
        have f3 : co.call [2,0,0,1] = c111 * c200 := by rw [hc200]; field_simp
        have f4 : co.call [1,1,0,1] = c111 * c110 := by rw [hc110]; field_simp
        rw [f1, f2, f3, f4, ← hc111d]
        simp only [cyc3]
        linear_combination c111 * (a+b+c) * d^2 * e1 +
          c111 * (a^2+b^2+c^2-2*(a*b+b*c+c*a)) * d * e2 + c111 * d^3 * e3
      · intro a b c d ha hb hc hd
        have g1 := getSol1_nonneg x a b c d hxn ha hb hc hd
        have g2 := getSol2_nonneg y a b c d hyn ha hb hc hd
        have g3 : 0 ≤ cyc3 (fun a b _ => (a - b) ^ 2) a b c := by unfold cyc3; positivity
        have ht1n := ht.1
        have ht2n := ht.2
        have := mul_nonneg (mul_nonneg hc111.le ht1n) g1
        have := mul_nonneg (mul_nonneg hc111.le ht2n) g2
        have := mul_nonneg (mul_nonneg hc111.le hr0) (pow_nonneg hd 3)
        have := mul_nonneg (mul_nonneg (div_nonneg (mul_nonneg hc111.le hc1) (by norm_num : (0:K) ≤ 2)) g3) hd
        linarith

/-- Without the terms `a²c + b²a + c²b`, `abc` and with a `d³` term the function gives up. -/
theorem cubicPartial_none (co : Coeff K) (h : co.WF) (cands : List (K × Bool))
    (h111 : co.call [1,1,1,0] = 0) (h3 : co.call [0,0,0,3] ≠ 0) : cubicPartial cands co = .ok none := by
  have hq : Sparse.sosQuadratic co = .ok none := by
    unfold Sparse.sosQuadratic
    have hmem : ([0,0,0,3], co.call [0,0,0,3]) ∈ co.coeffs := by
      unfold Coeff.call at h3 ⊢
      cases hg : dget co.coeffs [0,0,0,3] with
      | none => rw [hg] at h3; simp at h3
      | some v => exact (dget_eq_some_iff _ h.nodup _ _).1 hg
    have hnone : ∀ (l : List (List ℕ × K)) (M : ℕ → ℕ → K), ([0,0,0,3], co.call [0,0,0,3]) ∈ l →
        Sparse.quadMat co.nvars l M = none := by
      intro l
      induction l with
      | nil => intro M hm; simp at hm
      | cons kv l ih =>
        intro M hm
        obtain ⟨k, v⟩ := kv
        simp only [List.mem_cons] at hm
        rcases hm with hm | hm
        · cases hm; rfl
        · simp only [Sparse.quadMat]
          cases Sparse.monomPos co.nvars k with
          | none => rfl
          | some p => exact ih _ hm
    rw [hnone _ _ hmem]
  unfold cubicPartial
  simp only [h111, if_true, hq]
  split_ifs <;> rfl

/-- `abc + d³ - 5(a²c + b²a + c²b)`. -/
def exBad : Coeff ℚ := ofDict [([1,1,1,0],1),([0,0,0,3],1),([2,0,1,0],-5),([1,2,0,0],-5),([0,1,2,0],-5)]

/-- The value of a result at a point. -/
def partialVal (r : Except PyErr (Option (PartialSol ℚ))) (a b c d : ℚ) : Option ℚ :=
  match r with
  | .ok (some (.expr f)) => some (f a b c d)
  | .ok (some (.quad n U S)) =>
    some (∑ i ∈ Finset.range n, S i * (∑ j ∈ Finset.range n, U i j * Sparse.homVec [a,b,c,d] j) ^ 2)
  | _ => none

/-- **C15 is false.** `abc + d³ - 5(a²c+b²a+c²b)` passes the symmetry test of the caller and gets the "proof"
`abc + d³`, although its value at `(1,1,1,1)` is `-13`. -/
theorem cubicPartial_wrong : exBad.isCyclic [[1,2,0,3]] = true ∧
    partialVal (cubicPartial [] exBad) 1 1 1 1 = some 2 ∧ evalDict exBad.coeffs [1,1,1,1] = -13 := by
  decide +kernel

/-- **C15 is false on the quadratic path too.** -/
theorem cubicPartial_quad_wrong : Sparse.exCubic.isCyclic [[1,2,0,3]] = true ∧
    partialVal (cubicPartial [] Sparse.exCubic) 1 1 1 1 = some 4 ∧ evalDict Sparse.exCubic.coeffs [1,1,1,1] = 6 := by
  decide +kernel

/-- Non-vacuity: `1 + 2abc + s(a²-2ab)` (from the docstring), homogenised. -/
def exPart : Coeff ℚ := ofDict [([0,0,0,3],1),([1,1,1,0],2),([2,0,0,1],1),([0,2,0,1],1),([0,0,2,1],1),
  ([1,1,0,1],-2),([0,1,1,1],-2),([1,0,1,1],-2)]
example : exPart.WF ∧ exPart.nvars = 4 ∧ exPart.Hom 3 := ⟨⟨by decide, by decide⟩, rfl, by unfold Coeff.Hom; decide⟩
example : exPart.isCyclic [[1,2,0,3]] = true ∧ exPart.call [2,0,1,0] = 0 := by decide +kernel
example : partialVal (cubicPartial [] exPart) 1 2 3 1 = some 5 ∧ evalDict exPart.coeffs [1,2,3,1] = 5 := by
  decide +kernel

end Verif.Quaternary
