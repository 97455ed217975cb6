import Verif.Model.TernaryCubic
import Verif.Props.TernaryQuartic
import Mathlib.Tactic.Ring
import Mathlib.Tactic.Linarith
import Mathlib.Tactic.FieldSimp
import Mathlib.Tactic.LinearCombination
import Mathlib.Tactic.Positivity
import Mathlib.Analysis.Real.Sqrt

/-!
# C48, C49: the ternary cubic solvers and the tables of common expressions
-/

set_option linter.unusedSectionVars false

namespace Verif.Ternary

open Verif Finset

variable {K : Type*} [Field K] [LinearOrder K] [IsStrictOrderedRing K]

theorem Proves.smul {D : K → K → K → Prop} {f : Val3 K} {C : Cert K} (h : Proves D f C) {w : K} (hw : 0 ≤ w) :
    Proves D (fun a b c => w * f a b c) (C.smul w) := by
  refine ⟨?_, ?_, ?_, h.den, h.pos⟩
  · intro a b c
    change ((C.terms.map fun t => (w * t.1, t.2)).map fun t : K × Val3 K => t.1 * t.2 a b c).sum = C.den a b c * (w * f a b c)
    have e : ∀ l : List (K × Val3 K), ((l.map fun t => (w * t.1, t.2)).map fun t : K × Val3 K => t.1 * t.2 a b c).sum = w * (l.map fun t => t.1 * t.2 a b c).sum := by
      intro l
      induction l with
      | nil => simp
      | cons x l ih => simp only [List.map_cons, List.sum_cons, ih]; ring
    rw [e]
    have := h.identity a b c
    unfold Cert.num at this
    rw [this]
    ring
  · intro t ht
    obtain ⟨s, hs, rfl⟩ := List.mem_map.1 ht
    exact mul_nonneg hw (h.weights s hs)
  · intro t ht
    obtain ⟨s, hs, rfl⟩ := List.mem_map.1 ht
    exact h.exprs s hs

theorem Proves.plus {D : K → K → K → Prop} {f g : Val3 K} {C E : Cert K} (h : Proves D f C) (h' : Proves D g E) :
    Proves D (fun a b c => f a b c + g a b c) (C.plus E) := by
  refine ⟨?_, ?_, ?_, fun a b c hd => mul_nonneg (h.den a b c hd) (h'.den a b c hd), fun a b c hd h0 => mul_pos (h.pos a b c hd h0) (h'.pos a b c hd h0)⟩
  · intro a b c
    have e : ∀ (v : Val3 K) (l : List (K × Val3 K)), ((l.map fun t => (t.1, fun a b c => t.2 a b c * v a b c)).map fun t : K × Val3 K => t.1 * t.2 a b c).sum =
        (l.map fun t => t.1 * t.2 a b c).sum * v a b c := by
      intro v l
      induction l with
      | nil => simp
      | cons x l ih => simp only [List.map_cons, List.sum_cons, ih]; ring
    change (((C.terms.map fun t => (t.1, fun a b c => t.2 a b c * E.den a b c)) ++ E.terms.map fun t => (t.1, fun a b c => t.2 a b c * C.den a b c)).map
      fun t : K × Val3 K => t.1 * t.2 a b c).sum = C.den a b c * E.den a b c * (f a b c + g a b c)
    rw [List.map_append, List.sum_append, e, e]
    have h1 := h.identity a b c
    have h2 := h'.identity a b c
    unfold Cert.num at h1 h2
    rw [h1, h2]
    ring
  · intro t ht
    rcases List.mem_append.1 ht with ht | ht
    · obtain ⟨s, hs, rfl⟩ := List.mem_map.1 ht
      exact h.weights s hs
    · obtain ⟨s, hs, rfl⟩ := List.mem_map.1 ht
      exact h'.weights s hs
  · intro t ht a b c hd
    rcases List.mem_append.1 ht with ht | ht
    · obtain ⟨s, hs, rfl⟩ := List.mem_map.1 ht
      exact mul_nonneg (h.exprs s hs a b c hd) (h'.den a b c hd)
    · obtain ⟨s, hs, rfl⟩ := List.mem_map.1 ht
      exact mul_nonneg (h'.exprs s hs a b c hd) (h.den a b c hd)

/-! ### The tables -/

/-- The points of the octant other than the multiples of `(1, 1, 1)`. -/
def OctantOff (a b c : K) : Prop := Octant a b c ∧ ¬ (a = b ∧ b = c)

/-- Schur's polynomial of degree `n`. -/
def schurPoly (n : ℕ) : Val3 K := cyc3 fun a b c => a ^ (n - 2) * (a - b) * (a - c)

theorem sumA_pos {a b c : K} (hD : Octant a b c) (h0 : ¬ (a = 0 ∧ b = 0 ∧ c = 0)) : 0 < sumA a b c := sum_pos_of_octant hD h0

theorem sumA_nonneg {a b c : K} (hD : Octant a b c) : 0 ≤ sumA a b c := by
  obtain ⟨ha, hb, hc⟩ := hD
  simp only [sumA, cyc3]
  linarith

theorem prodA_nonneg (a b c : K) (hD : Octant a b c) : 0 ≤ prodA a b c := by
  obtain ⟨ha, hb, hc⟩ := hD
  simp only [prodA, cycp3]
  positivity

theorem schur_cases {n : ℕ} {C : Cert K} (h : schur n = some C) : n = 2 ∨ n = 3 ∨ n = 5 := by
  unfold schur at h
  split at h <;> simp_all

theorem schur3_sound {C : Cert K} (h : schur 3 = some C) : Proves Octant (schurPoly 3) C := by
  rw [← Option.some.inj h]
  refine ⟨?_, ?_, ?_, ?_, ?_⟩
  · intro a b c
    simp only [Cert.num, List.map_cons, List.map_nil, List.sum_cons, List.sum_nil, cyc3, sumA, schurPoly]
    norm_num
    ring
  · intro t ht
    simp only [List.mem_cons, List.not_mem_nil, or_false] at ht
    rcases ht with rfl | rfl
    · exact zero_le_one
    · exact zero_le_two
  · intro t ht a b c hD
    simp only [List.mem_cons, List.not_mem_nil, or_false] at ht
    rcases ht with rfl | rfl
    · dsimp only; exact cyc3_nonneg_all_of a b c (by intro a b c; positivity)
    · dsimp only; exact cyc3_nonneg_of a b c hD (by intro a b c ha hb hc; positivity)
  · intro a b c hD
    have := sumA_nonneg hD
    dsimp only
    positivity
  · intro a b c hD h0
    have := sumA_pos hD h0
    dsimp only
    positivity

/-- **C49 (Schur).** Every entry is Schur's polynomial of its degree, written with nonnegative expressions; the denominator of degree five vanishes on the
diagonal only. -/
theorem schur_sound {n : ℕ} {C : Cert K} (h : schur n = some C) : Proves OctantOff (schurPoly n) C := by
  rcases schur_cases h with rfl | rfl | rfl
  · rw [← Option.some.inj h]
    apply plain_proves
    · intro a b c
      simp only [List.map_cons, List.map_nil, List.sum_cons, List.sum_nil, cyc3, schurPoly]
      norm_num
      ring
    · intro t ht
      simp only [List.mem_cons, List.not_mem_nil, or_false] at ht
      rw [ht]
      norm_num
    · intro t ht a b c _
      simp only [List.mem_cons, List.not_mem_nil, or_false] at ht
      rw [ht]
      dsimp only
      exact cyc3_nonneg_all_of a b c (by intro a b c; positivity)
  · exact (schur3_sound h).mono fun _ _ _ hd => hd.1
  · rw [← Option.some.inj h]
    refine ⟨?_, ?_, ?_, ?_, ?_⟩
    · intro a b c
      simp only [Cert.num, List.map_cons, List.map_nil, List.sum_cons, List.sum_nil, cyc3, cycp3, sumA, schurPoly]
      norm_num
      ring
    · intro t ht
      simp only [List.mem_cons, List.not_mem_nil, or_false] at ht
      rcases ht with rfl | rfl <;> exact zero_le_two
    · intro t ht a b c hD
      obtain ⟨hD, _⟩ := hD
      simp only [List.mem_cons, List.not_mem_nil, or_false] at ht
      rcases ht with rfl | rfl
      · dsimp only; exact cyc3_nonneg_of a b c hD (by intro a b c ha hb hc; positivity)
      · have := sumA_nonneg hD
        simp only [cycp3]
        positivity
    · intro a b c _
      simp only [cyc3]
      positivity
    · intro a b c hD _
      obtain ⟨_, hne⟩ := hD
      change 0 < (a - b) ^ 2 + (b - c) ^ 2 + (c - a) ^ 2
      by_contra hle
      have h1 : (a - b) ^ 2 = 0 := by nlinarith [sq_nonneg (a - b), sq_nonneg (b - c), sq_nonneg (c - a)]
      have h2 : (b - c) ^ 2 = 0 := by nlinarith [sq_nonneg (a - b), sq_nonneg (b - c), sq_nonneg (c - a)]
      exact hne ⟨sub_eq_zero.1 (pow_eq_zero_iff (two_ne_zero)|>.1 h1), sub_eq_zero.1 (pow_eq_zero_iff (two_ne_zero)|>.1 h2)⟩

/-- What `schurinv(n)` is documented to solve. -/
def schurinvPoly (n : ℕ) : Val3 K := cyc3 fun a b c => b ^ ((n - 2) / 2) * c ^ ((n - 2) / 2) * (a - b) * (a - c)

/-- **C49 (inverse Schur, partial: degrees four and six).** -/
theorem schurinv_sound_partial {n : ℕ} (hn : n ≠ 2) {C : Cert K} (h : schurinv n = some C) : Proves Octant (schurinvPoly n) C := by
  have hc : n = 4 ∨ n = 6 := by
    unfold schurinv at h
    split at h <;> simp_all
  rcases hc with rfl | rfl
  · rw [← Option.some.inj h]
    apply plain_proves
    · intro a b c
      simp only [List.map_cons, List.map_nil, List.sum_cons, List.sum_nil, cyc3, schurinvPoly]
      norm_num
      ring
    · intro t ht
      simp only [List.mem_cons, List.not_mem_nil, or_false] at ht
      rw [ht]
      norm_num
    · intro t ht a b c _
      simp only [List.mem_cons, List.not_mem_nil, or_false] at ht
      rw [ht]
      dsimp only
      exact cyc3_nonneg_all_of a b c (by intro a b c; positivity)
  · rw [← Option.some.inj h]
    refine ⟨?_, ?_, ?_, ?_, ?_⟩
    · intro a b c
      simp only [Cert.num, List.map_cons, List.map_nil, List.sum_cons, List.sum_nil, cyc3, cycp3, sumA, prodA, schurinvPoly]
      norm_num
      ring
    · intro t ht
      simp only [List.mem_cons, List.not_mem_nil, or_false] at ht
      rcases ht with rfl | rfl
      · exact zero_le_two
      · exact zero_le_one
    · intro t ht a b c hD
      simp only [List.mem_cons, List.not_mem_nil, or_false] at ht
      rcases ht with rfl | rfl
      · dsimp only; exact cyc3_nonneg_of a b c hD (by intro a b c ha hb hc; positivity)
      · exact mul_nonneg (prodA_nonneg a b c hD) (cyc3_nonneg_all_of a b c (by intro a b c; positivity))
    · intro a b c hD
      have := sumA_nonneg hD
      dsimp only
      positivity
    · intro a b c hD h0
      have := sumA_pos hD h0
      dsimp only
      positivity

/-- The entry of degree two of `schurinv` is twice the polynomial it is documented to be. -/
theorem schurinv_two_wrong : ∃ C : Cert ℚ, schurinv 2 = some C ∧ C.num 1 2 3 ≠ C.den 1 2 3 * schurinvPoly 2 1 2 3 := by
  refine ⟨_, rfl, ?_⟩
  decide +kernel

/-- **C49 (quadratics).** -/
theorem quadratic_sound {x y : K} {C : Cert K} (h : quadratic x y = some C) :
    Proves Octant (fun a b c => x * (a ^ 2 + b ^ 2 + c ^ 2) + y * (a * b + b * c + c * a)) C := by
  unfold quadratic at h
  split at h
  · simp at h
  · rename_i hxy
    push Not at hxy
    obtain ⟨hx, hy⟩ := hxy
    split at h
    · rename_i hx0
      rw [← Option.some.inj h]
      apply plain_proves
      · intro a b c
        simp only [List.map_cons, List.map_nil, List.sum_cons, List.sum_nil, cyc3, hx0]
        ring
      · intro t ht
        rw [List.mem_singleton] at ht
        rw [ht]
        rw [hx0, zero_add] at hy
        exact hy
      · intro t ht a b c hD
        rw [List.mem_singleton] at ht
        rw [ht]
        obtain ⟨ha, hb, hc⟩ := hD
        simp only [cyc3]
        positivity
    · split at h
      · rename_i hlt
        rw [← Option.some.inj h]
        apply plain_proves
        · intro a b c
          simp only [List.map_cons, List.map_nil, List.sum_cons, List.sum_nil, cyc3]
          ring
        · intro t ht
          rw [List.mem_singleton] at ht
          rw [ht]
          exact zero_le_one
        · intro t ht a b c hD
          rw [List.mem_singleton] at ht
          rw [ht]
          have hy0 : 0 ≤ y := by linarith
          obtain ⟨ha, hb, hc⟩ := hD
          simp only [cyc3]
          positivity
      · rename_i hle
        rw [← Option.some.inj h]
        apply plain_proves
        · intro a b c
          simp only [List.map_cons, List.map_nil, List.sum_cons, List.sum_nil, cyc3, sumA]
          field_simp
          ring
        · intro t ht
          simp only [List.mem_cons, List.not_mem_nil, or_false] at ht
          rcases ht with rfl | rfl
          · have : 0 ≤ 2 * x - y := by linarith
            change 0 ≤ (2 * x - y) / 3 / 2
            positivity
          · change 0 ≤ x - (2 * x - y) / 3
            linarith
        · intro t ht a b c _
          simp only [List.mem_cons, List.not_mem_nil, or_false] at ht
          rcases ht with rfl | rfl
          · dsimp only; exact cyc3_nonneg_all_of a b c (by intro a b c; positivity)
          · exact sq_nonneg _

/-- The answer is complete: a cyclic quadratic that is nonnegative on the octant is always solved. -/
theorem quadratic_complete (x y : K) : quadratic x y ≠ none ↔ ∀ a b c : K, Octant a b c → 0 ≤ x * (a ^ 2 + b ^ 2 + c ^ 2) + y * (a * b + b * c + c * a) := by
  constructor
  · intro h a b c hD
    obtain ⟨C, hC⟩ := Option.ne_none_iff_exists'.1 h
    by_cases h0 : a = 0 ∧ b = 0 ∧ c = 0
    · obtain ⟨rfl, rfl, rfl⟩ := h0
      simp
    · exact (quadratic_sound hC).nonneg hD h0
  · intro h
    have h1 := h 1 0 0 ⟨zero_le_one, le_refl _, le_refl _⟩
    have h2 := h 1 1 1 ⟨zero_le_one, zero_le_one, zero_le_one⟩
    unfold quadratic
    rw [if_neg (by push Not; constructor <;> linarith)]
    split
    · simp
    · split <;> simp

example : quadratic (1 : ℚ) (-1) ≠ none ∧ quadratic (1 : ℚ) 5 ≠ none ∧ quadratic (0 : ℚ) 1 ≠ none := by
  have h : ((quadratic (1 : ℚ) (-1)).isSome && (quadratic (1 : ℚ) 5).isSome && (quadratic (0 : ℚ) 1).isSome) = true := by decide +kernel
  simp only [Bool.and_eq_true, Option.isSome_iff_ne_none] at h
  exact ⟨h.1.1, h.1.2, h.2⟩

/-! #### AM-GM table -/

/-- The cyclic sum of a monomial. -/
def cycMon (d : ℕ × ℕ × ℕ) : Val3 K := cyc3 fun a b c => a ^ d.1 * b ^ d.2.1 * c ^ d.2.2

theorem cycMon_std (d : ℕ × ℕ × ℕ) (a b c : K) : cycMon (std3 d) a b c = cycMon d a b c := by
  obtain ⟨x, y, z⟩ := d
  unfold std3
  simp only
  split <;> split <;> simp only [cycMon, cyc3] <;> ring

/-- Splits a statement about all members of an explicit list. -/
macro "each_mem" : tactic => `(tactic| repeat' (first | exact List.forall_mem_nil _ | refine List.forall_mem_cons.2 ⟨?_, ?_⟩))

macro "plain_amgm" : tactic => `(tactic| (
  apply plain_proves
  · intro a b c
    simp only [List.map_cons, List.map_nil, List.sum_cons, List.sum_nil, cyc3, cycp3, cycMon, sumA, prodA]
    field_simp
    ring
  · each_mem
    all_goals (dsimp only; norm_num)
  · each_mem
    all_goals (rintro a b c ⟨ha, hb, hc⟩; simp only [cyc3, cycp3, sumA, prodA]; positivity)))

theorem specialAmgms_sound : ∀ kv ∈ specialAmgms (K := K), Proves Octant (fun a b c => cycMon kv.1.1 a b c - cycMon kv.1.2 a b c) kv.2 := by
  unfold specialAmgms
  refine List.forall_mem_cons.2 ⟨?_, List.forall_mem_cons.2 ⟨?_, ?_⟩⟩
  · refine ⟨?_, ?_, ?_, ?_, ?_⟩
    · intro a b c
      simp only [Cert.num, List.map_cons, List.map_nil, List.sum_cons, List.sum_nil, cyc3, cycMon, sumA]
      ring
    · each_mem
      exact zero_le_one
    · each_mem
      rintro a b c ⟨ha, hb, hc⟩
      simp only [cyc3]
      positivity
    · rintro a b c hD
      have := sumA_nonneg hD
      dsimp only
      positivity
    · rintro a b c hD h0
      have := sumA_pos hD h0
      dsimp only
      positivity
  · refine ⟨?_, ?_, ?_, ?_, ?_⟩
    · intro a b c
      simp only [Cert.num, List.map_cons, List.map_nil, List.sum_cons, List.sum_nil, cyc3, cycMon, sumA]
      ring
    · each_mem
      exact zero_le_one
    · each_mem
      rintro a b c ⟨ha, hb, hc⟩
      simp only [cyc3]
      positivity
    · rintro a b c hD
      have := sumA_nonneg hD
      dsimp only
      positivity
    · rintro a b c hD h0
      have := sumA_pos hD h0
      dsimp only
      positivity
  · each_mem
    all_goals plain_amgm

/-- **C49 (AM-GM table).** Whatever rotation of the two exponents is asked for, an entry of the table is the difference of the two cyclic sums, written
with nonnegative expressions. -/
theorem amgm_sound {d1 d2 : ℕ × ℕ × ℕ} {C : Cert K} (h : amgm d1 d2 = some C) : Proves Octant (fun a b c => cycMon d1 a b c - cycMon d2 a b c) C := by
  unfold amgm at h
  rw [Option.map_eq_some_iff] at h
  obtain ⟨kv, hkv, rfl⟩ := h
  have hk : kv.1 = (std3 d1, std3 d2) := by simpa using List.find?_some hkv
  refine (specialAmgms_sound kv (List.mem_of_find?_eq_some hkv)).congr ?_
  intro a b c
  rw [hk, cycMon_std, cycMon_std]

example : (amgm (K := ℚ) (0, 0, 6) (1, 3, 2)).isSome = true ∧ (amgm (K := ℚ) (1, 0, 2) (1, 1, 1)).isSome = true := by decide +kernel

/-! ### Cyclic cubics -/

/-- The cyclic cubic with the given coefficients. -/
def Cubic.poly (f : Cubic K) (a b c : K) : K :=
  f.m * (a ^ 3 + b ^ 3 + c ^ 3) + f.p * (a ^ 2 * b + b ^ 2 * c + c ^ 2 * a) + f.q * (a * b ^ 2 + b * c ^ 2 + c * a ^ 2) + f.r * (a * b * c)

/-- The points of the octant with at least two nonzero coordinates. -/
def OctantTwo (a b c : K) : Prop := Octant a b c ∧ 0 < a * b + b * c + c * a

theorem cubicSymmetric_sound {f : Cubic K} (hpq : f.p = f.q) : ∃ r, cubicSymmetric f = .ok r ∧ ∀ C, r = some C → Proves Octant f.poly C ∧ 0 ≤ f.m := by
  unfold cubicSymmetric
  simp only
  split
  · rename_i hc
    obtain ⟨h1, h2, h3⟩ := hc
    refine ⟨_, rfl, ?_⟩
    intro C hC
    rw [← Option.some.inj hC]
    refine ⟨?_, by linarith⟩
    apply plain_proves
    · intro a b c
      simp only [List.map_cons, List.map_nil, List.sum_cons, List.sum_nil, cyc3, cycp3, prodA, Cubic.poly, ← hpq]
      field_simp
      ring
    · each_mem
      all_goals dsimp only; assumption
    · each_mem
      · rintro a b c ⟨ha, hb, hc⟩; simp only [cyc3]; positivity
      · rintro a b c ⟨ha, hb, hc⟩; simp only [cyc3]; positivity
      · exact prodA_nonneg
  · split
    · rename_i hc
      obtain ⟨h1, h2, h3⟩ := hc
      refine ⟨_, rfl, ?_⟩
      intro C hC
      rw [← Option.some.inj hC]
      refine ⟨?_, h1⟩
      refine ((((schur3_sound (K := K) rfl).smul h1).add h2 (cyc3_nonneg fun a b c ha hb hc => by positivity)).add h3 prodA_nonneg).congr ?_
      intro a b c
      simp only [schurPoly, cyc3, prodA, cycp3, Cubic.poly, ← hpq]
      norm_num
      ring
    · exact ⟨none, rfl, by simp⟩

theorem amgm_210 : ∃ C, amgm (K := K) (2, 1, 0) (1, 1, 1) = some C := by
  exact ⟨_, rfl⟩

theorem amgm_201 : ∃ C, amgm (K := K) (2, 0, 1) (1, 1, 1) = some C := by
  exact ⟨_, rfl⟩

theorem cubicDegenerate_sound {f : Cubic K} (hm : f.m = 0) : ∃ r, cubicDegenerate f = .ok r ∧ ∀ C, r = some C → Proves Octant f.poly C := by
  unfold cubicDegenerate
  simp only
  split
  · exact ⟨none, rfl, by simp⟩
  · rename_i hc
    push Not at hc
    obtain ⟨h1, h2, h3⟩ := hc
    split
    · rename_i hpq
      refine ⟨_, rfl, ?_⟩
      intro C hC
      rw [← Option.some.inj hC]
      apply plain_proves
      · intro a b c
        simp only [List.map_cons, List.map_nil, List.sum_cons, List.sum_nil, cyc3, cycp3, prodA, Cubic.poly, ← hpq, hm]
        ring
      · each_mem
        all_goals dsimp only; assumption
      · each_mem
        · rintro a b c ⟨ha, hb, hc⟩; simp only [cyc3]; positivity
        · exact prodA_nonneg
    · obtain ⟨C1, hC1⟩ := amgm_210 (K := K)
      obtain ⟨C2, hC2⟩ := amgm_201 (K := K)
      rw [hC1, hC2]
      refine ⟨_, rfl, ?_⟩
      intro C hC
      rw [← Option.some.inj hC]
      refine ((((amgm_sound hC1).smul h1).plus ((amgm_sound hC2).smul h2)).add h3 prodA_nonneg).congr ?_
      intro a b c
      simp only [cycMon, cyc3, prodA, cycp3, Cubic.poly, hm]
      ring

theorem parabola_point (p q m : K) (hd : p - q - 3 ≠ 0) (e1 : p - 1 ≠ 0) (e2 : p + 2 * q + 3 ≠ 0) :
    ((p * (p - q - 3) ^ 2 - (13 * p ^ 2 + 22 * p * q + 18 * p + q ^ 2 - 18 * q - 27)) / (-12 * (p - 1) * (p + 2 * q + 3)) * m +
      (m - (p * (p - q - 3) ^ 2 - (13 * p ^ 2 + 22 * p * q + 18 * p + q ^ 2 - 18 * q - 27)) / (-12 * (p - 1) * (p + 2 * q + 3)) * m) *
      ((2 * (p + 2 * q + 3) / (p - q - 3)) ^ 2 + 4 * (2 * (p + 2 * q + 3) / (p - q - 3)) + 1) = p * m) ∧
    (-2 * ((p * (p - q - 3) ^ 2 - (13 * p ^ 2 + 22 * p * q + 18 * p + q ^ 2 - 18 * q - 27)) / (-12 * (p - 1) * (p + 2 * q + 3)) * m) +
      (m - (p * (p - q - 3) ^ 2 - (13 * p ^ 2 + 22 * p * q + 18 * p + q ^ 2 - 18 * q - 27)) / (-12 * (p - 1) * (p + 2 * q + 3)) * m) *
      ((2 * (p + 2 * q + 3) / (p - q - 3)) ^ 2 - 2 * (2 * (p + 2 * q + 3) / (p - q - 3)) - 2) = q * m) := by
  obtain ⟨x, hx⟩ : ∃ x, x = p - 1 := ⟨_, rfl⟩
  obtain ⟨y, hy⟩ : ∃ y, y = p - q - 3 := ⟨_, rfl⟩
  obtain ⟨z, hz⟩ : ∃ z, z = p + 2 * q + 3 := ⟨_, rfl⟩
  rw [← hy] at hd
  rw [← hx] at e1
  rw [← hz] at e2
  rw [← hx, ← hy, ← hz]
  have hz' : z = 3 * x - 2 * y := by rw [hx, hy, hz]; ring
  have hp' : p = x + 1 := by rw [hx]; ring
  have hq' : q = x - y - 2 := by rw [hx, hy]; ring
  constructor
  · field_simp
    rw [hp', hq', hz']
    ring
  · field_simp
    rw [hp', hq', hz']
    ring

theorem cubicParabola_sound {f : Cubic K} (hm0 : f.m ≠ 0) {C : Cert K} (h : cubicParabola f = some C) : Proves Octant f.poly C ∧ 0 ≤ f.m := by
  unfold cubicParabola at h
  simp only at h
  split at h
  · simp at h
  · rename_i hc
    push Not at hc
    obtain ⟨hm, hrem⟩ := hc
    refine ⟨?_, hm⟩
    have hp : f.p = f.p / f.m * f.m := by field_simp
    have hq : f.q = f.q / f.m * f.m := by field_simp
    have hpoly : f.poly = (⟨f.m, f.p / f.m * f.m, f.q / f.m * f.m, f.r⟩ : Cubic K).poly := by rw [← hp, ← hq]
    rw [hpoly]
    have hrem' : 0 ≤ 3 * (f.p / f.m * f.m + f.q / f.m * f.m + f.m) + f.r := by rw [← hp, ← hq]; exact hrem
    have hr : 3 * (f.p + f.q + f.m) + f.r = 3 * (f.p / f.m * f.m + f.q / f.m * f.m + f.m) + f.r := by rw [← hp, ← hq]
    rw [hr] at h
    generalize f.p / f.m = p at *
    generalize f.q / f.m = q at *
    generalize f.m = m at *
    generalize f.r = r at *
    clear hp hq hpoly hr hrem
    split at h
    · rename_i hpq
      split at h
      · rename_i hp1
        rw [← Option.some.inj h]
        apply plain_proves
        · intro a b c
          simp only [List.map_cons, List.map_nil, List.sum_cons, List.sum_nil, cyc3, cycp3, prodA, Cubic.poly, hpq]
          ring
        · each_mem
          · exact hm
          · exact mul_nonneg hm (by linarith)
          · exact hrem'
        · each_mem
          · rintro a b c ⟨ha, hb, hc⟩; simp only [cyc3]; positivity
          · rintro a b c ⟨ha, hb, hc⟩; simp only [cyc3]; positivity
          · exact prodA_nonneg
      · simp at h
    · rename_i hpq
      split at h
      · rename_i htan
        split at h
        · rename_i hp1
          rw [← Option.some.inj h]
          have hq2 : q = -2 := by linarith
          apply plain_proves
          · intro a b c
            simp only [List.map_cons, List.map_nil, List.sum_cons, List.sum_nil, cyc3, cycp3, prodA, Cubic.poly, hp1, hq2]
            ring
          · each_mem
            · exact hm
            · exact hrem'
          · each_mem
            · rintro a b c ⟨ha, hb, hc⟩; simp only [cyc3]; positivity
            · exact prodA_nonneg
        · simp at h
      · rename_i htan
        split at h
        · rename_i hp1
          split at h
          · rename_i hq
            rw [← Option.some.inj h]
            apply plain_proves
            · intro a b c
              simp only [List.map_cons, List.map_nil, List.sum_cons, List.sum_nil, cyc3, cycp3, prodA, Cubic.poly, hp1]
              field_simp
              ring
            · each_mem
              · change 0 ≤ (q - 22) / (-24) * m
                exact mul_nonneg (by linarith [hq.2]) hm
              · change 0 ≤ m - (q - 22) / (-24) * m
                have : m - (q - 22) / (-24) * m = (q + 2) / 24 * m := by ring
                rw [this]
                exact mul_nonneg (by linarith [hq.1]) hm
              · exact hrem'
            · each_mem
              · rintro a b c ⟨ha, hb, hc⟩; simp only [cyc3]; positivity
              · rintro a b c ⟨ha, hb, hc⟩; simp only [cyc3]; positivity
              · exact prodA_nonneg
          · simp at h
        · rename_i hp1
          split at h
          · rename_i hw
            rw [← Option.some.inj h]
            have hd : p - q - 3 ≠ 0 := fun h0 => hpq (by linarith)
            have h1 : 1 - (13 * p ^ 2 + 22 * p * q + 18 * p + q ^ 2 - 18 * q - 27) / (p - q - 3) ^ 2 =
                -12 * (p - 1) * (p + 2 * q + 3) / (p - q - 3) ^ 2 := by
              field_simp
              ring
            have e1 : p - 1 ≠ 0 := fun h0 => hp1 (by linarith)
            have e2 : p + 2 * q + 3 ≠ 0 := fun h0 => htan (by linarith)
            have hw1 : (p - (13 * p ^ 2 + 22 * p * q + 18 * p + q ^ 2 - 18 * q - 27) / (p - q - 3) ^ 2) /
                (1 - (13 * p ^ 2 + 22 * p * q + 18 * p + q ^ 2 - 18 * q - 27) / (p - q - 3) ^ 2) * m =
                (p * (p - q - 3) ^ 2 - (13 * p ^ 2 + 22 * p * q + 18 * p + q ^ 2 - 18 * q - 27)) / (-12 * (p - 1) * (p + 2 * q + 3)) * m := by
              rw [h1]
              field_simp
            apply plain_proves
            · intro a b c
              obtain ⟨H1, H2⟩ := parabola_point p q m hd e1 e2
              simp only [List.map_cons, List.map_nil, List.sum_cons, List.sum_nil, Cubic.poly]
              rw [hw1]
              simp only [cyc3, cycp3, prodA]
              generalize (p * (p - q - 3) ^ 2 - (13 * p ^ 2 + 22 * p * q + 18 * p + q ^ 2 - 18 * q - 27)) / (-12 * (p - 1) * (p + 2 * q + 3)) * m = W at *
              generalize 2 * (p + 2 * q + 3) / (p - q - 3) = t at *
              linear_combination (a ^ 2 * b + b ^ 2 * c + c ^ 2 * a - 3 * (a * b * c)) * H1 + (a * b ^ 2 + b * c ^ 2 + c * a ^ 2 - 3 * (a * b * c)) * H2
            · each_mem
              · exact hw.1
              · exact sub_nonneg.2 hw.2
              · exact hrem'
            · each_mem
              · rintro a b c ⟨ha, hb, hc⟩; simp only [cyc3]; positivity
              · rintro a b c ⟨ha, hb, hc⟩; simp only [cyc3]; positivity
              · exact prodA_nonneg
          · simp at h

theorem cubicNontrivial_sound {us : List K} {f : Cubic K} {C : Cert K} (h : cubicNontrivial us f = .ok (some C)) : Proves Octant f.poly C ∧ 0 ≤ f.m := by
  unfold cubicNontrivial at h
  split at h
  · simp at h
  · rename_i hm
    push Not at hm
    simp only at h
    split at h
    · split at h
      · simp at h
      · rename_i u hu
        have hv := List.find?_some hu
        unfold cubicValid at hv
        split at hv
        · simp at hv
        · rename_i hu0
          push Not at hu0
          have hv' : (cubicParams (f.p / f.m) (f.q / f.m) u).2.1 ^ 2 + (cubicParams (f.p / f.m) (f.q / f.m) u).2.1 * (cubicParams (f.p / f.m) (f.q / f.m) u).2.2.2 +
              (cubicParams (f.p / f.m) (f.q / f.m) u).2.2.2 ^ 2 ≤ 3 * (1 + (cubicParams (f.p / f.m) (f.q / f.m) u).2.2.1) := by simpa using hv
          split at h
          · simp at h
          · rename_i hy
            push Not at hy
            rw [← Option.some.inj (Except.ok.inj h)]
            refine ⟨?_, hm.le⟩
            have hp : f.p = f.p / f.m * f.m := by field_simp
            have hq : f.q = f.q / f.m * f.m := by field_simp
            have hr : f.r = f.r / f.m * f.m := by field_simp
            have hpoly : f.poly = (⟨f.m, f.p / f.m * f.m, f.q / f.m * f.m, f.r / f.m * f.m⟩ : Cubic K).poly := by rw [← hp, ← hq, ← hr]
            rw [hpoly]
            simp only [cubicParams] at hv' ⊢
            generalize f.p / f.m = p at *
            generalize f.q / f.m = q at *
            generalize f.r / f.m = z at *
            generalize f.m = m at *
            generalize ((2 * (q + 1) + (p + 1)) * u ^ 2 + 6 * u + 2 * (p + 1) + (q + 1)) / 2 / (u ^ 4 + u ^ 2 + 1) = t at *
            have hid : ∀ a b c : K, m / 2 * cyc3 (fun a b c => (a ^ 2 - b ^ 2 + (p + 1 - t + 2 * (q + 1 - t * u ^ 2)) / 3 * a * c -
                (2 * (p + 1 - t) + (q + 1 - t * u ^ 2)) / 3 * b * c + (p + 1 - t - (q + 1 - t * u ^ 2)) / 3 * a * b) ^ 2) a b c +
                (-((p + 1 - t) ^ 2 + (p + 1 - t) * (q + 1 - t * u ^ 2) + (q + 1 - t * u ^ 2) ^ 2 - 3 * (1 + (p + q + 2 * t * u))) / 6 * m *
                  cyc3 (fun a b c => a ^ 2 * (b - c) ^ 2) a b c +
                (t * m * cyc3 (fun a b c => a * b * (a - c - u * (b - c)) ^ 2) a b c + ((3 * (1 + p + q) + z) * m * cyc3 (fun a b c => a ^ 2 * b * c) a b c + 0))) =
                sumA a b c * (⟨m, p * m, q * m, z * m⟩ : Cubic K).poly a b c := by
              intro a b c
              simp only [cyc3, sumA, Cubic.poly]
              field_simp
              ring
            have hw2 : 0 ≤ -((p + 1 - t) ^ 2 + (p + 1 - t) * (q + 1 - t * u ^ 2) + (q + 1 - t * u ^ 2) ^ 2 - 3 * (1 + (p + q + 2 * t * u))) / 6 * m := by
              have : 0 ≤ -((p + 1 - t) ^ 2 + (p + 1 - t) * (q + 1 - t * u ^ 2) + (q + 1 - t * u ^ 2) ^ 2 - 3 * (1 + (p + q + 2 * t * u))) := by linarith
              positivity
            have ht : 0 ≤ t := by
              have h0 := hid (-1) 1 0
              have hs1 : 0 ≤ m / 2 * cyc3 (fun a b c => (a ^ 2 - b ^ 2 + (p + 1 - t + 2 * (q + 1 - t * u ^ 2)) / 3 * a * c -
                (2 * (p + 1 - t) + (q + 1 - t * u ^ 2)) / 3 * b * c + (p + 1 - t - (q + 1 - t * u ^ 2)) / 3 * a * b) ^ 2) (-1) 1 0 :=
                mul_nonneg (by positivity) (cyc3_nonneg_all (fun a b c => sq_nonneg _) _ _ _)
              have hs2 := mul_nonneg hw2 (cyc3_nonneg_all (f := fun a b c : K => a ^ 2 * (b - c) ^ 2) (fun a b c => by positivity) (-1) 1 0)
              have hs3 : t * m * cyc3 (fun a b c => a * b * (a - c - u * (b - c)) ^ 2) (-1) 1 0 = -(t * (m * (1 + u) ^ 2)) := by
                simp only [cyc3]
                ring
              have hs4 : cyc3 (fun a b c : K => a ^ 2 * b * c) (-1) 1 0 = 0 := by simp [cyc3]
              have hs5 : sumA (-1) 1 (0 : K) = 0 := by simp [sumA, cyc3]
              rw [hs3, hs4, hs5] at h0
              have hpos : 0 < m * (1 + u) ^ 2 := by positivity
              have : 0 ≤ t * (m * (1 + u) ^ 2) := by linarith
              exact nonneg_of_mul_nonneg_left this hpos
            refine ⟨?_, ?_, ?_, fun a b c hD => sumA_nonneg hD, fun a b c hD h0 => sumA_pos hD h0⟩
            · intro a b c
              exact hid a b c
            · each_mem
              · dsimp only; positivity
              · exact hw2
              · exact mul_nonneg ht hm.le
              · exact hy
            · each_mem
              · intro a b c _; dsimp only; exact cyc3_nonneg_all (fun a b c => sq_nonneg _) a b c
              · rintro a b c ⟨ha, hb, hc⟩; simp only [cyc3]; positivity
              · rintro a b c ⟨ha, hb, hc⟩; simp only [cyc3]; positivity
              · rintro a b c ⟨ha, hb, hc⟩; simp only [cyc3]; positivity
    · simp at h

/-- AM-GM for three numbers, the nonnegativity of `CyclicSum(a**2*b - abc)`. -/
theorem cyc_amgm (a b c : K) (hD : Octant a b c) : 0 ≤ cyc3 (fun a b c => a ^ 2 * b - prodA a b c) a b c := by
  obtain ⟨C, hC⟩ := amgm_210 (K := K)
  by_cases h0 : a = 0 ∧ b = 0 ∧ c = 0
  · obtain ⟨rfl, rfl, rfl⟩ := h0
    simp [cyc3, prodA, cycp3]
  · have := (amgm_sound hC).nonneg hD h0
    simp only [cycMon, cyc3, prodA, cycp3] at this ⊢
    linarith

theorem cyc_amgm' (a b c : K) (hD : Octant a b c) : 0 ≤ cyc3 (fun a b c => a ^ 2 * c - prodA a b c) a b c := by
  obtain ⟨C, hC⟩ := amgm_201 (K := K)
  by_cases h0 : a = 0 ∧ b = 0 ∧ c = 0
  · obtain ⟨rfl, rfl, rfl⟩ := h0
    simp [cyc3, prodA, cycp3]
  · have := (amgm_sound hC).nonneg hD h0
    simp only [cycMon, cyc3, prodA, cycp3] at this ⊢
    linarith

/-- The divisors of the general cubic theorem are positive when the discriminant condition holds. -/
theorem cubic_divisors {p q : K} (hneg : ¬ (0 ≤ p ∧ 0 ≤ q)) (hdet : 0 ≤ -16 * (p ^ 2 * q ^ 2 + 18 * p * q - 4 * p ^ 3 - 4 * q ^ 3 - 27)) :
    0 < p + q + 3 ∧ 9 - p * q ≠ 0 ∧ 0 < 3 * (p - q) ^ 2 + (6 - p - q) ^ 2 := by
  have hQ : 0 < 3 * (p - q) ^ 2 + (6 - p - q) ^ 2 := by
    by_contra hle
    have h1 : (p - q) ^ 2 = 0 := by nlinarith [sq_nonneg (p - q), sq_nonneg (6 - p - q)]
    have h2 : (6 - p - q) ^ 2 = 0 := by nlinarith [sq_nonneg (p - q), sq_nonneg (6 - p - q)]
    have h3 := pow_eq_zero_iff (two_ne_zero) |>.1 h1
    have h4 := pow_eq_zero_iff (two_ne_zero) |>.1 h2
    exact hneg ⟨by linarith, by linarith⟩
  have hkey : (p + q + 3) * (3 * (p - q) ^ 2 + (6 - p - q) ^ 2) = (9 - p * q) ^ 2 - (p ^ 2 * q ^ 2 + 18 * p * q - 4 * p ^ 3 - 4 * q ^ 3 - 27) := by ring
  have hge : 0 ≤ (p + q + 3) * (3 * (p - q) ^ 2 + (6 - p - q) ^ 2) := by
    rw [hkey]
    nlinarith [sq_nonneg (9 - p * q)]
  have hs : 0 ≤ p + q + 3 := nonneg_of_mul_nonneg_left hge hQ
  have h9 : 9 - p * q ≠ 0 := by
    intro h0
    have hpq : p * q = 9 := by linarith
    rcases lt_or_ge p 0 with hp | hp
    · have hq : q < 0 := by
        by_contra hq
        push Not at hq
        nlinarith
      nlinarith [sq_nonneg (p - q), mul_pos_of_neg_of_neg hp hq]
    · have hq : q < 0 := by
        by_contra hq
        push Not at hq
        exact hneg ⟨hp, hq⟩
      nlinarith
  refine ⟨?_, h9, hQ⟩
  refine lt_of_le_of_ne hs ?_
  intro h0
  rw [← h0, zero_mul] at hkey
  have : 0 < (9 - p * q) ^ 2 := by positivity
  nlinarith

theorem cubicIrrational_sound {f : Cubic K} (hm0 : f.m ≠ 0) {C : Cert K} (h : cubicIrrational f = some C) : Proves OctantTwo f.poly C ∧ 0 ≤ f.m := by
  unfold cubicIrrational at h
  simp only at h
  split at h
  · simp at h
  · rename_i hc
    push Not at hc
    obtain ⟨hm, hrem⟩ := hc
    refine ⟨?_, hm⟩
    split at h
    · rename_i hpq
      rw [← Option.some.inj h]
      apply plain_proves
      · intro a b c
        simp only [List.map_cons, List.map_nil, List.sum_cons, List.sum_nil, cyc3, cycp3, prodA, sumA, Cubic.poly]
        field_simp
        ring
      · each_mem
        · dsimp only; positivity
        · exact hpq.1
        · exact hpq.2
        · exact hrem
      · each_mem
        · intro a b c hD
          exact mul_nonneg (sumA_nonneg hD.1) (cyc3_nonneg_all (fun a b c => sq_nonneg _) a b c)
        · intro a b c hD; exact cyc_amgm a b c hD.1
        · intro a b c hD; exact cyc_amgm' a b c hD.1
        · intro a b c hD; exact prodA_nonneg a b c hD.1
    · rename_i hneg
      split at h
      · simp at h
      · rename_i hdet
        push Not at hdet
        rw [← Option.some.inj h]
        have hmpos : 0 < f.m := lt_of_le_of_ne hm (Ne.symm hm0)
        have hneg' : ¬ (0 ≤ f.p / f.m ∧ 0 ≤ f.q / f.m) := by
          rintro ⟨h1, h2⟩
          apply hneg
          constructor
          · have := mul_nonneg h1 hm
            rwa [div_mul_cancel₀ _ hm0] at this
          · have := mul_nonneg h2 hm
            rwa [div_mul_cancel₀ _ hm0] at this
        have hp : f.p = f.p / f.m * f.m := by field_simp
        have hq : f.q = f.q / f.m * f.m := by field_simp
        have hr : f.r = f.r / f.m * f.m := by field_simp
        have hpoly : f.poly = (⟨f.m, f.p / f.m * f.m, f.q / f.m * f.m, f.r / f.m * f.m⟩ : Cubic K).poly := by rw [← hp, ← hq, ← hr]
        have hr : 3 * (f.m + f.p + f.q) + f.r = 3 * (f.m + f.p / f.m * f.m + f.q / f.m * f.m) + f.r / f.m * f.m := by rw [← hp, ← hq, ← hr]
        rw [hpoly, hr]
        rw [hr] at hrem
        generalize f.p / f.m = p at *
        generalize f.q / f.m = q at *
        generalize f.r / f.m = z at *
        generalize f.m = m at *
        obtain ⟨d1, d2, d3⟩ := cubic_divisors hneg' hdet
        have ht1 : 1 - (9 - p * q) ^ 2 / (p + q + 3) / (3 * (p - q) ^ 2 + (6 - p - q) ^ 2) =
            -(p ^ 2 * q ^ 2 + 18 * p * q - 4 * p ^ 3 - 4 * q ^ 3 - 27) / ((p + q + 3) * (3 * (p - q) ^ 2 + (6 - p - q) ^ 2)) := by
          have e1 := d1.ne'
          have e2 := d3.ne'
          field_simp
          ring
        refine ⟨?_, ?_, ?_, ?_, ?_⟩
        · intro a b c
          simp only [Cert.num, List.map_cons, List.map_nil, List.sum_cons, List.sum_nil]
          have hE : ∀ X Y Z W : K, (9 - p * q) ^ 2 / (p + q + 3) / (3 * (p - q) ^ 2 + (6 - p - q) ^ 2) * (W * (X + (2 * p ^ 2 - 6 * q) / (9 - p * q) * Y +
              (2 * q ^ 2 - 6 * p) / (9 - p * q) * Z) ^ 2) = 1 / ((p + q + 3) * (3 * (p - q) ^ 2 + (6 - p - q) ^ 2)) *
              (W * ((9 - p * q) * X + (2 * p ^ 2 - 6 * q) * Y + (2 * q ^ 2 - 6 * p) * Z) ^ 2) := by
            intro X Y Z W
            have e1 := d1.ne'
            have e2 := d3.ne'
            field_simp
          have hT : (9 - p * q) ^ 2 / (p + q + 3) / (3 * (p - q) ^ 2 + (6 - p - q) ^ 2) =
              1 / ((p + q + 3) * (3 * (p - q) ^ 2 + (6 - p - q) ^ 2)) * (9 - p * q) ^ 2 := by
            have e1 := d1.ne'
            have e2 := d3.ne'
            field_simp
          have he : 1 / ((p + q + 3) * (3 * (p - q) ^ 2 + (6 - p - q) ^ 2)) * ((p + q + 3) * (3 * (p - q) ^ 2 + (6 - p - q) ^ 2)) = 1 :=
            one_div_mul_cancel (by positivity)
          have hS : ∀ T : K, T * m * cyc3 (fun a b c => c * (a ^ 2 - b ^ 2 + (2 * p ^ 2 - 6 * q) / (9 - p * q) * (a * b - a * c) +
              (2 * q ^ 2 - 6 * p) / (9 - p * q) * (b * c - a * b)) ^ 2) a b c =
              m * (T * (c * (a ^ 2 - b ^ 2 + (2 * p ^ 2 - 6 * q) / (9 - p * q) * (a * b - a * c) + (2 * q ^ 2 - 6 * p) / (9 - p * q) * (b * c - a * b)) ^ 2) +
              T * (a * (b ^ 2 - c ^ 2 + (2 * p ^ 2 - 6 * q) / (9 - p * q) * (b * c - b * a) + (2 * q ^ 2 - 6 * p) / (9 - p * q) * (c * a - b * c)) ^ 2) +
              T * (b * (c ^ 2 - a ^ 2 + (2 * p ^ 2 - 6 * q) / (9 - p * q) * (c * a - c * b) + (2 * q ^ 2 - 6 * p) / (9 - p * q) * (a * b - c * a)) ^ 2)) := by
            intro T
            simp only [cyc3]
            ring
          rw [hS, hE, hE, hE, hT]
          generalize 1 / ((p + q + 3) * (3 * (p - q) ^ 2 + (6 - p - q) ^ 2)) = e at he
          simp only [cyc3, cycp3, prodA, Cubic.poly]
          linear_combination -((p + q + 3) * m / 2 * (a * b * c * ((a - b) ^ 2 + (b - c) ^ 2 + (c - a) ^ 2)) +
            m * (c * (a - b) ^ 4 + a * (b - c) ^ 4 + b * (c - a) ^ 4) +
            (3 * (m + p * m + q * m) + z * m) * (a ^ 2 * b ^ 2 * c + b ^ 2 * c ^ 2 * a + c ^ 2 * a ^ 2 * b) -
            (a * b + b * c + c * a) * (m * (a ^ 3 + b ^ 3 + c ^ 3) + p * m * (a ^ 2 * b + b ^ 2 * c + c ^ 2 * a) + q * m * (a * b ^ 2 + b * c ^ 2 + c * a ^ 2) +
              z * m * (a * b * c))) * he
        · each_mem
          · dsimp only; positivity
          · dsimp only; positivity
          · rw [ht1]
            exact mul_nonneg (div_nonneg (by linarith) (by positivity)) hm
          · exact hrem
        · each_mem
          · intro a b c hD
            exact mul_nonneg (prodA_nonneg a b c hD.1) (cyc3_nonneg_all (fun a b c => sq_nonneg _) a b c)
          · rintro a b c ⟨⟨ha, hb, hc⟩, _⟩; simp only [cyc3]; positivity
          · rintro a b c ⟨⟨ha, hb, hc⟩, _⟩; simp only [cyc3]; positivity
          · rintro a b c ⟨⟨ha, hb, hc⟩, _⟩; simp only [cyc3]; positivity
        · intro a b c hD
          exact hD.2.le
        · intro a b c hD _
          exact hD.2

theorem cubic_branches {rational : Bool} {us : List K} {f : Cubic K} {C : Cert K} (h : cubicSolve rational us f = .ok (some C)) :
    Proves OctantTwo f.poly C ∧ 0 ≤ f.m := by
  unfold cubicSolve at h
  split at h
  · rename_i hpq
    obtain ⟨r, h1, h2⟩ := cubicSymmetric_sound hpq
    rw [h1] at h
    obtain ⟨h3, h4⟩ := h2 C (Except.ok.inj h)
    exact ⟨h3.mono fun _ _ _ hd => hd.1, h4⟩
  · split at h
    · rename_i hm
      obtain ⟨r, h1, h2⟩ := cubicDegenerate_sound hm
      rw [h1] at h
      exact ⟨(h2 C (Except.ok.inj h)).mono fun _ _ _ hd => hd.1, hm.symm.le⟩
    · rename_i hm
      split at h
      · exact cubicIrrational_sound hm (Except.ok.inj h)
      · split at h
        · rename_i C' hC'
          rw [← Option.some.inj (Except.ok.inj h)]
          obtain ⟨h3, h4⟩ := cubicParabola_sound hm hC'
          exact ⟨h3.mono fun _ _ _ hd => hd.1, h4⟩
        · obtain ⟨h3, h4⟩ := cubicNontrivial_sound h
          exact ⟨h3.mono fun _ _ _ hd => hd.1, h4⟩

/-- **C48.** An answer of the cyclic cubic solver is an identity with nonnegative weights whose expressions are nonnegative on the octant; the
denominator is positive at every point of the octant with two nonzero coordinates. -/
theorem cubicSolve_sound {rational : Bool} {us : List K} {f : Cubic K} {C : Cert K} (h : cubicSolve rational us f = .ok (some C)) : Proves OctantTwo f.poly C :=
  (cubic_branches h).1

/-- **C48 (nonnegativity).** An answer shows that the cubic is nonnegative on the whole octant. -/
theorem cubicSolve_nonneg {rational : Bool} {us : List K} {f : Cubic K} {C : Cert K} (h : cubicSolve rational us f = .ok (some C)) {a b c : K} (hD : Octant a b c) :
    0 ≤ f.poly a b c := by
  obtain ⟨hP, hm⟩ := cubic_branches h
  obtain ⟨ha, hb, hc⟩ := hD
  by_cases h2 : 0 < a * b + b * c + c * a
  · refine hP.nonneg ⟨⟨ha, hb, hc⟩, h2⟩ ?_
    rintro ⟨rfl, rfl, rfl⟩
    simp at h2
  · have h1 := mul_nonneg ha hb
    have h3 := mul_nonneg hb hc
    have h4 := mul_nonneg hc ha
    have e1 : a * b = 0 := by linarith
    have e2 : b * c = 0 := by linarith
    have e3 : c * a = 0 := by linarith
    have e : f.poly a b c = f.m * (a ^ 3 + b ^ 3 + c ^ 3) := by
      unfold Cubic.poly
      linear_combination (f.p * a + f.q * b + f.r * c) * e1 + (f.p * b + f.q * c) * e2 + (f.p * c + f.q * a) * e3
    rw [e]
    positivity

/-- **C48 (no exception).** The only way to raise is that the search for a rational parameter finds none that passes its check. -/
theorem cubicSolve_error {rational : Bool} {us : List K} {f : Cubic K} {e : PyErr} (h : cubicSolve rational us f = .error e) :
    rational = true ∧ f.m ≠ 0 ∧ f.p ≠ f.q ∧ ∀ u ∈ us, cubicValid (f.p / f.m) (f.q / f.m) u = false := by
  unfold cubicSolve at h
  split at h
  · rename_i hpq
    obtain ⟨r, h1, h2⟩ := cubicSymmetric_sound hpq
    rw [h1] at h
    simp at h
  · rename_i hpq
    split at h
    · rename_i hm
      obtain ⟨r, h1, h2⟩ := cubicDegenerate_sound hm
      rw [h1] at h
      simp at h
    · rename_i hm
      split at h
      · simp at h
      · rename_i hr
        split at h
        · simp at h
        · unfold cubicNontrivial at h
          split at h
          · simp at h
          · simp only at h
            split at h
            · split at h
              · rename_i hu
                refine ⟨by simpa using hr, hm, hpq, ?_⟩
                intro u hu'
                have := List.find?_eq_none.1 hu u hu'
                simpa using this
              · split at h <;> simp at h
            · simp at h

/-- Completeness of the general theorem on cubics, over an ordered field with square roots: a cyclic cubic with positive leading coefficient that is
nonnegative on the octant is always solved. -/
theorem cubicIrrational_complete (hsq : ∀ x : K, 0 ≤ x → ∃ y, 0 ≤ y ∧ y ^ 2 = x) {f : Cubic K} (hm : 0 < f.m)
    (h : ∀ a b c, Octant a b c → 0 ≤ f.poly a b c) : ∃ C, cubicIrrational f = some C := by
  have h111 : 0 ≤ 3 * (f.m + f.p + f.q) + f.r := by
    have := h 1 1 1 ⟨zero_le_one, zero_le_one, zero_le_one⟩
    simp only [Cubic.poly] at this
    linarith
  unfold cubicIrrational
  simp only
  rw [if_neg (by push Not; exact ⟨hm.le, h111⟩)]
  split
  · exact ⟨_, rfl⟩
  · rename_i hneg
    rw [if_neg]
    · exact ⟨_, rfl⟩
    · push Not
      by_contra hdet
      have hx : ∀ x : K, 0 ≤ x → 0 ≤ x ^ 3 + f.p / f.m * x ^ 2 + f.q / f.m * x + 1 := by
        intro x hx
        have h0 := h x 1 0 ⟨hx, zero_le_one, le_refl _⟩
        have e : f.poly x 1 0 = f.m * (x ^ 3 + f.p / f.m * x ^ 2 + f.q / f.m * x + 1) := by
          simp only [Cubic.poly]
          field_simp
          ring
        rw [e] at h0
        exact nonneg_of_mul_nonneg_right h0 hm
      apply hneg
      have hp : 0 ≤ f.p / f.m ∧ 0 ≤ f.q / f.m := by
        generalize f.p / f.m = p at *
        generalize f.q / f.m = q at *
        have hkey : 27 * (p ^ 2 * q ^ 2 + 18 * p * q - 4 * p ^ 3 - 4 * q ^ 3 - 27) = 4 * (p ^ 2 - 3 * q) ^ 3 - (2 * p ^ 3 - 9 * p * q + 27) ^ 2 := by ring
        have h3 : 0 < (p ^ 2 - 3 * q) ^ 3 := by nlinarith [sq_nonneg (2 * p ^ 3 - 9 * p * q + 27)]
        have h1 : 0 < p ^ 2 - 3 * q := by
          by_contra hle
          push Not at hle
          have : (p ^ 2 - 3 * q) ^ 3 ≤ 0 := by
            have e : (p ^ 2 - 3 * q) ^ 3 = (p ^ 2 - 3 * q) * (p ^ 2 - 3 * q) ^ 2 := by ring
            rw [e]
            exact mul_nonpos_of_nonpos_of_nonneg hle (sq_nonneg _)
          linarith
        obtain ⟨s, hs0, hs⟩ := hsq _ h1.le
        have hs3 : (2 * p ^ 3 - 9 * p * q + 27) ^ 2 < (2 * s ^ 3) ^ 2 := by
          have e : (2 * s ^ 3) ^ 2 = 4 * (p ^ 2 - 3 * q) ^ 3 := by rw [← hs]; ring
          rw [e]
          linarith
        have hN : 2 * p ^ 3 - 9 * p * q + 27 < 2 * s ^ 3 := lt_of_pow_lt_pow_left₀ 2 (by positivity) hs3
        have hmin : ((s - p) / 3) ^ 3 + p * ((s - p) / 3) ^ 2 + q * ((s - p) / 3) + 1 = (2 * p ^ 3 - 9 * p * q + 27 - 2 * s ^ 3) / 27 := by
          have hq : q = (p ^ 2 - s ^ 2) / 3 := by rw [hs]; ring
          rw [hq]
          ring
        have hsp : s - p < 0 := by
          by_contra hle
          push Not at hle
          have := hx ((s - p) / 3) (by positivity)
          rw [hmin] at this
          linarith
        have hp0 : 0 ≤ p := by linarith
        refine ⟨hp0, ?_⟩
        nlinarith
      constructor
      · have := mul_nonneg hp.1 hm.le
        rwa [div_mul_cancel₀ _ hm.ne'] at this
      · have := mul_nonneg hp.2 hm.le
        rwa [div_mul_cancel₀ _ hm.ne'] at this

/-- **C48 (completeness).** Over the real numbers the solver for irrational coefficients answers exactly the cubics that are nonnegative on the octant. -/
theorem cubicSolve_complete (us : List ℝ) (f : Cubic ℝ) :
    (∃ C, cubicSolve false us f = .ok (some C)) ↔ ∀ a b c : ℝ, Octant a b c → 0 ≤ f.poly a b c := by
  constructor
  · rintro ⟨C, hC⟩ a b c hD
    exact cubicSolve_nonneg hC hD
  · intro h
    have h100 := h 1 0 0 ⟨zero_le_one, le_refl _, le_refl _⟩
    have h110 := h 1 1 0 ⟨zero_le_one, zero_le_one, le_refl _⟩
    have h111 := h 1 1 1 ⟨zero_le_one, zero_le_one, zero_le_one⟩
    have e100 : f.poly 1 0 0 = f.m := by simp [Cubic.poly]
    have e110 : f.poly 1 1 0 = 2 * f.m + f.p + f.q := by simp only [Cubic.poly]; ring
    have e111 : f.poly 1 1 1 = 3 * f.m + 3 * f.p + 3 * f.q + f.r := by simp only [Cubic.poly]; ring
    rw [e100] at h100
    rw [e110] at h110
    rw [e111] at h111
    unfold cubicSolve
    split
    · rename_i hpq
      unfold cubicSymmetric
      simp only
      split
      · exact ⟨_, rfl⟩
      · rw [if_pos ⟨h100, by linarith, by linarith⟩]
        exact ⟨_, rfl⟩
    · split
      · rename_i hpq hm
        have hx : ∀ x : ℝ, 0 ≤ x → 0 ≤ f.p * x ^ 2 + f.q * x := by
          intro x hx
          have := h x 1 0 ⟨hx, zero_le_one, le_refl _⟩
          simp only [Cubic.poly, hm] at this
          linarith
        have hp : 0 ≤ f.p := by
          by_contra hp
          push Not at hp
          have := hx ((|f.q| + 1) / -f.p) (div_nonneg (by positivity) (by linarith))
          have e : f.p * ((|f.q| + 1) / -f.p) ^ 2 + f.q * ((|f.q| + 1) / -f.p) = (|f.q| + 1) / -f.p * (f.q - |f.q| - 1) := by
            have : f.p ≠ 0 := hp.ne
            field_simp
            ring
          rw [e] at this
          have h1 : 0 < (|f.q| + 1) / -f.p := div_pos (by positivity) (by linarith)
          have h2 : f.q - |f.q| - 1 < 0 := by linarith [le_abs_self f.q]
          nlinarith [mul_neg_of_pos_of_neg h1 h2]
        have hq : 0 ≤ f.q := by
          by_contra hq
          push Not at hq
          have hd : 0 < 2 * f.p + 1 := by linarith
          have h1 : 0 < -f.q / (2 * f.p + 1) := div_pos (by linarith) hd
          have := hx (-f.q / (2 * f.p + 1)) h1.le
          have e : f.p * (-f.q / (2 * f.p + 1)) ^ 2 + f.q * (-f.q / (2 * f.p + 1)) = -f.q / (2 * f.p + 1) * (f.q * (f.p + 1) / (2 * f.p + 1)) := by
            field_simp
            ring
          rw [e] at this
          have h2 : f.q * (f.p + 1) / (2 * f.p + 1) < 0 := div_neg_of_neg_of_pos (mul_neg_of_neg_of_pos hq (by linarith)) hd
          nlinarith [mul_neg_of_pos_of_neg h1 h2]
        unfold cubicDegenerate
        simp only
        rw [if_neg (by push Not; exact ⟨hp, hq, by linarith⟩), if_neg hpq]
        exact ⟨_, rfl⟩
      · rename_i hm
        obtain ⟨C, hC⟩ := cubicIrrational_complete (fun x hx => ⟨Real.sqrt x, Real.sqrt_nonneg x, Real.sq_sqrt hx⟩) (lt_of_le_of_ne h100 (Ne.symm hm)) h
        exact ⟨C, by rw [if_pos rfl, hC]⟩

/-- The four numbers read by the solver determine a cyclic cubic polynomial. -/
theorem cubic_ofCoeff (co : Coeff K) (h : co.WF) (hn : co.nvars = 3) (hd : co.Hom 3) (hc : co.isCyclicDefault = true) (a b c : K) :
    Coeff.evalDict co.coeffs [a, b, c] = (Cubic.ofCoeff co).poly a b c := by
  have hrot := (Coeff.isCyclicDefault_iff co h (by omega)).1 hc
  rw [Coeff.evalDict_hom co h 3 hd, hn]
  have e : generatePartitions 3 3 true = [[3, 0, 0], [2, 1, 0], [2, 0, 1], [1, 2, 0], [1, 1, 1], [1, 0, 2], [0, 3, 0], [0, 2, 1], [0, 1, 2], [0, 0, 3]] := by
    decide +kernel
  have r1 : ∀ x y z : ℕ, co.call [y, z, x] = co.call [x, y, z] := fun x y z => hrot [x, y, z] 1 (by simp [hn])
  have r2 : ∀ x y z : ℕ, co.call [z, x, y] = co.call [x, y, z] := fun x y z => hrot [x, y, z] 2 (by simp [hn])
  rw [e]
  simp only [List.map_cons, List.map_nil, List.sum_cons, List.sum_nil, Coeff.evalMonom, List.zipWith_cons_cons, List.zipWith_nil_right,
    List.prod_cons, List.prod_nil, Cubic.poly, Cubic.ofCoeff]
  rw [r1 3 0 0, r2 3 0 0, r1 2 1 0, r2 2 1 0, r1 1 2 0, r2 1 2 0]
  ring

/-- **C48 (on polynomials).** For every cyclic cubic polynomial in three variables an answer of the solver is an identity for it and shows that it is
nonnegative on the octant. -/
theorem cubicSolve_polynomial (rational : Bool) (us : List K) (co : Coeff K) (h : co.WF) (hn : co.nvars = 3) (hd : co.Hom 3) (hc : co.isCyclicDefault = true)
    {C : Cert K} (hs : cubicSolve rational us (Cubic.ofCoeff co) = .ok (some C)) (a b c : K) :
    C.num a b c = C.den a b c * Coeff.evalDict co.coeffs [a, b, c] ∧ (Octant a b c → 0 ≤ Coeff.evalDict co.coeffs [a, b, c]) := by
  rw [cubic_ofCoeff co h hn hd hc]
  exact ⟨(cubicSolve_sound hs).identity a b c, cubicSolve_nonneg hs⟩

/-- `CyclicSum(a^3 + 2*a^2*b - 3*a*b^2)`. -/
def exCubicCoeff : Coeff ℚ := ⟨[([3, 0, 0], 1), ([0, 3, 0], 1), ([0, 0, 3], 1), ([2, 1, 0], 2), ([0, 2, 1], 2), ([1, 0, 2], 2),
  ([2, 0, 1], -3), ([1, 2, 0], -3), ([0, 1, 2], -3)], 3⟩
example : exCubicCoeff.WF ∧ exCubicCoeff.Hom 3 ∧ exCubicCoeff.isCyclicDefault = true := by
  exact ⟨⟨by decide, by decide⟩, by unfold Coeff.Hom; decide, by decide +kernel⟩
example : (match cubicSolve true [1 / 2, 2 / 3, 3 / 4, 1, 5 / 4, 4 / 3, 3 / 2, 5 / 3, 2] (Cubic.ofCoeff exCubicCoeff) with | .ok (some _) => true | _ => false) = true := by decide +kernel
example : (match cubicSymmetric (⟨1, -1, -1, 3⟩ : Cubic ℚ) with | .ok (some _) => true | _ => false) = true := by decide +kernel
example : (match cubicDegenerate (⟨0, 1, 2, -9⟩ : Cubic ℚ) with | .ok (some _) => true | _ => false) = true := by decide +kernel
example : (cubicParabola (⟨1, 3, 1, -15⟩ : Cubic ℚ)).isSome = true := by decide +kernel
example : (cubicIrrational (⟨1, -2, 1, 0⟩ : Cubic ℚ)).isSome = true := by decide +kernel

end Verif.Ternary
