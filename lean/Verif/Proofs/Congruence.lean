import Verif.Model.Congruence
import Mathlib.Tactic.Ring
import Mathlib.Tactic.Linarith
import Mathlib.Tactic.FieldSimp
import Mathlib.Algebra.Order.BigOperators.Group.Finset
import Mathlib.Algebra.BigOperators.Intervals
import Mathlib.Algebra.BigOperators.Ring.Finset

namespace Verif
open Finset

variable {K : Type*} [Field K] [LinearOrder K] [IsStrictOrderedRing K]

/-- quadratic form of the trailing block -/
def blockForm (n i : ℕ) (M : ℕ → ℕ → K) (x : ℕ → K) : K :=
  ∑ r ∈ Ico i n, ∑ c ∈ Ico i n, x r * M r c * x c

/-- Completing the square in the first variable of the block. -/
lemma blockForm_pivot (n i : ℕ) (hi : i < n) (M M' : ℕ → ℕ → K) (s : K) (hs : s ≠ 0)
    (hM : M i i = s)
    (hsym : ∀ r, i ≤ r → r < n → M r i = M i r)
    (hM' : ∀ r c, i < r → r < n → i < c → c < n → M' r c = M r c - M i r / s * (M i c / s * s))
    (x : ℕ → K) :
    blockForm n i M x = s * (x i + ∑ c ∈ Ico (i+1) n, M i c / s * x c)^2 + blockForm n (i+1) M' x := by
  unfold blockForm
  rw [sum_eq_sum_Ico_succ_bot hi]
  have h1 : ∑ c ∈ Ico i n, x i * M i c * x c
      = x i * s * x i + x i * s * ∑ c ∈ Ico (i+1) n, M i c / s * x c := by
    rw [sum_eq_sum_Ico_succ_bot hi, hM, mul_sum]
    congr 1
    apply sum_congr rfl; intro c _; field_simp
  have h2 : ∀ r ∈ Ico (i+1) n, ∑ c ∈ Ico i n, x r * M r c * x c
      = x r * M i r * x i + ∑ c ∈ Ico (i+1) n, (x r * M' r c * x c
          + s * (M i r / s * x r) * (M i c / s * x c)) := by
    intro r hr
    rw [mem_Ico] at hr
    rw [sum_eq_sum_Ico_succ_bot hi, hsym r (by omega) (by omega)]
    congr 1
    apply sum_congr rfl; intro c hc
    rw [mem_Ico] at hc
    rw [hM' r c (by omega) (by omega) (by omega) (by omega)]
    field_simp; ring
  rw [h1, sum_congr rfl h2]
  simp only [sum_add_distrib]
  have h3 : ∑ r ∈ Ico (i+1) n, x r * M i r * x i = x i * s * ∑ c ∈ Ico (i+1) n, M i c / s * x c := by
    rw [mul_sum]; apply sum_congr rfl; intro c _; field_simp
  have h4 : ∑ r ∈ Ico (i+1) n, ∑ c ∈ Ico (i+1) n, s * (M i r / s * x r) * (M i c / s * x c)
      = s * (∑ c ∈ Ico (i+1) n, M i c / s * x c)^2 := by
    rw [pow_two, sum_mul_sum, mul_sum]
    apply sum_congr rfl; intro r _
    rw [mul_sum]; apply sum_congr rfl; intro c _; ring
  rw [h3, h4]; ring

/-- Loop invariant after rows `0..i-1` have been processed. -/
structure CongInv (n : ℕ) (M0 : ℕ → ℕ → K) (i : ℕ) (st : CongState K) : Prop where
  sym : ∀ r c, i ≤ r → r < n → i ≤ c → c < n → st.M r c = st.M c r
  dec : ∀ r c, r < n → c < n →
    M0 r c = (∑ k ∈ range i, st.U k r * st.S k * st.U k c) + (if i ≤ r ∧ i ≤ c then st.M r c else 0)
  nonneg : ∀ k, k < i → 0 ≤ st.S k
  upper : ∀ k c, c < k → st.U k c = 0
  later : ∀ k c, i ≤ k → st.U k c = 0
  laterS : ∀ k, i ≤ k → st.S k = 0

lemma congStep_inv {n i : ℕ} (hi : i < n) {M0 : ℕ → ℕ → K} {st st' : CongState K}
    (h : CongInv n M0 i st) (hs : congStep n i st = some st') : CongInv n M0 (i+1) st' := by
  unfold congStep at hs
  split_ifs at hs with h1 h2 h3
  · -- positive pivot
    simp only [Option.some.injEq] at hs
    subst hs
    have hne : st.M i i ≠ 0 := ne_of_gt h1
    refine ⟨?_, ?_, ?_, ?_, ?_, ?_⟩
    · intro r c hr hrn hc hcn
      have hri : i < r := by omega
      have hci : i < c := by omega
      have e1 : (r = i) = False := by simp; omega
      have e2 : (c = i) = False := by simp; omega
      simp only [hri, hci, hrn, hcn, and_self, if_true, e1, e2, if_false]
      rw [h.sym r c (by omega) hrn (by omega) hcn]
      ring
    · intro r c hr hc
      rw [h.dec r c hr hc, sum_range_succ]
      have hpre : ∑ k ∈ range i, st.U k r * st.S k * st.U k c
          = ∑ k ∈ range i,
            (if k = i then (if r = i then (1:K) else if i < r ∧ r < n then st.M i r / st.M i i else st.U k r)
              else st.U k r) * (if k = i then st.M i i else st.S k) *
            (if k = i then (if c = i then (1:K) else if i < c ∧ c < n then st.M i c / st.M i i else st.U k c)
              else st.U k c) := by
        apply sum_congr rfl
        intro k hk
        have : k ≠ i := by have := mem_range.mp hk; omega
        simp [this]
      simp only [if_true]
      rw [← hpre, add_assoc]
      congr 1
      by_cases hri : r = i
      · subst hri
        by_cases hci : c = r
        · subst hci; simp
        · by_cases hlt : r < c
          · have : ¬ (c ≤ r) := by omega
            simp only [hci, if_false, hlt, hc, and_self, if_true, le_refl, le_of_lt hlt]
            have h2 : ¬ (r + 1 ≤ r ∧ r + 1 ≤ c) := by omega
            rw [if_neg h2]; field_simp; ring
          · have h2 : ¬ (r ≤ r ∧ r ≤ c) := by omega
            have h3 : ¬ (r + 1 ≤ r ∧ r + 1 ≤ c) := by omega
            rw [if_neg h2, if_neg h3]
            simp [hci, hlt, h.later r c le_rfl]
      · by_cases hrl : i < r
        · by_cases hci : c = i
          · subst hci
            simp only [hri, if_false, hrl, hr, and_self, if_true]
            have h3 : ¬ (c + 1 ≤ r ∧ c + 1 ≤ c) := by omega
            rw [if_neg h3, if_pos ⟨le_of_lt hrl, le_rfl⟩, h.sym r c (le_of_lt hrl) hr le_rfl hc]
            field_simp; ring
          · by_cases hlt : i < c
            · simp only [hri, hci, if_false, hrl, hr, hlt, hc, and_self, if_true]
              rw [if_pos ⟨le_of_lt hrl, le_of_lt hlt⟩, if_pos ⟨by omega, by omega⟩]
              field_simp; ring
            · have h2 : ¬ (i ≤ r ∧ i ≤ c) := by omega
              have h3 : ¬ (i + 1 ≤ r ∧ i + 1 ≤ c) := by omega
              rw [if_neg h2, if_neg h3]
              simp [hci, hlt, h.later i c le_rfl]
        · have h2 : ¬ (i ≤ r ∧ i ≤ c) := by omega
          have h3 : ¬ (i + 1 ≤ r ∧ i + 1 ≤ c) := by omega
          rw [if_neg h2, if_neg h3]
          simp [hri, hrl, h.later i r le_rfl]
    · intro k hk
      by_cases hki : k = i
      · simp [hki, le_of_lt h1]
      · simp only [hki, if_false]; exact h.nonneg k (by omega)
    · intro k c hc
      by_cases hki : k = i
      · subst hki
        have e2 : ¬ c = k := by omega
        have e3 : ¬ k < c := by omega
        simp [e2, e3, h.upper k c hc]
      · simp only [hki, if_false]; exact h.upper k c hc
    · intro k c hk
      have : k ≠ i := by omega
      simp only [this, if_false]
      exact h.later k c (by omega)
    · intro k hk
      have : k ≠ i := by omega
      simp only [this, if_false]
      exact h.laterS k (by omega)
  · -- zero pivot with zero column
    simp only [Option.some.injEq] at hs
    subst hs
    have hz : st.M i i = 0 := le_antisymm (not_lt.mp h1) (not_lt.mp h2)
    have hcol : ∀ r, i < r → r < n → st.M r i = 0 := by
      intro r hr hrn
      by_contra hne
      apply h3
      rw [List.any_eq_true]
      exact ⟨r, List.mem_range.mpr hrn, by simp [hr, hne]⟩
    refine ⟨?_, ?_, ?_, h.upper, ?_, ?_⟩
    · intro r c hr hrn hc hcn; exact h.sym r c (by omega) hrn (by omega) hcn
    · intro r c hr hc
      rw [h.dec r c hr hc, sum_range_succ, add_assoc]
      congr 1
      rw [h.later i r le_rfl]
      simp only [zero_mul, zero_add]
      by_cases h5 : i + 1 ≤ r ∧ i + 1 ≤ c
      · rw [if_pos h5, if_pos ⟨by omega, by omega⟩]
      · rw [if_neg h5]
        by_cases h6 : i ≤ r ∧ i ≤ c
        · rw [if_pos h6]
          by_cases hri : r = i
          · subst hri
            by_cases hci : c = r
            · subst hci; exact hz
            · rw [h.sym r c le_rfl hr h6.2 hc]; exact hcol c (by omega) hc
          · have hci : c = i := by omega
            subst hci; exact hcol r (by omega) hr
        · rw [if_neg h6]
    · intro k hk
      by_cases hki : k = i
      · subst hki
        exact le_of_eq (h.laterS k le_rfl).symm
      · exact h.nonneg k (by omega)
    · intro k c hk; exact h.later k c (by omega)
    · intro k hk; exact h.laterS k (by omega)

lemma congLoop_inv {n : ℕ} {M0 : ℕ → ℕ → K} : ∀ (k i : ℕ) (st st' : CongState K), i + k < n →
    CongInv n M0 i st → congLoop n i k st = some st' → CongInv n M0 (i + k) st'
  | 0, i, st, st', _, h, hs => by
      simp only [congLoop, Option.some.injEq] at hs; subst hs; simpa using h
  | k + 1, i, st, st', hlt, h, hs => by
      simp only [congLoop, Option.bind_eq_some_iff] at hs
      obtain ⟨st1, h1, h2⟩ := hs
      have := congLoop_inv k (i+1) st1 st' (by omega) (congStep_inv (by omega) h h1) h2
      have e : i + (k + 1) = i + 1 + k := by omega
      rw [e]; exact this

omit [IsStrictOrderedRing K] in
lemma congInv_init {n : ℕ} {M0 : ℕ → ℕ → K} (hsym : ∀ r c, r < n → c < n → M0 r c = M0 c r) :
    CongInv n M0 0 ⟨M0, fun _ _ => 0, fun _ => 0⟩ :=
  ⟨fun r c _ hr _ hc => hsym r c hr hc, fun r c _ _ => by simp, fun k hk => by omega,
    fun _ _ _ => rfl, fun _ _ _ => rfl, fun _ _ => rfl⟩

/-- positive semidefiniteness of the trailing block is preserved, and the step does not fail -/
lemma congStep_psd {n i : ℕ} (hi : i < n) {st : CongState K}
    (hsym : ∀ r c, i ≤ r → r < n → i ≤ c → c < n → st.M r c = st.M c r)
    (hpsd : ∀ x : ℕ → K, 0 ≤ blockForm n i st.M x) :
    ∃ st', congStep n i st = some st' ∧ ∀ x : ℕ → K, 0 ≤ blockForm n (i+1) st'.M x := by
  -- value of the form on vectors supported on two coordinates
  have hsingle : ∀ t : K, blockForm n i st.M (fun k => if k = i then t else 0) = t * st.M i i * t := by
    intro t
    unfold blockForm
    rw [sum_eq_single_of_mem i (by rw [mem_Ico]; omega)]
    · rw [sum_eq_single_of_mem i (by rw [mem_Ico]; omega)]
      · simp
      · intro c _ hc; simp [hc]
    · intro r _ hr; simp [hr]
  have hnn : 0 ≤ st.M i i := by
    have := hpsd (fun k => if k = i then 1 else 0)
    rw [hsingle] at this; simpa using this
  unfold congStep
  by_cases h1 : 0 < st.M i i
  · rw [if_pos h1]
    refine ⟨_, rfl, ?_⟩
    intro x
    have hne : st.M i i ≠ 0 := ne_of_gt h1
    set L : K := ∑ c ∈ Ico (i+1) n, st.M i c / st.M i i * x c with hL
    let y : ℕ → K := fun k => if k = i then -L else x k
    have hy := hpsd y
    rw [blockForm_pivot n i hi st.M (fun r c => if (i < r ∧ r < n) ∧ (i < c ∧ c < n) then
          st.M r c - (if r = i then (1:K) else if i < r ∧ r < n then st.M i r / st.M i i else st.U i r)
            * ((if c = i then (1:K) else if i < c ∧ c < n then st.M i c / st.M i i else st.U i c)
              * st.M i i) else st.M r c) (st.M i i) hne rfl
      (fun r hr hrn => hsym r i hr hrn le_rfl hi) ?_ y] at hy
    · have e1 : ∑ c ∈ Ico (i+1) n, st.M i c / st.M i i * y c = L := by
        rw [hL]; apply sum_congr rfl; intro c hc
        have : c ≠ i := by rw [mem_Ico] at hc; omega
        simp [y, this]
      rw [e1] at hy
      have e2 : y i = -L := by simp [y]
      rw [e2] at hy
      simp only [neg_add_cancel] at hy
      have e3 : ∀ A : ℕ → ℕ → K, blockForm n (i+1) A y = blockForm n (i+1) A x := by
        intro A; unfold blockForm
        apply sum_congr rfl; intro r hr
        apply sum_congr rfl; intro c hc
        rw [mem_Ico] at hr hc
        have h5 : r ≠ i := by omega
        have h6 : c ≠ i := by omega
        simp [y, h5, h6]
      rw [e3] at hy
      simpa using hy
    · intro r c hr hrn hc hcn
      have e1 : r ≠ i := by omega
      have e2 : c ≠ i := by omega
      simp [hr, hrn, hc, hcn, e1, e2]
  · have hz : st.M i i = 0 := le_antisymm (not_lt.mp h1) hnn
    rw [if_neg h1, if_neg (by rw [hz]; exact lt_irrefl _)]
    have hcol : ∀ r, i < r → r < n → st.M r i = 0 := by
      intro r hr hrn
      by_contra hne
      -- the vector t e_i + e_r has value 2 t M r i + M r r
      have hval : ∀ t : K, blockForm n i st.M (fun k => if k = i then t else if k = r then 1 else 0)
          = 2 * t * st.M r i + st.M r r := by
        intro t
        have hir : ¬ r = i := by omega
        have hrow : ∀ a : ℕ, ∑ c ∈ Ico i n, st.M a c * (if c = i then t else if c = r then (1:K) else 0)
            = st.M a i * t + st.M a r := by
          intro a
          rw [sum_eq_add_of_mem i r (by rw [mem_Ico]; omega) (by rw [mem_Ico]; omega) (by omega)]
          · simp [hir]
          · intro c _ hc; simp [hc.1, hc.2]
        unfold blockForm
        have : ∀ a ∈ Ico i n, ∑ c ∈ Ico i n, (if a = i then t else if a = r then (1:K) else 0) * st.M a c
              * (if c = i then t else if c = r then (1:K) else 0)
            = (if a = i then t else if a = r then (1:K) else 0) * (st.M a i * t + st.M a r) := by
          intro a _
          rw [← hrow a, mul_sum]; apply sum_congr rfl; intro c _; ring
        rw [sum_congr rfl this]
        rw [sum_eq_add_of_mem i r (by rw [mem_Ico]; omega) (by rw [mem_Ico]; omega) (by omega)]
        · rw [hz, hsym i r le_rfl hi (le_of_lt hr) hrn]; simp [hir]; ring
        · intro c _ hc; simp [hc.1, hc.2]
      have := hpsd (fun k => if k = i then (-(st.M r r + 1) / (2 * st.M r i)) else if k = r then 1 else 0)
      rw [hval] at this
      have e : 2 * (-(st.M r r + 1) / (2 * st.M r i)) * st.M r i = -(st.M r r + 1) := by
        field_simp
      rw [e] at this
      linarith
    have h3 : ¬ ((List.range n).any (fun r => decide (i < r) && decide (st.M r i ≠ 0)) = true) := by
      rw [List.any_eq_true]
      rintro ⟨r, hr, hb⟩
      simp only [Bool.and_eq_true, decide_eq_true_eq] at hb
      exact hb.2 (hcol r hb.1 (List.mem_range.mp hr))
    rw [if_neg h3]
    refine ⟨st, rfl, fun x => ?_⟩
    have := hpsd x
    unfold blockForm at this ⊢
    rw [sum_eq_sum_Ico_succ_bot hi, sum_eq_sum_Ico_succ_bot hi] at this
    have e1 : ∑ c ∈ Ico (i+1) n, x i * st.M i c * x c = 0 := by
      apply sum_eq_zero; intro c hc; rw [mem_Ico] at hc
      rw [hsym i c le_rfl hi (by omega) (by omega), hcol c (by omega) (by omega)]; ring
    have e2 : ∑ r ∈ Ico (i+1) n, ∑ c ∈ Ico i n, x r * st.M r c * x c
        = ∑ r ∈ Ico (i+1) n, ∑ c ∈ Ico (i+1) n, x r * st.M r c * x c := by
      apply sum_congr rfl; intro r hr; rw [mem_Ico] at hr
      rw [sum_eq_sum_Ico_succ_bot hi, hcol r (by omega) (by omega)]; ring
    rw [e1, e2, hz] at this
    simpa using this

lemma congLoop_psd {n : ℕ} {M0 : ℕ → ℕ → K} : ∀ (k i : ℕ) (st : CongState K), i + k < n →
    CongInv n M0 i st → (∀ x : ℕ → K, 0 ≤ blockForm n i st.M x) →
    ∃ st', congLoop n i k st = some st' ∧ ∀ x : ℕ → K, 0 ≤ blockForm n (i + k) st'.M x
  | 0, i, st, _, _, hp => ⟨st, rfl, by simpa using hp⟩
  | k + 1, i, st, hlt, h, hp => by
      obtain ⟨st1, h1, hp1⟩ := congStep_psd (by omega) h.sym hp
      obtain ⟨st2, h2, hp2⟩ := congLoop_psd k (i+1) st1 (by omega) (congStep_inv (by omega) h h1) hp1
      refine ⟨st2, ?_, ?_⟩
      · simp only [congLoop, h1, Option.bind_some]; exact h2
      · have e : i + (k + 1) = i + 1 + k := by omega
        rw [e]; exact hp2

end Verif
