import Verif.Proofs.Univariate
import Mathlib.Data.Rat.Defs
import Mathlib.Algebra.Order.Ring.Rat
import Mathlib.Tactic.Positivity
import Mathlib.Tactic.FieldSimp
import Mathlib.Tactic.NormNum

/-!
# C18, C20: the univariate prover
-/

set_option linter.unusedSectionVars false

namespace Verif.Univariate
open Verif Finset

variable {K : Type*} [Field K] [LinearOrder K] [IsStrictOrderedRing K]

/-- **C20 (one matrix).** If the polynomial has the degree that fits the matrix, the filled matrix is symmetric and
`v^T M v = f(x)` for `v = (x^{n-1},...,x,1)`; the entries off the three central diagonals are the ones chosen. -/
theorem determine_gram (n : ℕ) (R M : ℕ → ℕ → K) (f : UPoly K) (hl : (allCoeffs f).length = 2 * n - 1)
    (h : determine n (symOff R) f = .ok M) :
    (∀ r c, r < n → c < n → M r c = M c r) ∧
    (∀ r c, r + 2 ≤ c → M r c = R r c) ∧
    ∀ x, quadForm n M (fun i => x ^ (n - 1 - i)) = uev f x := by
  unfold determine at h
  obtain ⟨h1, h2, h3⟩ := detLoop_spec n (allCoeffs f) (symOff R) _ 0 (symOff R) M
    (fun _ _ _ => rfl) (fun m hm => absurd hm (by omega)) (fun m hm => absurd hm (by omega)) h
  rw [hl, zero_add] at h2 h3
  have hpos : 1 ≤ n := by
    have : 0 < (allCoeffs f).length := by
      unfold allCoeffs
      split
      · simp
      · rename_i hne
        rw [List.length_reverse]
        exact List.length_pos_of_ne_nil (by intro h0; exact hne h0)
    omega
  have hsym : ∀ r c, r < n → c < n → M r c = M c r := by
    intro r c hr hc
    rcases lt_trichotomy r c with hlt | heq | hlt
    · by_cases hrc : r + 2 ≤ c
      · rw [h1 r c (Or.inl hrc), h1 c r (Or.inr hrc)]
        unfold symOff
        rw [if_neg (by omega), if_pos hrc]
      · obtain rfl : c = r + 1 := by omega
        exact ((h3 r (by omega)).2).symm
    · rw [heq]
    · by_cases hrc : c + 2 ≤ r
      · rw [h1 r c (Or.inr hrc), h1 c r (Or.inl hrc)]
        unfold symOff
        rw [if_pos hrc, if_neg (by omega)]
      · obtain rfl : r = c + 1 := by omega
        exact (h3 c (by omega)).2
  refine ⟨hsym, ?_, ?_⟩
  · intro r c hrc
    rw [h1 r c (Or.inl hrc)]
    unfold symOff
    rw [if_neg (by omega)]
  · intro x
    rw [quadForm_fibers n M hsym, ← uev_allCoeffs f x, uev_reverse (allCoeffs f) x (2 * n - 2) (by omega)]
    rw [show 2 * n - 2 + 1 = 2 * n - 1 by omega]
    apply Finset.sum_congr rfl
    intro k hk
    rw [mem_range] at hk
    congr 1
    unfold minorCoeff
    simp only
    have hM : ∀ r c, r + 2 ≤ c → M r c = symOff R r c := fun r c hrc => h1 r c (Or.inl hrc)
    by_cases he : k % 2 = 0
    · rw [if_pos he, h2 (k/2) (by omega), evenSum_congr n _ M (symOff R) hM, show 2 * (k/2) = k by omega]
      ring
    · rw [if_neg he, (h3 (k/2) (by omega)).1, oddSum_congr n _ M (symOff R) hM, show 2 * (k/2) + 1 = k by omega]
      ring

/-- A polynomial of too large a degree raises, it is never mis-assigned. -/
theorem detLoop_error (n : ℕ) (cs : List K) (k i : ℕ) (M : ℕ → ℕ → K) (hn : 2 * n - 1 < i + k) (hi : i ≤ 2 * n - 1)
    : detLoop n cs i k M = .error .indexError := by
  induction k generalizing i M with
  | zero => omega
  | succ k ih =>
    unfold detLoop
    by_cases hi2 : i = 2 * n - 1
    · have : detStep n cs M i = .error .indexError := by
        unfold detStep
        simp only
        by_cases he : i % 2 = 0
        · rw [if_pos he, if_pos (by omega)]
        · rw [if_neg he, if_pos (by omega)]
      rw [this]
    · have : ∃ M', detStep n cs M i = .ok M' := by
        unfold detStep
        simp only
        by_cases he : i % 2 = 0
        · rw [if_pos he, if_neg (by omega)]; exact ⟨_, rfl⟩
        · rw [if_neg he, if_neg (by omega)]; exact ⟨_, rfl⟩
      obtain ⟨M', hM'⟩ := this
      rw [hM']
      exact ih (i + 1) M' (by omega) (by omega)

theorem determine_error (n : ℕ) (M : ℕ → ℕ → K) (f : UPoly K) (hl : 2 * n - 1 < (allCoeffs f).length) :
    determine n M f = .error .indexError :=
  detLoop_error n _ _ 0 M (by omega) (by omega)

/-- The minor polynomial is `x * v^T M v`. -/
theorem uev_minorPoly (n : ℕ) (M : ℕ → ℕ → K) (hn : 1 ≤ n) (hs : ∀ r c, r < n → c < n → M r c = M c r) (x : K) :
    uev (minorPoly n M) x = x * quadForm n M (fun i => x ^ (n - 1 - i)) := by
  unfold minorPoly
  rw [uev_cons, zero_add, quadForm_fibers n M hs,
    uev_reverse ((List.range (2 * n - 1)).map (minorCoeff n M)) x (2 * n - 2) (by simp; omega)]
  rw [show 2 * n - 2 + 1 = 2 * n - 1 by omega]
  congr 1
  apply Finset.sum_congr rfl
  intro k hk
  rw [mem_range] at hk
  congr 1
  rw [List.getD_eq_getElem?_getD, List.getElem?_map, List.getElem?_range hk]
  rfl

theorem symFull_symm (R : ℕ → ℕ → K) (r c : ℕ) : symFull R r c = symFull R c r := by
  unfold symFull
  by_cases h : r = c
  · rw [h]
  · by_cases h1 : c ≤ r
    · rw [if_pos h1, if_neg (by omega)]
    · rw [if_neg h1, if_pos (by omega)]

theorem uev_row (n : ℕ) (u : ℕ → K) (x : K) :
    uev ((List.range n).map fun i => u (n - 1 - i)) x = ∑ c ∈ range n, u c * x ^ (n - 1 - c) := by
  rw [uev_eq_sum _ x n (by simp), ← Finset.sum_range_reflect]
  apply Finset.sum_congr rfl
  intro k hk
  rw [mem_range] at hk
  have : ((List.range n).map fun i => u (n - 1 - i)).getD (n - 1 - k) 0 = u k := by
    rw [List.getD_eq_getElem?_getD, List.getElem?_map, List.getElem?_range (by omega)]
    simp only [Option.map_some, Option.getD_some]
    congr 1; omega
  rw [this]

theorem sosVal_sosOfUS (n : ℕ) (U : ℕ → ℕ → K) (S : ℕ → K) (x : K) :
    sosVal (sosOfUS n U S) x = ∑ k ∈ range n, S k * (∑ c ∈ range n, U k c * x ^ (n - 1 - c)) ^ 2 := by
  unfold sosVal sosOfUS
  rw [List.map_map, list_range_sum]
  apply Finset.sum_congr rfl
  intro k _
  simp only [Function.comp]
  rw [uev_row]

/-- Weights of a proof are nonnegative. -/
def SosNonneg (L : Sos K) : Prop := ∀ cp ∈ L, 0 ≤ cp.1

theorem sosVal_nonneg (L : Sos K) (h : SosNonneg L) (x : K) : 0 ≤ sosVal L x := by
  unfold sosVal
  apply List.sum_nonneg
  intro v hv
  rw [List.mem_map] at hv
  obtain ⟨cp, hcp, rfl⟩ := hv
  exact mul_nonneg (h cp hcp) (sq_nonneg _)

/-- A raw proof is good for `f`: value `f(x)` at every point and nonnegative weights. -/
def RawGood (R : Raw K) (f : UPoly K) : Prop :=
  (∀ x, rawVal R x = uev f x) ∧ ∀ e ∈ R, SosNonneg e.2

theorem sosOfUS_nonneg (n : ℕ) (U : ℕ → ℕ → K) (S : ℕ → K) (h : ∀ k, k < n → 0 ≤ S k) : SosNonneg (sosOfUS n U S) := by
  intro cp hcp
  unfold sosOfUS at hcp
  rw [List.mem_map] at hcp
  obtain ⟨k, hk, rfl⟩ := hcp
  exact h k (List.mem_range.1 hk)

theorem proveSimple_sound (p : UPoly K) (R : Raw K) (h : proveSimple p = .ok (some R)) : RawGood R p := by
  match p, h with
  | [c], h =>
    simp only [proveSimple] at h
    split_ifs at h with h0
    · have := Option.some.inj (Except.ok.inj h)
      subst this
      refine ⟨fun x => ?_, ?_⟩
      · simp [rawVal, sosVal]
      · intro e he; simp at he; subst he; intro cp hcp; simp at hcp; subst hcp; exact h0
    · cases Except.ok.inj h
  | [b, a], h =>
    simp only [proveSimple] at h
    split_ifs at h with h0
    · have := Option.some.inj (Except.ok.inj h)
      subst this
      refine ⟨fun x => ?_, ?_⟩
      · simp [rawVal, sosVal]
      · intro e he; simp at he
        rcases he with rfl | rfl
        · intro cp hcp; simp at hcp; subst hcp; exact h0.2
        · intro cp hcp; simp at hcp; subst hcp; exact h0.1
    · cases Except.ok.inj h
  | [c, b, a], h =>
    simp only [proveSimple] at h
    split_ifs at h with h0 h1 h2
    · cases Except.ok.inj h
    · have := Option.some.inj (Except.ok.inj h)
      subst this
      have ha : a ≠ 0 := ne_of_gt h1.1
      refine ⟨fun x => ?_, ?_⟩
      · simp only [rawVal, sosVal, List.map_cons, List.map_nil, List.sum_cons, List.sum_nil, uev_cons, uev_nil]
        simp
        field_simp
        ring
      · intro e he; simp at he; subst he
        intro cp hcp; simp at hcp
        rcases hcp with rfl | rfl
        · exact h1.1.le
        · have : c - b^2/(4*a) = (4*a*c - b^2)/(4*a) := by field_simp
          simp only [this]
          exact div_nonneg (by linarith [h1.2]) (by linarith [h1.1])
    · have := Option.some.inj (Except.ok.inj h)
      subst this
      refine ⟨fun x => ?_, ?_⟩
      · simp [rawVal, sosVal]; ring
      · intro e he; simp at he
        rcases he with rfl | rfl
        · intro cp hcp; simp at hcp
          rcases hcp with rfl | rfl
          · exact h2.1.le
          · exact h2.2.2
        · intro cp hcp; simp at hcp; subst hcp; exact h2.2.1
    · cases Except.ok.inj h
  | [], h => simp [proveSimple] at h
  | _ :: _ :: _ :: _ :: _, h => simp [proveSimple] at h

theorem uev_pmonom (k : ℕ) (x : K) : uev (pmonom k) x = x ^ k := by
  unfold pmonom
  rw [uev_append]
  have : uev (List.replicate k (0:K)) x = 0 := by
    induction k with
    | zero => rfl
    | succ k ih => simp [List.replicate_succ, ih]
  rw [this]
  simp

theorem trivial_aux (p : UPoly K) (x : K) (l : List ℕ) :
    sosVal (((l.filterMap fun i => if p.getD i 0 = 0 then none else some (i, p.getD i 0)).filter
      fun t => t.1 % 2 == 0).map fun t => (t.2, pmonom (t.1 / 2))) x +
    x * sosVal (((l.filterMap fun i => if p.getD i 0 = 0 then none else some (i, p.getD i 0)).filter
      fun t => t.1 % 2 == 1).map fun t => (t.2, pmonom (t.1 / 2))) x =
    (l.map fun i => p.getD i 0 * x ^ i).sum := by
  induction l with
  | nil => simp [sosVal]
  | cons i l ih =>
    by_cases h0 : p.getD i 0 = 0
    · rw [List.filterMap_cons_none (by rw [if_pos h0])]
      rw [ih, List.map_cons, List.sum_cons, h0]; ring
    · rw [List.filterMap_cons_some (b := (i, p.getD i 0)) (by rw [if_neg h0])]
      rw [List.map_cons, List.sum_cons, ← ih]
      rcases Nat.mod_two_eq_zero_or_one i with he | he
      · rw [List.filter_cons_of_pos (by simp [he]), List.filter_cons_of_neg (by simp [he])]
        simp only [sosVal, List.map_cons, List.sum_cons, uev_pmonom]
        have : x ^ i = (x ^ (i / 2)) ^ 2 := by rw [← pow_mul]; congr 1; omega
        rw [this]; ring
      · rw [List.filter_cons_of_neg (by simp [he]), List.filter_cons_of_pos (by simp [he])]
        simp only [sosVal, List.map_cons, List.sum_cons, uev_pmonom]
        have : x ^ i = x * (x ^ (i / 2)) ^ 2 := by
          rw [← pow_mul, ← pow_succ']; congr 1; omega
        rw [this]; ring

theorem trivialProof_sound (p : UPoly K) (h : p.all (fun c => decide (0 ≤ c)) = true) : RawGood (trivialProof p) p := by
  have hc : ∀ i, 0 ≤ p.getD i 0 := by
    intro i
    rw [List.getD_eq_getElem?_getD]
    cases hi : p[i]? with
    | none => simp
    | some c =>
      have : c ∈ p := List.mem_of_getElem? hi
      simpa using (List.all_eq_true.1 h c this)
  refine ⟨fun x => ?_, ?_⟩
  · unfold trivialProof rawVal
    have := trivial_aux p x (List.range p.length).reverse
    simp only [List.map_cons, List.map_nil, List.sum_cons, List.sum_nil, add_zero, if_true, Bool.false_eq_true, if_false,
      one_mul]
    rw [this, List.map_reverse, List.sum_reverse, list_range_sum, uev_eq_sum p x p.length le_rfl]
  · intro e he
    unfold trivialProof at he
    simp only [List.mem_cons, List.not_mem_nil, or_false] at he
    have key : ∀ q : ℕ × K → Bool, SosNonneg ((((List.range p.length).reverse.filterMap fun i =>
        if p.getD i 0 = 0 then none else some (i, p.getD i 0)).filter q).map fun t => (t.2, pmonom (t.1 / 2))) := by
      intro q cp hcp
      rw [List.mem_map] at hcp
      obtain ⟨t, ht, rfl⟩ := hcp
      have ht := List.mem_of_mem_filter ht
      rw [List.mem_filterMap] at ht
      obtain ⟨i, _, hi⟩ := ht
      split_ifs at hi with h0
      have := Option.some.inj hi
      subst this
      exact hc i
    rcases he with rfl | rfl
    · exact key _
    · exact key _

theorem loopReal_sound (f : UPoly K) (n0 : ℕ) (hl : (allCoeffs f).length = 2 * n0 - 1)
    (cands : List ((ℕ → ℕ → K) × (ℕ → ℕ → K))) (R : Raw K) (h : loopReal f n0 cands = .ok (some R)) : RawGood R f := by
  induction cands with
  | nil => simp [loopReal] at h
  | cons c rest ih =>
    unfold loopReal at h
    split at h
    · cases h
    · rename_i M hM
      obtain ⟨hs, -, hg⟩ := determine_gram n0 c.1 M f hl hM
      split at h
      · cases h
      · exact ih h
      · rename_i U S hc
        split_ifs at h with ha
        · have := Option.some.inj (Except.ok.inj h)
          subst this
          refine ⟨fun x => ?_, ?_⟩
          · simp only [rawVal, List.map_cons, List.map_nil, List.sum_cons, List.sum_nil, add_zero, Bool.false_eq_true, if_false,
              one_mul]
            rw [sosVal_sosOfUS, ← congruence_sum_of_squares n0 M hs U S hc, hg]
          · intro e he; simp at he; subst he
            exact sosOfUS_nonneg n0 U S (congruence_sound n0 M hs U S hc).2.2
        · exact ih h

/-- The polynomial left for the first matrix after subtracting the second one. -/
def residual (f : UPoly K) (n1 : ℕ) (M1 : ℕ → ℕ → K) : UPoly K := padd f (psmul (-1) (minorPoly n1 M1))

theorem loopPos_sound (f : UPoly K) (n0 n1 : ℕ) (cands : List ((ℕ → ℕ → K) × (ℕ → ℕ → K)))
    (hl : ∀ R ∈ cands, (allCoeffs (residual f n1 (symFull R.2))).length = 2 * n0 - 1)
    (R : Raw K) (h : loopPos f n0 n1 cands = .ok (some R)) : RawGood R f := by
  induction cands with
  | nil => simp [loopPos] at h
  | cons c rest ih =>
    have ih := ih (fun R hR => hl R (List.mem_cons_of_mem _ hR))
    unfold loopPos at h
    split at h
    · cases h
    · rename_i M0 hM0
      unfold determinePair at hM0
      obtain ⟨hs, -, hg⟩ := determine_gram n0 c.1 M0 _ (hl c (by simp)) hM0
      split at h
      · cases h
      · exact ih h
      · rename_i U1 S1 hc1
        split_ifs at h with ha1
        · split at h
          · cases h
          · exact ih h
          · rename_i U0 S0 hc0
            split_ifs at h with ha0
            · have := Option.some.inj (Except.ok.inj h)
              subst this
              have hs1 : ∀ r c', r < n1 → c' < n1 → symFull c.2 r c' = symFull c.2 c' r := fun r c' _ _ => symFull_symm _ _ _
              have hn1 : 1 ≤ n1 := by
                by_contra h0
                have := (congruence_error_iff n1 (symFull c.2) .indexError).2 ⟨by omega, rfl⟩
                rw [this] at hc1; cases hc1
              refine ⟨fun x => ?_, ?_⟩
              · simp only [rawVal, List.map_cons, List.map_nil, List.sum_cons, List.sum_nil, add_zero, Bool.false_eq_true,
                  if_false, if_true, one_mul]
                rw [sosVal_sosOfUS, ← congruence_sum_of_squares n0 M0 hs U0 S0 hc0, hg, sosVal_sosOfUS,
                  ← congruence_sum_of_squares n1 _ hs1 U1 S1 hc1]
                unfold residual
                rw [uev_padd, uev_psmul, uev_minorPoly n1 _ hn1 hs1]
                ring
              · intro e he; simp at he
                rcases he with rfl | rfl
                · exact sosOfUS_nonneg n0 U0 S0 (congruence_sound n0 M0 hs U0 S0 hc0).2.2
                · exact sosOfUS_nonneg n1 U1 S1 (congruence_sound n1 _ hs1 U1 S1 hc1).2.2
            · exact ih h
        · exact ih h

/-- The sizes fit: without real roots the polynomial has degree `2(n₀-1)`; otherwise every residual has that degree. -/
def Aligned (f : UPoly K) (nu : Numeric K) : Prop :=
  (nu.noReal = true → (allCoeffs f).length = 2 * nu.n0 - 1) ∧
  (nu.noReal = false → ∀ R ∈ nu.cands, (allCoeffs (residual f nu.n1 (symFull R.2))).length = 2 * nu.n0 - 1)

theorem proveIrr_sound (f : UPoly K) (nu : Numeric K) (hal : 4 ≤ (pstrip f).length → Aligned f nu) (R : Raw K)
    (h : proveIrr f nu = .ok (some R)) : RawGood R f := by
  unfold proveIrr at h
  split_ifs at h with h1 h2 h3 h4 h5
  · cases Except.ok.inj h
  · obtain ⟨a, b⟩ := proveSimple_sound _ R h
    exact ⟨fun x => by rw [a x, uev_pstrip], b⟩
  · cases Except.ok.inj h
  · have := Option.some.inj (Except.ok.inj h)
    subst this
    rw [Bool.and_eq_true] at h4
    obtain ⟨a, b⟩ := trivialProof_sound _ h4.2
    exact ⟨fun x => by rw [a x, uev_pstrip], b⟩
  · exact loopReal_sound f nu.n0 ((hal (by omega)).1 h5) nu.cands R h
  · exact loopPos_sound f nu.n0 nu.n1 nu.cands ((hal (by omega)).2 (by simpa using h5)) R h

/-! ### `_reduce_sos` -/

theorem pdeg_length (p : UPoly K) (d : ℕ) (h : pdeg p = some d) : (pstrip p).length = d + 1 := by
  unfold pdeg at h
  split at h
  · cases h
  · rename_i hne
    have h := Option.some.inj h
    have := List.length_pos_of_ne_nil (l := pstrip p) (fun h0 => hne h0)
    omega

theorem pdeg_none (p : UPoly K) : pdeg p = none ↔ pstrip p = [] := by
  unfold pdeg
  split
  · simp_all
  · rename_i hne
    simp
    exact fun h0 => hne h0

theorem maxDeg_none (L : Sos K) : maxDeg L = none ↔ ∀ cp ∈ L, pstrip cp.2 = [] := by
  induction L with
  | nil => simp [maxDeg]
  | cons cp L ih =>
    unfold maxDeg
    split
    · rename_i h
      rw [ih]
      simp [(pdeg_none _).1 h]
    · rename_i d h h2
      simp
      intro h0
      rw [(pdeg_none _).2 h0] at h; cases h
    · rename_i d e h h2
      simp
      intro h0
      rw [(pdeg_none _).2 h0] at h; cases h

theorem maxDeg_le (L : Sos K) (n : ℕ) (h : maxDeg L = some n) : ∀ cp ∈ L, (pstrip cp.2).length ≤ n + 1 := by
  induction L generalizing n with
  | nil => simp
  | cons cp L ih =>
    unfold maxDeg at h
    split at h
    · rename_i h1
      intro q hq
      rcases List.mem_cons.1 hq with rfl | hq
      · rw [(pdeg_none _).1 h1]; simp
      · exact ih n h q hq
    · rename_i d h1 h2
      have := Option.some.inj h
      subst this
      intro q hq
      rcases List.mem_cons.1 hq with rfl | hq
      · rw [pdeg_length _ _ h1]
      · rw [(maxDeg_none L).1 h2 q hq]; simp
    · rename_i d e h1 h2
      have := Option.some.inj h
      subst this
      intro q hq
      rcases List.mem_cons.1 hq with rfl | hq
      · rw [pdeg_length _ _ h1]; omega
      · have := ih e h2 q hq; omega

theorem accStep_entry (n : ℕ) (M : ℕ → ℕ → K) (cp : K × UPoly K) (r c : ℕ) :
    accStep n M cp r c = M r c + cp.1 * (pstrip cp.2).getD (n - r) 0 * (pstrip cp.2).getD (n - c) 0 := by
  unfold accStep
  by_cases h : cp.1 = 0 ∨ pstrip cp.2 = []
  · rw [if_pos h]
    rcases h with h | h
    · rw [h]; ring
    · rw [h]; simp
  rw [if_neg h]
  beta_reduce
  split_ifs with h2
  · rfl
  · have : (pstrip cp.2).getD (n - r) 0 = 0 ∨ (pstrip cp.2).getD (n - c) 0 = 0 := by
      rcases not_and_or.1 h2 with h2 | h2
      · left; rw [List.getD_eq_getElem?_getD, List.getElem?_eq_none (by omega)]; rfl
      · right; rw [List.getD_eq_getElem?_getD, List.getElem?_eq_none (by omega)]; rfl
    rcases this with h3 | h3 <;> rw [h3] <;> ring

theorem acc_entry (n : ℕ) (L : Sos K) (M : ℕ → ℕ → K) (r c : ℕ) :
    L.foldl (accStep n) M r c = M r c +
      (L.map fun cp => cp.1 * (pstrip cp.2).getD (n - r) 0 * (pstrip cp.2).getD (n - c) 0).sum := by
  induction L generalizing M with
  | nil => simp
  | cons cp L ih => rw [List.foldl_cons, ih, accStep_entry, List.map_cons, List.sum_cons]; ring

theorem quadForm_acc (n : ℕ) (L : Sos K) (v : ℕ → K) :
    quadForm (n + 1) (L.foldl (accStep n) fun _ _ => 0) v =
      (L.map fun cp => cp.1 * (∑ r ∈ range (n + 1), (pstrip cp.2).getD (n - r) 0 * v r) ^ 2).sum := by
  unfold quadForm
  induction L with
  | nil => simp
  | cons cp L ih =>
    rw [List.map_cons, List.sum_cons, ← ih]
    rw [sq, Finset.sum_mul_sum, Finset.mul_sum, ← Finset.sum_add_distrib]
    apply Finset.sum_congr rfl
    intro r _
    rw [Finset.mul_sum, ← Finset.sum_add_distrib]
    apply Finset.sum_congr rfl
    intro c _
    rw [acc_entry, acc_entry, List.map_cons, List.sum_cons]
    ring

theorem uev_strip_sum (p : UPoly K) (n : ℕ) (h : (pstrip p).length ≤ n + 1) (x : K) :
    ∑ r ∈ range (n + 1), (pstrip p).getD (n - r) 0 * x ^ (n + 1 - 1 - r) = uev p x := by
  rw [← uev_pstrip, uev_eq_sum _ x (n + 1) h, ← Finset.sum_range_reflect]
  apply Finset.sum_congr rfl
  intro r hr
  rw [mem_range] at hr
  rw [show n + 1 - 1 - (n + 1 - 1 - r) = r by omega, show n - (n + 1 - 1 - r) = r by omega]

theorem acc_symm (n : ℕ) (L : Sos K) (r c : ℕ) :
    L.foldl (accStep n) (fun _ _ => 0) r c = L.foldl (accStep n) (fun _ _ => 0) c r := by
  rw [acc_entry, acc_entry]
  congr 3
  funext cp
  ring

theorem sosVal_filter (L : Sos K) (x : K) : sosVal (L.filter fun cp => decide (cp.1 ≠ 0)) x = sosVal L x := by
  unfold sosVal
  induction L with
  | nil => simp
  | cons cp L ih =>
    by_cases h : cp.1 = 0
    · rw [List.filter_cons_of_neg (by simp [h]), ih, List.map_cons, List.sum_cons, h]; ring
    · rw [List.filter_cons_of_pos (by simp [h]), List.map_cons, List.map_cons, List.sum_cons, List.sum_cons, ih]

/-- `_reduce_sos` keeps the value of a weighted sum of squares and returns positive weights only. -/
theorem reduceSos_sound (L L' : Sos K) (h : reduceSos L = .ok L') :
    (∀ x, sosVal L' x = sosVal L x) ∧ ∀ cp ∈ L', 0 < cp.1 := by
  unfold reduceSos at h
  by_cases h0 : L = []
  · rw [if_pos h0] at h
    have := Except.ok.inj h
    subst this
    rw [h0]
    exact ⟨fun _ => rfl, by simp⟩
  rw [if_neg h0] at h
  split at h
  · cases h
  · rename_i n hn
    split at h
    · cases h
    · cases h
    · rename_i U S hc
      have := Except.ok.inj h
      subst this
      have hs : ∀ r c, r < n + 1 → c < n + 1 → L.foldl (accStep n) (fun _ _ => 0) r c =
        L.foldl (accStep n) (fun _ _ => 0) c r := fun r c _ _ => acc_symm n L r c
      refine ⟨fun x => ?_, ?_⟩
      · rw [sosVal_filter, sosVal_sosOfUS, ← congruence_sum_of_squares _ _ hs U S hc, quadForm_acc]
        unfold sosVal
        congr 1
        apply List.map_congr_left
        intro cp hcp
        rw [uev_strip_sum _ _ (maxDeg_le L n hn cp hcp)]
      · intro cp hcp
        rw [List.mem_filter] at hcp
        have h1 := sosOfUS_nonneg (n+1) U S (congruence_sound _ _ hs U S hc).2.2 cp hcp.1
        have h2 : cp.1 ≠ 0 := by simpa using hcp.2
        exact lt_of_le_of_ne h1 (Ne.symm h2)

/-- With nonnegative weights the only failure is a list of zero polynomials: the decomposition of the Gram matrix never
answers `None`. -/
theorem reduceSos_error (L : Sos K) (hL : SosNonneg L) (e : PyErr) (h : reduceSos L = .error e) :
    L ≠ [] ∧ ∀ cp ∈ L, pstrip cp.2 = [] := by
  unfold reduceSos at h
  by_cases h0 : L = []
  · rw [if_pos h0] at h; cases h
  rw [if_neg h0] at h
  refine ⟨h0, ?_⟩
  split at h
  · rename_i hn; exact (maxDeg_none L).1 hn
  · rename_i n hn
    exfalso
    split at h
    · rename_i e' hc
      have := (congruence_error_iff _ _ _).1 hc
      omega
    · rename_i hc
      have := (congruence_none_iff (n+1) (by omega) _ (fun r c _ _ => acc_symm n L r c)).1 hc
      obtain ⟨v, hv⟩ := this
      rw [quadForm_acc] at hv
      have : 0 ≤ (L.map fun cp => cp.1 * (∑ r ∈ range (n + 1), (pstrip cp.2).getD (n - r) 0 * v r) ^ 2).sum := by
        apply List.sum_nonneg
        intro w hw
        rw [List.mem_map] at hw
        obtain ⟨cp, hcp, rfl⟩ := hw
        exact mul_nonneg (hL cp hcp) (sq_nonneg _)
      linarith
    · cases h

/-! ### merging -/

theorem sosVal_append (A B : Sos K) (x : K) : sosVal (A ++ B) x = sosVal A x + sosVal B x := by
  unfold sosVal; rw [List.map_append, List.sum_append]

theorem sosVal_crossMul (m : UPoly K) (A B : Sos K) (x : K) :
    sosVal (crossMul m A B) x = uev m x ^ 2 * (sosVal A x * sosVal B x) := by
  unfold crossMul
  induction A with
  | nil => simp [sosVal]
  | cons a A ih =>
    rw [List.flatMap_cons, sosVal_append, ih]
    have : sosVal (B.map fun b => (a.1 * b.1, pmul m (pmul a.2 b.2))) x = uev m x ^ 2 * (a.1 * uev a.2 x ^ 2 * sosVal B x) := by
      clear ih
      unfold sosVal
      induction B with
      | nil => simp
      | cons b B ihB =>
        rw [List.map_cons, List.map_cons, List.sum_cons, ihB, List.map_cons, List.sum_cons, uev_pmul, uev_pmul]
        ring
    rw [this]
    simp only [sosVal, List.map_cons, List.sum_cons]
    ring

theorem crossMul_nonneg (m : UPoly K) (A B : Sos K) (hA : SosNonneg A) (hB : SosNonneg B) : SosNonneg (crossMul m A B) := by
  intro cp hcp
  unfold crossMul at hcp
  rw [List.mem_flatMap] at hcp
  obtain ⟨a, ha, hcp⟩ := hcp
  rw [List.mem_map] at hcp
  obtain ⟨b, hb, rfl⟩ := hcp
  exact mul_nonneg (hA a ha) (hB b hb)

theorem SosNonneg.append {A B : Sos K} (hA : SosNonneg A) (hB : SosNonneg B) : SosNonneg (A ++ B) := by
  intro cp hcp
  rcases List.mem_append.1 hcp with h | h
  · exact hA cp h
  · exact hB cp h

/-- value of a pair `P + xQ` -/
def pairVal (p : Sos K × Sos K) (x : K) : K := sosVal p.1 x + x * sosVal p.2 x

theorem mergeOne_sound (p : Sos K × Sos K) (m : Raw K) (x : K) :
    pairVal (mergeOne p m) x = pairVal p x * rawVal m x := by
  unfold mergeOne
  have key : ∀ (acc : Sos K × Sos K), pairVal (m.foldl (fun acc e =>
    if e.1 then (acc.1 ++ crossMul [0, 1] p.2 e.2, acc.2 ++ crossMul [1] p.1 e.2)
    else (acc.1 ++ crossMul [1] p.1 e.2, acc.2 ++ crossMul [1] p.2 e.2)) acc) x = pairVal acc x + pairVal p x * rawVal m x := by
    induction m with
    | nil => intro acc; simp [rawVal]
    | cons e m ih =>
      intro acc
      rw [List.foldl_cons, ih]
      unfold rawVal
      rw [List.map_cons, List.sum_cons]
      cases he : e.1
      · simp only [Bool.false_eq_true, if_false, pairVal, sosVal_append, sosVal_crossMul, uev_cons, uev_nil]; ring
      · simp only [if_true, pairVal, sosVal_append, sosVal_crossMul, uev_cons, uev_nil]; ring
  rw [key]
  simp [pairVal, sosVal]

theorem mergeOne_nonneg (p : Sos K × Sos K) (m : Raw K) (h1 : SosNonneg p.1) (h2 : SosNonneg p.2)
    (hm : ∀ e ∈ m, SosNonneg e.2) : SosNonneg (mergeOne p m).1 ∧ SosNonneg (mergeOne p m).2 := by
  unfold mergeOne
  have key : ∀ (acc : Sos K × Sos K), SosNonneg acc.1 → SosNonneg acc.2 →
    SosNonneg (m.foldl (fun acc e =>
    if e.1 then (acc.1 ++ crossMul [0, 1] p.2 e.2, acc.2 ++ crossMul [1] p.1 e.2)
    else (acc.1 ++ crossMul [1] p.1 e.2, acc.2 ++ crossMul [1] p.2 e.2)) acc).1 ∧
    SosNonneg (m.foldl (fun acc e =>
    if e.1 then (acc.1 ++ crossMul [0, 1] p.2 e.2, acc.2 ++ crossMul [1] p.1 e.2)
    else (acc.1 ++ crossMul [1] p.1 e.2, acc.2 ++ crossMul [1] p.2 e.2)) acc).2 := by
    induction m with
    | nil => intro acc h1 h2; exact ⟨h1, h2⟩
    | cons e m ih =>
      intro acc ha1 ha2
      rw [List.foldl_cons]
      have he := hm e (by simp)
      apply ih (fun e' he' => hm e' (List.mem_cons_of_mem _ he'))
      · split_ifs
        · exact ha1.append (crossMul_nonneg _ _ _ h2 he)
        · exact ha1.append (crossMul_nonneg _ _ _ h1 he)
      · split_ifs
        · exact ha2.append (crossMul_nonneg _ _ _ h1 he)
        · exact ha2.append (crossMul_nonneg _ _ _ h2 he)
  exact key ([], []) (by intro cp h; simp at h) (by intro cp h; simp at h)

/-- **C18.** Merging any list of factor proofs multiplies the values and keeps all weights nonnegative. -/
theorem mergeAll_sound (ms : List (Raw K)) (p p' : Sos K × Sos K) (h1 : SosNonneg p.1) (h2 : SosNonneg p.2)
    (hm : ∀ m ∈ ms, ∀ e ∈ m, SosNonneg e.2) (h : mergeAll ms p = .ok p') :
    (∀ x, sosVal p'.1 x + x * sosVal p'.2 x = (sosVal p.1 x + x * sosVal p.2 x) * (ms.map fun m => rawVal m x).prod) ∧
    SosNonneg p'.1 ∧ SosNonneg p'.2 := by
  induction ms generalizing p with
  | nil =>
    have := Except.ok.inj h
    subst this
    exact ⟨fun x => by simp, h1, h2⟩
  | cons m ms ih =>
    unfold mergeAll at h
    split at h
    · cases h
    · rename_i q1 hq1
      split at h
      · cases h
      · rename_i q2 hq2
        obtain ⟨e1, n1⟩ := reduceSos_sound _ _ hq1
        obtain ⟨e2, n2⟩ := reduceSos_sound _ _ hq2
        obtain ⟨a, b, c⟩ := ih (q1, q2) (fun cp hcp => (n1 cp hcp).le) (fun cp hcp => (n2 cp hcp).le)
          (fun m' hm' => hm m' (List.mem_cons_of_mem _ hm')) h
        refine ⟨fun x => ?_, b, c⟩
        rw [a x]
        have := mergeOne_sound p m x
        unfold pairVal at this
        simp only [e1 x, e2 x]
        rw [this, List.map_cons, List.prod_cons]
        ring

/-- product of the factors with multiplicities -/
def factorVal (fs : List (UPoly K × ℕ × Numeric K)) (x : K) : K := (fs.map fun f => uev f.1 x ^ f.2.1).prod

theorem collect_sound (fs : List (UPoly K × ℕ × Numeric K))
    (hal : ∀ f ∈ fs, f.2.1 % 2 = 1 → 4 ≤ (pstrip f.1).length → Aligned f.1 f.2.2)
    (l : List (Raw K)) (h : collect fs = .ok (some l)) :
    (∀ x, (l.map fun m => rawVal m x).prod = factorVal fs x) ∧ ∀ m ∈ l, ∀ e ∈ m, SosNonneg e.2 := by
  induction fs generalizing l with
  | nil =>
    have := Option.some.inj (Except.ok.inj h)
    subst this
    exact ⟨fun x => by simp [factorVal], by simp⟩
  | cons f fs ih =>
    obtain ⟨f, k, nu⟩ := f
    have ih := ih (fun g hg => hal g (List.mem_cons_of_mem _ hg))
    have hsq : ∀ e ∈ ([(false, [(1, ppow f (k / 2))])] : Raw K), SosNonneg e.2 := by
      intro e he; simp at he; subst he; intro cp hcp; simp at hcp; subst hcp; exact zero_le_one
    have hsqv : ∀ x, rawVal ([(false, [(1, ppow f (k / 2))])] : Raw K) x = (uev f x ^ (k/2)) ^ 2 := by
      intro x; simp [rawVal, sosVal, uev_ppow]
    unfold collect at h
    by_cases hk : k % 2 = 0
    · rw [if_pos hk] at h
      split at h
      · rename_i l' hl'
        have := Option.some.inj (Except.ok.inj h)
        subst this
        obtain ⟨a, b⟩ := ih l' hl'
        refine ⟨fun x => ?_, ?_⟩
        · rw [List.map_cons, List.prod_cons, a x, hsqv]
          unfold factorVal
          rw [List.map_cons, List.prod_cons, ← pow_mul, show k / 2 * 2 = k by omega]
        · intro m hm
          rcases List.mem_cons.1 hm with rfl | hm
          · exact hsq
          · exact b m hm
      · rename_i r hr
        exact absurd h (hr l)
    · rw [if_neg hk] at h
      split at h
      · cases h
      · cases Except.ok.inj h
      · rename_i ret hret
        obtain ⟨g1, g2⟩ := proveIrr_sound f nu (hal (f, k, nu) (by simp) (by simp; omega)) ret hret
        split at h
        · rename_i l' hl'
          obtain ⟨a, b⟩ := ih l' hl'
          split_ifs at h with h1
          · have := Option.some.inj (Except.ok.inj h)
            subst this
            refine ⟨fun x => ?_, ?_⟩
            · rw [List.map_cons, List.prod_cons, List.map_cons, List.prod_cons, a x, hsqv, g1 x]
              unfold factorVal
              rw [List.map_cons, List.prod_cons, ← pow_mul]
              have : uev f x ^ k = uev f x ^ (k / 2 * 2) * uev f x := by
                rw [← pow_succ]; congr 1; omega
              simp only
              rw [this]; ring
            · intro m hm
              rcases List.mem_cons.1 hm with rfl | hm
              · exact hsq
              · rcases List.mem_cons.1 hm with rfl | hm
                · exact g2
                · exact b m hm
          · have := Option.some.inj (Except.ok.inj h)
            subst this
            refine ⟨fun x => ?_, ?_⟩
            · rw [List.map_cons, List.prod_cons, a x, g1 x]
              unfold factorVal
              rw [List.map_cons, List.prod_cons]
              simp only
              rw [show k = 1 by omega, pow_one]
            · intro m hm
              rcases List.mem_cons.1 hm with rfl | hm
              · exact g2
              · exact b m hm
        · rename_i r hr
          exact absurd h (hr l)

/-- **C18/C20, whole prover.** If `factor_list` returned `lc, factors` and every odd factor of degree at least three is
`Aligned`, a returned proof has the value of the polynomial at every point and nonnegative weights.  Missing for the full
claim: `Aligned` (the code does not check it, and `proveUnivariate_wrong` shows that it is needed). -/
theorem proveUnivariate_sound_partial (f : UPoly K) (lc : K) (fs : List (UPoly K × ℕ × Numeric K))
    (hf : ∀ x, uev f x = lc * factorVal fs x)
    (hal : ∀ g ∈ fs, g.2.1 % 2 = 1 → 4 ≤ (pstrip g.1).length → Aligned g.1 g.2.2)
    (p : Sos K × Sos K) (h : proveUnivariate lc fs = .ok (some p)) :
    (∀ x, sosVal p.1 x + x * sosVal p.2 x = uev f x) ∧ SosNonneg p.1 ∧ SosNonneg p.2 ∧
    (∀ x, 0 ≤ x → 0 ≤ uev f x) ∧ (p.2 = [] → ∀ x, 0 ≤ uev f x) := by
  unfold proveUnivariate at h
  split_ifs at h with hlc
  · cases Except.ok.inj h
  · split at h
    · cases h
    · cases Except.ok.inj h
    · rename_i l hl
      split at h
      · cases h
      · rename_i q hq
        have := Option.some.inj (Except.ok.inj h)
        subst this
        obtain ⟨a, b⟩ := collect_sound fs hal l hl
        obtain ⟨c1, c2, c3⟩ := mergeAll_sound l _ q (by intro cp hcp; simp at hcp; subst hcp; exact not_lt.1 hlc)
          (by intro cp hcp; simp at hcp) b hq
        have hv : ∀ x, sosVal q.1 x + x * sosVal q.2 x = uev f x := by
          intro x
          rw [c1 x, a x, hf x]; simp [sosVal]
        refine ⟨hv, c2, c3, ?_, ?_⟩
        · intro x hx
          rw [← hv x]
          have := sosVal_nonneg _ c2 x
          have := mul_nonneg hx (sosVal_nonneg _ c3 x)
          linarith
        · intro h0 x
          rw [← hv x, h0]
          have := sosVal_nonneg _ c2 x
          simp [sosVal] at *
          exact this

/-! ### Witnesses -/

/-- Result of a call, reduced to its value at a point. -/
def resultAt (r : Except PyErr (Option (Sos K × Sos K))) (x : K) : Option K :=
  match r with
  | .ok (some p) => some (sosVal p.1 x + x * sosVal p.2 x)
  | _ => none

/-- `x⁵ + x³ − 3x² + 3x + 1`, irreducible with one real root near `-0.26`. -/
def exBad : UPoly ℚ := [1, 3, -3, 1, 0, 1]

/-- What the numerical part produces for it at `lcm = 1`: the rounded second matrix
`[[1,0,-1],[0,3,-2],[-1,-2,4]]`, and the entries `-0.4255` and `1.0` that the filling loop never overwrites. -/
def exBadNum : Numeric ℚ where
  posRoot := false
  noReal := false
  n0 := 3
  n1 := 3
  cands := [(fun r c => if r = 2 ∧ c = 2 then 1 else if r + c = 3 then -17/40 else 0,
    fun r c => if r = 0 ∧ c = 0 then 1 else if r = 1 ∧ c = 1 then 3 else if r = 2 ∧ c = 2 then 4
      else if r + c = 2 then -1 else if r + c = 3 then -2 else 0)]

/-- **C18/C20 violated.** The residual `f - x·v^T M₁ v = x² - x + 1` has lower degree than the first matrix expects, so its
coefficients are written to the wrong antidiagonals, and the prover returns a "proof" of another polynomial. -/
theorem proveUnivariate_wrong :
    resultAt (proveUnivariate 1 [(exBad, 1, exBadNum)]) 1 = some (63/20) ∧ uev exBad 1 = 3 := by
  decide +kernel

example : allCoeffs (residual exBad 3 (symFull ((exBadNum.cands.head?.getD (fun _ _ => 0, fun _ _ => 0)).2))) = [1, -1, 1] := by
  decide +kernel

/-- An aligned run: `(x² + 1)(x⁴ + x + 1) (x + 2)³ · 3`. -/
def exGoodNum : Numeric ℚ where
  posRoot := false
  noReal := true
  n0 := 3
  n1 := 0
  cands := [(fun _ _ => 0, fun _ _ => 0), (fun r c => if r = 0 ∧ c = 2 then -3/4 else 0, fun _ _ => 0)]

def exGood : List (UPoly ℚ × ℕ × Numeric ℚ) :=
  [([1, 0, 1], 1, exGoodNum), ([1, 1, 0, 0, 1], 1, exGoodNum), ([2, 1], 3, exGoodNum)]

example : resultAt (proveUnivariate 3 exGood) 1 = some (3 * (2 * 3 * 27)) := by decide +kernel
example : (allCoeffs ([1, 1, 0, 0, 1] : UPoly ℚ)).length = 2 * exGoodNum.n0 - 1 := by decide +kernel

example : ∀ g ∈ exGood, g.2.1 % 2 = 1 → 4 ≤ (pstrip g.1).length → Aligned g.1 g.2.2 := by
  intro g hg _ h4
  unfold exGood at hg
  simp only [List.mem_cons, List.not_mem_nil, or_false] at hg
  rcases hg with rfl | rfl | rfl
  · exact absurd h4 (by decide +kernel)
  · exact ⟨fun _ => by decide +kernel, fun h => by simp [exGoodNum] at h⟩
  · exact absurd h4 (by decide +kernel)

/-- An aligned run on the half line: `x³ - x² + x + 1` has the residual degree the first matrix expects. -/
def exHalfNum : Numeric ℚ where
  posRoot := false
  noReal := false
  n0 := 2
  n1 := 2
  cands := [(fun _ _ => 0, fun r c => if r = c then 1 else -3/4)]

example : resultAt (proveUnivariate 1 [([1, 1, -1, 1], 1, exHalfNum)]) 2 = some 7 := by decide +kernel
example : Aligned ([1, 1, -1, 1] : UPoly ℚ) exHalfNum := by
  refine ⟨fun h => by simp [exHalfNum] at h, fun _ => ?_⟩
  intro R hR
  simp only [exHalfNum, List.mem_cons, List.not_mem_nil, or_false] at hR
  subst hR
  decide +kernel

end Verif.Univariate
