import Verif.Model.SdpPrimal
import Verif.Props.SdpMatrix

/-!
# C61, C62: primal SDP problems: null spaces, symmetrisation, zero diagonals, masking, conversion to dual form
-/

set_option linter.unusedSectionVars false

namespace Verif.SdpPrimal
open Verif Verif.Sdp Verif.LinSolve Finset

variable {K : Type*} [Field K] [LinearOrder K] [IsStrictOrderedRing K]

/-- positive semidefinite matrices satisfying all equations -/
def Feasible (p : Primal K) (X : ℕ → ℕ → ℕ → K) : Prop :=
  (∀ k, k < p.nb → PSD (p.n k) (X k)) ∧ ∀ r ∈ p.eqs, p.lhs r X = r.rhs

/-! ### Null spaces -/

theorem sum_flat (m n : ℕ) (g : ℕ → K) : ∑ e ∈ range (m * n), g e = ∑ i ∈ range m, ∑ j ∈ range n, g (i * n + j) := by
  induction m with
  | zero => simp
  | succ m ih =>
    rw [Nat.succ_mul, Finset.sum_range_add, ih, Finset.sum_range_succ]

theorem flat_inj (n i j a b : ℕ) (hj : j < n) (hb : b < n) (h : i * n + j = a * n + b) : i = a ∧ j = b := by
  have h1 : (i * n + j) / n = i := by
    rw [Nat.add_comm, Nat.mul_comm, Nat.add_mul_div_left _ _ (by omega), Nat.div_eq_of_lt hj]; omega
  have h2 : (a * n + b) / n = a := by
    rw [Nat.add_comm, Nat.mul_comm, Nat.add_mul_div_left _ _ (by omega), Nat.div_eq_of_lt hb]; omega
  have h3 : i = a := by rw [← h1, ← h2, h]
  subst h3
  exact ⟨rfl, by omega⟩

theorem nullEq_lhs (p : Primal K) (key : ℕ) (hk : key < p.nb) (v : ℕ → K) (j : ℕ) (hj : j < p.n key) (X : ℕ → ℕ → ℕ → K)
    (hs : ∀ a b, a < p.n key → b < p.n key → X key a b = X key b a) :
    p.lhs ⟨fun b e => if b = key then ∑ k ∈ range (p.n key), ((if e = j * p.n key + k then v k else 0) + (if e = k * p.n key + j then v k else 0)) else 0, 0⟩ X
      = 2 * ∑ k ∈ range (p.n key), X key j k * v k := by
  unfold Primal.lhs
  simp only
  rw [Finset.sum_eq_single key]
  · simp only [if_true]
    have e1 : ∀ i ∈ range (p.n key), ∀ l ∈ range (p.n key),
        (∑ k ∈ range (p.n key), ((if i * p.n key + l = j * p.n key + k then v k else 0) + (if i * p.n key + l = k * p.n key + j then v k else 0))) * X key i l
          = (if i = j then v l * X key j l else 0) + (if l = j then v i * X key i j else 0) := by
      intro i hi l hl
      rw [Finset.mem_range] at hi hl
      rw [Finset.sum_add_distrib, add_mul]
      congr 1
      · by_cases hij : i = j
        · subst hij
          rw [if_pos rfl, Finset.sum_eq_single l]
          · rw [if_pos rfl]
          · intro k hk' hkl
            rw [if_neg]
            intro h
            exact hkl (flat_inj _ _ _ _ _ hl (Finset.mem_range.1 hk') h).2.symm
          · intro h; exact absurd (Finset.mem_range.2 hl) h
        · rw [if_neg hij, Finset.sum_eq_zero, zero_mul]
          intro k hk'
          rw [if_neg]
          intro h
          exact hij (flat_inj _ _ _ _ _ hl (Finset.mem_range.1 hk') h).1
      · by_cases hlj : l = j
        · subst hlj
          rw [if_pos rfl, Finset.sum_eq_single i]
          · rw [if_pos rfl]
          · intro k hk' hki
            rw [if_neg]
            intro h
            exact hki (flat_inj _ _ _ _ _ hl hj h).1.symm
          · intro h; exact absurd (Finset.mem_range.2 hi) h
        · rw [if_neg hlj, Finset.sum_eq_zero, zero_mul]
          intro k _
          rw [if_neg]
          intro h
          exact hlj (flat_inj _ _ _ _ _ hl hj h).2
    rw [Finset.sum_congr rfl (fun i hi => Finset.sum_congr rfl (fun l hl => e1 i hi l hl))]
    simp only [Finset.sum_add_distrib]
    have e2 : ∑ i ∈ range (p.n key), ∑ l ∈ range (p.n key), (if i = j then v l * X key j l else 0) = ∑ l ∈ range (p.n key), X key j l * v l := by
      rw [Finset.sum_eq_single j]
      · apply Finset.sum_congr rfl
        intro l _
        rw [if_pos rfl]; ring
      · intro i _ hij
        apply Finset.sum_eq_zero
        intro l _
        rw [if_neg hij]
      · intro h; exact absurd (Finset.mem_range.2 hj) h
    have e3 : ∑ i ∈ range (p.n key), ∑ l ∈ range (p.n key), (if l = j then v i * X key i j else 0) = ∑ l ∈ range (p.n key), X key j l * v l := by
      apply Finset.sum_congr rfl
      intro i hi
      rw [Finset.sum_ite_eq', if_pos (Finset.mem_range.2 hj), hs i j (Finset.mem_range.1 hi) hj]; ring
    rw [e2, e3]; ring
  · intro b _ hb
    apply Finset.sum_eq_zero
    intro i _
    apply Finset.sum_eq_zero
    intro l _
    rw [if_neg hb, zero_mul]
  · intro h; exact absurd (Finset.mem_range.2 hk) h

/-- **C61 (null spaces).** The feasible points of the constrained primal problem are exactly the feasible points of the
original with `X_k N_k = 0` for every block. -/
theorem primalNull_feasible (p : Primal K) (Ns : ℕ → Cols K) (X : ℕ → ℕ → ℕ → K) :
    Feasible (primalNull p Ns) X ↔ Feasible p X ∧ ∀ k, k < p.nb → Kills (p.n k) (X k) (Ns k) := by
  unfold Feasible primalNull
  simp only [List.mem_append]
  constructor
  · rintro ⟨hpsd, heq⟩
    refine ⟨⟨hpsd, fun r hr => heq r (Or.inl hr)⟩, ?_⟩
    intro k hk i hi c hc
    by_cases hz : ∃ i, i < p.n k ∧ (Ns k).m i c ≠ 0
    · have := heq _ (Or.inr (List.mem_flatMap.2 ⟨k, List.mem_range.2 hk, List.mem_flatMap.2 ⟨c, List.mem_filter.2 ⟨List.mem_range.2 hc, by
        rw [List.any_eq_true]
        obtain ⟨a, ha, hne⟩ := hz
        exact ⟨a, List.mem_range.2 ha, by simpa using hne⟩⟩, List.mem_map.2 ⟨i, List.mem_range.2 hi, rfl⟩⟩⟩))
      have h2 := nullEq_lhs p k hk (fun i => (Ns k).m i c) i hi X (hpsd k hk).1
      have h3 : p.lhs _ X = 0 := this
      rw [h2] at h3
      have h4 : (2 : K) ≠ 0 := two_ne_zero
      exact (mul_eq_zero.1 h3).resolve_left h4
    · push Not at hz
      apply Finset.sum_eq_zero
      intro j hj
      rw [hz j (Finset.mem_range.1 hj), mul_zero]
  · rintro ⟨⟨hpsd, heq⟩, hk⟩
    refine ⟨hpsd, fun r hr => ?_⟩
    rcases hr with hr | hr
    · exact heq r hr
    · obtain ⟨k, hk', hr⟩ := List.mem_flatMap.1 hr
      obtain ⟨c, hc, hr⟩ := List.mem_flatMap.1 hr
      obtain ⟨j, hj, rfl⟩ := List.mem_map.1 hr
      rw [List.mem_range] at hk' hj
      have hc := List.mem_range.1 (List.mem_filter.1 hc).1
      show p.lhs _ X = 0
      rw [nullEq_lhs p k hk' (fun i => (Ns k).m i c) j hj X (hpsd k hk').1, hk k hk' j hj c hc, mul_zero]

/-! ### Symmetrising the equations -/

theorem symCo_lhs (p : Primal K) (r : Row K) (X : ℕ → ℕ → ℕ → K)
    (hs : ∀ k, k < p.nb → ∀ a b, a < p.n k → b < p.n k → X k a b = X k b a) : p.lhs (symCo p.n r) X = p.lhs r X := by
  unfold Primal.lhs
  apply Finset.sum_congr rfl
  intro k hk
  have hk := Finset.mem_range.1 hk
  have hco : ∀ i j, i < p.n k → j < p.n k → (symCo p.n r).co k (i * p.n k + j) = (r.co k (i * p.n k + j) + r.co k (j * p.n k + i)) / 2 := by
    intro i j hi hj
    have h1 : (i * p.n k + j) / p.n k = i := by
      rw [Nat.add_comm, Nat.mul_comm, Nat.add_mul_div_left _ _ (by omega), Nat.div_eq_of_lt hj]; omega
    have h2 : (i * p.n k + j) % p.n k = j := by
      rw [Nat.add_comm, Nat.mul_comm, Nat.add_mul_mod_self_left, Nat.mod_eq_of_lt hj]
    unfold symCo
    simp only [h1, h2]
    by_cases h : r.co k (i * p.n k + j) = r.co k (j * p.n k + i)
    · rw [if_neg (by simpa using h), ← h]
      field_simp
      ring
    · rw [if_pos h]
  have e1 : ∑ i ∈ range (p.n k), ∑ j ∈ range (p.n k), (symCo p.n r).co k (i * p.n k + j) * X k i j
      = (∑ i ∈ range (p.n k), ∑ j ∈ range (p.n k), r.co k (i * p.n k + j) * X k i j) / 2
        + (∑ i ∈ range (p.n k), ∑ j ∈ range (p.n k), r.co k (j * p.n k + i) * X k i j) / 2 := by
    rw [div_eq_mul_inv, div_eq_mul_inv, Finset.sum_mul, Finset.sum_mul, ← Finset.sum_add_distrib]
    apply Finset.sum_congr rfl
    intro i hi
    rw [Finset.sum_mul, Finset.sum_mul, ← Finset.sum_add_distrib]
    apply Finset.sum_congr rfl
    intro j hj
    rw [hco i j (Finset.mem_range.1 hi) (Finset.mem_range.1 hj)]
    ring
  have e2 : ∑ i ∈ range (p.n k), ∑ j ∈ range (p.n k), r.co k (j * p.n k + i) * X k i j
      = ∑ i ∈ range (p.n k), ∑ j ∈ range (p.n k), r.co k (i * p.n k + j) * X k i j := by
    rw [Finset.sum_comm]
    apply Finset.sum_congr rfl
    intro j hj
    apply Finset.sum_congr rfl
    intro i hi
    rw [hs k hk i j (Finset.mem_range.1 hi) (Finset.mem_range.1 hj)]
  rw [e1, e2]
  ring

/-- **C61 (symmetry).** Symmetrising the equations does not change the feasible set. -/
theorem primalSym_feasible (p : Primal K) (X : ℕ → ℕ → ℕ → K) : Feasible (primalSym p) X ↔ Feasible p X := by
  unfold Feasible primalSym
  simp only [List.mem_map]
  apply and_congr_right
  intro hpsd
  have hl : ∀ r, Primal.lhs ⟨p.nb, p.n, p.eqs.map (symCo p.n)⟩ r X = p.lhs r X := fun _ => rfl
  constructor
  · intro h r hr
    have := h _ ⟨r, hr, rfl⟩
    rw [hl, symCo_lhs p r X (fun k hk => (hpsd k hk).1)] at this
    exact this
  · rintro h _ ⟨r, hr, rfl⟩
    rw [hl, symCo_lhs p r X (fun k hk => (hpsd k hk).1)]
    exact h r hr

/-! ### Zero diagonals -/

/-- the coefficient matrices of an equation are symmetric -/
def SymRow (p : Primal K) (r : Row K) : Prop :=
  ∀ k, k < p.nb → ∀ i j, i < p.n k → j < p.n k → r.co k (i * p.n k + j) = r.co k (j * p.n k + i)

theorem psd_diag_nonneg (n : ℕ) (M : ℕ → ℕ → K) (h : PSD n M) (i : ℕ) (hi : i < n) : 0 ≤ M i i := by
  have := h.2 (fun k => if k = i then 1 else 0)
  have e : ∑ a ∈ range n, ∑ b ∈ range n, (if a = i then (1 : K) else 0) * M a b * (if b = i then 1 else 0) = M i i := by
    rw [Finset.sum_eq_single i]
    · rw [Finset.sum_eq_single i]
      · simp
      · intro b _ hb; rw [if_neg hb, mul_zero]
      · intro hh; exact absurd (Finset.mem_range.2 hi) hh
    · intro a _ ha
      apply Finset.sum_eq_zero
      intro b _
      rw [if_neg ha, zero_mul, zero_mul]
    · intro hh; exact absurd (Finset.mem_range.2 hi) hh
  rw [e] at this
  exact this

theorem scanEq_sound (p : Primal K) (zeros : List (ℕ × ℕ)) (r : Row K) (hr : r.rhs = 0) (hsr : SymRow p r) (X : ℕ → ℕ → ℕ → K)
    (hpsd : ∀ k, k < p.nb → PSD (p.n k) (X k)) (heq : p.lhs r X = r.rhs)
    (hz : ∀ q ∈ zeros, q.1 < p.nb ∧ q.2 < p.n q.1 ∧ X q.1 q.2 q.2 = 0) (qs : List (ℕ × ℕ)) (h : scanEq p zeros r = some qs) :
    ∀ q ∈ qs, q.1 < p.nb ∧ q.2 < p.n q.1 ∧ X q.1 q.2 q.2 = 0 := by
  unfold scanEq at h
  split_ifs at h with hoff
  have hd : diagZeros p zeros r = some qs := by
    revert h
    cases diagZeros p zeros r with
    | none => intro h; cases h
    | some l =>
      cases l with
      | nil => intro h; cases h
      | cons a l => intro h; exact h
  clear h
  unfold diagZeros at hd
  simp only at hd
  set cand := (List.range p.nb).flatMap fun k => ((List.range (p.n k)).map fun i => (k, i)).filter fun q => !zeros.contains q with hcand
  have hmc : ∀ q : ℕ × ℕ, q ∈ cand ↔ q.1 < p.nb ∧ q.2 < p.n q.1 ∧ q ∉ zeros := by
    intro q
    obtain ⟨a, b⟩ := q
    rw [hcand]
    simp only [List.mem_flatMap, List.mem_filter, List.mem_map, List.mem_range, Prod.mk.injEq]
    constructor
    · rintro ⟨k, hk, ⟨i, hi, rfl, rfl⟩, hn⟩
      exact ⟨hk, hi, by simpa using hn⟩
    · rintro ⟨h1, h2, h3⟩
      exact ⟨a, h1, ⟨b, h2, rfl, rfl⟩, by simpa using h3⟩
  split_ifs at hd with hneg
  have hd := Option.some.inj hd
  subst hd
  have hnn : ∀ q ∈ cand, 0 ≤ r.co q.1 (q.2 * p.n q.1 + q.2) := by
    intro q hq
    by_contra hc
    apply hneg
    rw [List.any_eq_true]
    exact ⟨q, hq, by simpa using hc⟩
  -- every term of the equation is the diagonal term or zero
  have hoff' : ∀ k, k < p.nb → ∀ i j, i < p.n k → j < i → (k, i) ∉ zeros → (k, j) ∉ zeros → r.co k (i * p.n k + j) = 0 := by
    intro k hk i j hi hj h1 h2
    unfold offDiagOk at hoff
    rw [List.all_eq_true] at hoff
    have := hoff k (List.mem_range.2 hk)
    rw [List.all_eq_true] at this
    have := this i (List.mem_range.2 hi)
    rw [Bool.or_eq_true] at this
    rcases this with h | h
    · exact absurd (by simpa using h) h1
    · rw [List.all_eq_true] at h
      have := h j (List.mem_range.2 hj)
      rw [Bool.or_eq_true] at this
      rcases this with h | h
      · exact absurd (by simpa using h) h2
      · simpa using h
  have hterm : ∀ k, k < p.nb → ∀ i j, i < p.n k → j < p.n k → r.co k (i * p.n k + j) * X k i j =
      if i = j then r.co k (i * p.n k + i) * X k i i else 0 := by
    intro k hk i j hi hj
    by_cases hij : i = j
    · subst hij; rw [if_pos rfl]
    rw [if_neg hij]
    by_cases h1 : (k, i) ∈ zeros
    · rw [psd_zero_row (p.n k) (X k) (hpsd k hk) i hi (hz _ h1).2.2 j hj, mul_zero]
    by_cases h2 : (k, j) ∈ zeros
    · rw [(hpsd k hk).1 i j hi hj, psd_zero_row (p.n k) (X k) (hpsd k hk) j hj (hz _ h2).2.2 i hi, mul_zero]
    rcases Nat.lt_or_ge j i with h | h
    · rw [hoff' k hk i j hi h h1 h2, zero_mul]
    · rw [hsr k hk i j hi hj, hoff' k hk j i hj (by omega) h2 h1, zero_mul]
  have hsum : ∑ k ∈ range p.nb, ∑ i ∈ range (p.n k), r.co k (i * p.n k + i) * X k i i = 0 := by
    rw [hr] at heq
    rw [← heq]
    unfold Primal.lhs
    apply Finset.sum_congr rfl
    intro k hk
    apply Finset.sum_congr rfl
    intro i hi
    rw [Finset.sum_congr rfl (fun j hj => hterm k (Finset.mem_range.1 hk) i j (Finset.mem_range.1 hi) (Finset.mem_range.1 hj))]
    rw [Finset.sum_ite_eq, if_pos hi]
  have hnonneg : ∀ k ∈ range p.nb, ∀ i ∈ range (p.n k), 0 ≤ r.co k (i * p.n k + i) * X k i i := by
    intro k hk i hi
    rw [Finset.mem_range] at hk hi
    by_cases h1 : (k, i) ∈ zeros
    · rw [(hz _ h1).2.2, mul_zero]
    · exact mul_nonneg (hnn (k, i) ((hmc _).2 ⟨hk, hi, h1⟩)) (psd_diag_nonneg _ _ (hpsd k hk) i hi)
  intro q hq
  obtain ⟨hq1, hq2⟩ := List.mem_filter.1 hq
  obtain ⟨h1, h2, h3⟩ := (hmc q).1 hq1
  refine ⟨h1, h2, ?_⟩
  have hk0 := (Finset.sum_eq_zero_iff_of_nonneg (fun k hk => Finset.sum_nonneg (hnonneg k hk))).1 hsum q.1 (Finset.mem_range.2 h1)
  have hi0 := (Finset.sum_eq_zero_iff_of_nonneg (hnonneg q.1 (Finset.mem_range.2 h1))).1 hk0 q.2 (Finset.mem_range.2 h2)
  exact (mul_eq_zero.1 hi0).resolve_left (by simpa using hq2)

theorem scanAll_sound (p : Primal K) (zeros : List (ℕ × ℕ)) (X : ℕ → ℕ → ℕ → K) (hpsd : ∀ k, k < p.nb → PSD (p.n k) (X k))
    (hz : ∀ q ∈ zeros, q.1 < p.nb ∧ q.2 < p.n q.1 ∧ X q.1 q.2 q.2 = 0) :
    ∀ (rs done : List (Row K)), (∀ r ∈ done ++ rs, r.rhs = 0 ∧ SymRow p r ∧ p.lhs r X = r.rhs) →
    ∀ zeros' rs', scanAll p zeros done rs = some (zeros', rs') →
      (∀ q ∈ zeros', q.1 < p.nb ∧ q.2 < p.n q.1 ∧ X q.1 q.2 q.2 = 0) ∧ (∀ r ∈ rs', r ∈ done ++ rs) := by
  intro rs
  induction rs with
  | nil => intro done _ z' r' h; cases h
  | cons r rs ih =>
    intro done hr z' r' h
    unfold scanAll at h
    cases hs : scanEq p zeros r with
    | some qs =>
      rw [hs] at h
      obtain ⟨rfl, rfl⟩ := Prod.mk.inj (Option.some.inj h)
      have hrr := hr r (by simp)
      refine ⟨?_, ?_⟩
      · intro q hq
        rcases List.mem_append.1 hq with hq | hq
        · exact hz q hq
        · exact scanEq_sound p zeros r hrr.1 hrr.2.1 X hpsd hrr.2.2 hz qs hs q hq
      · intro s hs
        rcases List.mem_append.1 hs with hs | hs
        · exact List.mem_append_left _ hs
        · exact List.mem_append_right _ (List.mem_cons_of_mem _ hs)
    | none =>
      rw [hs] at h
      have e : (done ++ [r]) ++ rs = done ++ r :: rs := by simp
      obtain ⟨h1, h2⟩ := ih (done ++ [r]) (by rw [e]; exact hr) z' r' h
      exact ⟨h1, by rw [e] at h2; exact h2⟩

theorem zeroLoop_sound (p : Primal K) (X : ℕ → ℕ → ℕ → K) (hpsd : ∀ k, k < p.nb → PSD (p.n k) (X k)) :
    ∀ (fuel : ℕ) (zeros : List (ℕ × ℕ)) (rs : List (Row K)), (∀ r ∈ rs, r.rhs = 0 ∧ SymRow p r ∧ p.lhs r X = r.rhs) →
    (∀ q ∈ zeros, q.1 < p.nb ∧ q.2 < p.n q.1 ∧ X q.1 q.2 q.2 = 0) →
    ∀ q ∈ zeroLoop p fuel zeros rs, q.1 < p.nb ∧ q.2 < p.n q.1 ∧ X q.1 q.2 q.2 = 0 := by
  intro fuel
  induction fuel with
  | zero => intro zeros rs _ hz; exact hz
  | succ fuel ih =>
    intro zeros rs hr hz
    unfold zeroLoop
    cases hs : scanAll p zeros [] rs with
    | none => exact hz
    | some z =>
      obtain ⟨zeros', rs'⟩ := z
      obtain ⟨h1, h2⟩ := scanAll_sound p zeros X hpsd hz rs [] (by simpa using hr) zeros' rs' hs
      exact ih zeros' rs' (fun r hr' => hr r (by simpa using h2 r hr')) h1

/-- **C61 (zero diagonals), partial.** If the coefficient matrices of the homogeneous equations are symmetric, every
reported index is a diagonal entry that vanishes at every feasible point, and with it the whole row.  Missing: equations
with non-symmetric coefficients, see below. -/
theorem zeroDiagonals_sound_partial (p : Primal K) (hsym : ∀ r ∈ p.eqs, r.rhs = 0 → SymRow p r) (X : ℕ → ℕ → ℕ → K)
    (hf : Feasible p X) (q : ℕ × ℕ) (hq : q ∈ zeroDiagonals p) :
    q.1 < p.nb ∧ q.2 < p.n q.1 ∧ X q.1 q.2 q.2 = 0 ∧ ∀ j, j < p.n q.1 → X q.1 q.2 j = 0 := by
  have := zeroLoop_sound p X hf.1 _ [] (p.eqs.filter fun r => decide (r.rhs = 0)) (fun r hr => by
    obtain ⟨h1, h2⟩ := List.mem_filter.1 hr
    have h2 : r.rhs = 0 := by simpa using h2
    exact ⟨h2, hsym r h1 h2, hf.2 r h1⟩) (by simp) q hq
  exact ⟨this.1, this.2.1, this.2.2, psd_zero_row _ _ (hf.1 _ this.1) _ this.2.1 this.2.2⟩

/-- The single equation `X₀₀ - X₀₁ = 0`. -/
def skewPrimal : Primal ℚ := ⟨1, fun _ => 2, [⟨fun _ e => [1, -1, 0, 0].getD e 0, 0⟩]⟩

/-- **C61 violated.** For the equation `X₀₀ - X₀₁ = 0`, written with a non-symmetric coefficient matrix, the first diagonal
entry is reported as zero although the all-ones matrix is feasible. -/
theorem zeroDiagonals_wrong : (0, 0) ∈ zeroDiagonals skewPrimal ∧ Feasible skewPrimal (fun _ _ _ => 1) := by
  refine ⟨by decide +kernel, ?_, ?_⟩
  · intro k _
    refine ⟨fun _ _ _ _ => rfl, fun x => ?_⟩
    have e : ∑ i ∈ range 2, ∑ j ∈ range 2, x i * 1 * x j = (x 0 + x 1) * (x 0 + x 1) := by
      simp [Finset.sum_range_succ]; ring
    rw [show skewPrimal.n k = 2 from rfl, e]
    exact mul_self_nonneg _
  · intro r hr
    have hr : r = ⟨fun _ e => [1, -1, 0, 0].getD e 0, 0⟩ := by simpa [skewPrimal] using hr
    subst hr
    decide +kernel

/-! ### Row masking -/

theorem padMat_get (n : ℕ) (mask : List ℕ) (X : ℕ → ℕ → K) (a c : ℕ) (ha : a < (unmask n mask).length) (hc : c < (unmask n mask).length) :
    padMat (unmask n mask) X ((unmask n mask).getD a 0) ((unmask n mask).getD c 0) = X a c := by
  have hnd : (unmask n mask).Nodup := List.nodup_range.filter _
  unfold padMat
  rw [List.getD_eq_getElem?_getD, List.getElem?_eq_getElem ha, List.getD_eq_getElem?_getD, List.getElem?_eq_getElem hc]
  simp only [Option.getD_some]
  rw [if_pos ⟨List.getElem_mem ha, List.getElem_mem hc⟩, hnd.idxOf_getElem, hnd.idxOf_getElem]

theorem mask_not_um (n : ℕ) (mask : List ℕ) (i : ℕ) (hi : i ∈ mask) : i ∉ unmask n mask := by
  intro h
  have := (List.mem_filter.1 h).2
  simp at this
  exact this hi

/-- a double sum over all rows and columns is one over the unmasked ones if masked rows and columns vanish -/
theorem sum_um2 (n : ℕ) (mask : List ℕ) (f : ℕ → ℕ → K) (h1 : ∀ i ∈ mask, ∀ j, j < n → f i j = 0) (h2 : ∀ j ∈ mask, ∀ i, i < n → f i j = 0) :
    ∑ i ∈ range n, ∑ j ∈ range n, f i j = ∑ a ∈ range (unmask n mask).length, ∑ c ∈ range (unmask n mask).length,
      f ((unmask n mask).getD a 0) ((unmask n mask).getD c 0) := by
  rw [sum_um n mask _ (fun i hi => Finset.sum_eq_zero (fun j hj => h1 i hi j (Finset.mem_range.1 hj)))]
  apply Finset.sum_congr rfl
  intro a ha
  exact sum_um n mask _ (fun j hj => h2 j hj _ (um_mem_lt (Finset.mem_range.1 ha)))

theorem mask_lhs (p : Primal K) (masks : ℕ → List ℕ) (r : Row K) (X : ℕ → ℕ → ℕ → K) (X' : ℕ → ℕ → ℕ → K)
    (h1 : ∀ k, k < p.nb → ∀ i ∈ masks k, ∀ j, j < p.n k → X k i j = 0) (h2 : ∀ k, k < p.nb → ∀ j ∈ masks k, ∀ i, i < p.n k → X k i j = 0)
    (h3 : ∀ k, k < p.nb → ∀ a c, a < (unmask (p.n k) (masks k)).length → c < (unmask (p.n k) (masks k)).length →
      X' k a c = X k ((unmask (p.n k) (masks k)).getD a 0) ((unmask (p.n k) (masks k)).getD c 0)) :
    (primalMask p masks).lhs ⟨fun k e => r.co k ((unmask (p.n k) (masks k)).getD (e / (unmask (p.n k) (masks k)).length) 0 * p.n k
        + (unmask (p.n k) (masks k)).getD (e % (unmask (p.n k) (masks k)).length) 0), r.rhs⟩ X' = p.lhs r X := by
  unfold Primal.lhs primalMask
  apply Finset.sum_congr rfl
  intro k hk
  have hk := Finset.mem_range.1 hk
  rw [sum_um2 (p.n k) (masks k) (fun i j => r.co k (i * p.n k + j) * X k i j) (fun i hi j hj => by rw [h1 k hk i hi j hj, mul_zero])
    (fun j hj i hi => by rw [h2 k hk j hj i hi, mul_zero])]
  apply Finset.sum_congr rfl
  intro a ha
  apply Finset.sum_congr rfl
  intro c hc
  rw [Finset.mem_range] at ha hc
  simp only
  simp only at ha hc
  have e1 : (a * (unmask (p.n k) (masks k)).length + c) / (unmask (p.n k) (masks k)).length = a := by
    rw [Nat.add_comm, Nat.mul_comm, Nat.add_mul_div_left _ _ (lt_of_le_of_lt (Nat.zero_le _) hc), Nat.div_eq_of_lt hc]; omega
  have e2 : (a * (unmask (p.n k) (masks k)).length + c) % (unmask (p.n k) (masks k)).length = c := by
    rw [Nat.add_comm, Nat.mul_comm, Nat.add_mul_mod_self_left, Nat.mod_eq_of_lt hc]
  rw [e1, e2, h3 k hk a c ha hc]

/-- **C61 (masking, child → parent).** Padding a feasible point of the masked problem with zero rows and columns gives a
feasible point of the parent. -/
theorem primalMask_pad (p : Primal K) (masks : ℕ → List ℕ) (hin : ∀ k, k < p.nb → ∀ i ∈ masks k, i < p.n k) (X' : ℕ → ℕ → ℕ → K)
    (hf : Feasible (primalMask p masks) X') : Feasible p (fun k => padMat (unmask (p.n k) (masks k)) (X' k)) := by
  have hrow : ∀ k, k < p.nb → ∀ i ∈ masks k, ∀ j, j < p.n k → padMat (unmask (p.n k) (masks k)) (X' k) i j = 0 := by
    intro k _ i hi j _
    unfold padMat
    rw [if_neg (fun h => mask_not_um _ _ _ hi h.1)]
  have hcol : ∀ k, k < p.nb → ∀ j ∈ masks k, ∀ i, i < p.n k → padMat (unmask (p.n k) (masks k)) (X' k) i j = 0 := by
    intro k _ j hj i _
    unfold padMat
    rw [if_neg (fun h => mask_not_um _ _ _ hj h.2)]
  have hget := fun k a c ha hc => padMat_get (p.n k) (masks k) (X' k) a c ha hc
  refine ⟨fun k hk => ?_, fun r hr => ?_⟩
  · apply psd_extend (p.n k) (masks k) _ _ (hrow k hk) (hin k hk)
    · rw [psd_congr _ _ (X' k) (fun a c ha hc => hget k a c ha hc)]
      exact hf.1 k hk
    · intro i j hi hj
      unfold padMat
      by_cases h : i ∈ unmask (p.n k) (masks k) ∧ j ∈ unmask (p.n k) (masks k)
      · rw [if_pos h, if_pos h.symm]
        exact (hf.1 k hk).1 _ _ (List.idxOf_lt_length_of_mem h.1) (List.idxOf_lt_length_of_mem h.2)
      · rw [if_neg h, if_neg (fun h' => h h'.symm)]
  · have := hf.2 _ (List.mem_map.2 ⟨r, hr, rfl⟩)
    rw [mask_lhs p masks r _ X' hrow hcol (fun k _ a c ha hc => (hget k a c ha hc).symm)] at this
    exact this

/-- **C61 (masking, parent → child).** A feasible point of the parent whose masked rows vanish is the padding of a feasible
point of the masked problem, namely of its unmasked part. -/
theorem primalMask_restrict (p : Primal K) (masks : ℕ → List ℕ) (X : ℕ → ℕ → ℕ → K) (hf : Feasible p X)
    (hin : ∀ k, k < p.nb → ∀ i ∈ masks k, i < p.n k) (hz : ∀ k, k < p.nb → ∀ i ∈ masks k, ∀ j, j < p.n k → X k i j = 0) :
    let X' := fun k a c => X k ((unmask (p.n k) (masks k)).getD a 0) ((unmask (p.n k) (masks k)).getD c 0)
    Feasible (primalMask p masks) X' ∧ ∀ k, k < p.nb → ∀ i j, i < p.n k → j < p.n k → padMat (unmask (p.n k) (masks k)) (X' k) i j = X k i j := by
  intro X'
  have hcol : ∀ k, k < p.nb → ∀ j ∈ masks k, ∀ i, i < p.n k → X k i j = 0 := by
    intro k hk j hj i hi
    rw [(hf.1 k hk).1 i j hi (hin k hk j hj)]
    exact hz k hk j hj i hi
  refine ⟨⟨fun k hk => psd_restrict _ _ _ (hf.1 k hk), fun r hr => ?_⟩, ?_⟩
  · obtain ⟨r, hr', rfl⟩ := List.mem_map.1 hr
    rw [mask_lhs p masks r X X' hz hcol (fun k _ a c _ _ => rfl)]
    exact hf.2 r hr'
  · intro k hk i j hi hj
    have hum : ∀ i, i < p.n k → i ∉ masks k → i ∈ unmask (p.n k) (masks k) := fun i hi h =>
      List.mem_filter.2 ⟨List.mem_range.2 hi, by simpa using h⟩
    have hidx : ∀ i, i ∈ unmask (p.n k) (masks k) → (unmask (p.n k) (masks k)).getD ((unmask (p.n k) (masks k)).idxOf i) 0 = i := by
      intro i h
      rw [List.getD_eq_getElem?_getD, List.getElem?_eq_getElem (List.idxOf_lt_length_of_mem h)]
      simp
    unfold padMat
    by_cases h : i ∈ unmask (p.n k) (masks k) ∧ j ∈ unmask (p.n k) (masks k)
    · rw [if_pos h]
      simp only [X']
      rw [hidx i h.1, hidx j h.2]
    · rw [if_neg h]
      by_cases h1 : i ∈ masks k
      · exact (hz k hk i h1 j hj).symm
      · by_cases h2 : j ∈ masks k
        · exact (hcol k hk j h2 i hi).symm
        · exact absurd ⟨hum i hi h1, hum j hj h2⟩ h

/-- **C61 (masking the reported zero diagonals).** For symmetric equations, the feasible points of the parent are exactly
the paddings of the feasible points of the child. -/
theorem primalMask_zeroDiagonals (p : Primal K) (hsym : ∀ r ∈ p.eqs, r.rhs = 0 → SymRow p r) (masks : ℕ → List ℕ)
    (hm : ∀ k i, i ∈ masks k → (k, i) ∈ zeroDiagonals p) (hin : ∀ k, k < p.nb → ∀ i ∈ masks k, i < p.n k) (X : ℕ → ℕ → ℕ → K) :
    Feasible p X ↔ ∃ X', Feasible (primalMask p masks) X' ∧
      ∀ k, k < p.nb → ∀ i j, i < p.n k → j < p.n k → padMat (unmask (p.n k) (masks k)) (X' k) i j = X k i j := by
  constructor
  · intro hf
    exact ⟨_, primalMask_restrict p masks X hf hin (fun k hk i hi j hj =>
      (zeroDiagonals_sound_partial p hsym X hf (k, i) (hm k i hi)).2.2.2 j hj)⟩
  · rintro ⟨X', hf, hX⟩
    have := primalMask_pad p masks hin X' hf
    refine ⟨fun k hk => (psd_congr _ _ _ (hX k hk)).1 (this.1 k hk), fun r hr => ?_⟩
    rw [← this.2 r hr]
    unfold Primal.lhs
    apply Finset.sum_congr rfl
    intro k hk
    apply Finset.sum_congr rfl
    intro i hi
    apply Finset.sum_congr rfl
    intro j hj
    beta_reduce
    rw [hX k (Finset.mem_range.1 hk) i j (Finset.mem_range.1 hi) (Finset.mem_range.1 hj)]

/-- **C61 (masking, decomposition).** Padding the factor gives a decomposition of the padded matrix. -/
theorem pad_decomposition (n rr : ℕ) (mask : List ℕ) (X U : ℕ → ℕ → K) (D : ℕ → K)
    (h : ∀ a c, a < (unmask n mask).length → c < (unmask n mask).length → X a c = ∑ s ∈ range rr, D s * U s a * U s c) (i j : ℕ) :
    padMat (unmask n mask) X i j = ∑ s ∈ range rr, D s * padCols (unmask n mask) U s i * padCols (unmask n mask) U s j := by
  unfold padMat padCols
  by_cases hi : i ∈ unmask n mask
  · by_cases hj : j ∈ unmask n mask
    · rw [if_pos ⟨hi, hj⟩, h _ _ (List.idxOf_lt_length_of_mem hi) (List.idxOf_lt_length_of_mem hj)]
      simp only [if_pos hi, if_pos hj]
    · rw [if_neg (fun h => hj h.2)]
      simp only [if_neg hj, mul_zero, Finset.sum_const_zero]
  · rw [if_neg (fun h => hi h.1)]
    simp only [if_neg hi, mul_zero, zero_mul, Finset.sum_const_zero]

/-! ### Conversion to dual form -/

theorem offset_mono (n : ℕ → ℕ) {a b : ℕ} (h : a ≤ b) : offset n a ≤ offset n b := by
  unfold offset
  apply Finset.sum_le_sum_of_subset
  intro x hx
  rw [Finset.mem_range] at hx ⊢
  omega

theorem blockOf_eq (n : ℕ → ℕ) : ∀ (nb k e : ℕ), k < nb → e < n k * n k → blockOf n nb (offset n k + e) = k := by
  intro nb
  induction nb with
  | zero => intro k e h; omega
  | succ nb ih =>
    intro k e hk he
    unfold blockOf
    by_cases h : k = nb
    · subst h; rw [if_pos (by omega)]
    · have h1 : offset n k + e < offset n (k + 1) := by
        unfold offset; rw [Finset.sum_range_succ]; omega
      have h2 := offset_mono n (show k + 1 ≤ nb by omega)
      rw [if_neg (by omega)]
      exact ih k e (by omega) he

theorem sum_offset (n : ℕ → ℕ) (f : ℕ → K) : ∀ nb, ∑ l ∈ range (offset n nb), f l = ∑ k ∈ range nb, ∑ i ∈ range (n k), ∑ j ∈ range (n k), f (offset n k + (i * n k + j)) := by
  intro nb
  induction nb with
  | zero => simp [offset]
  | succ nb ih =>
    have : offset n (nb + 1) = offset n nb + n nb * n nb := by unfold offset; rw [Finset.sum_range_succ]
    rw [this, Finset.sum_range_add, ih, Finset.sum_range_succ, sum_flat]

theorem fullRow_sum (p : Primal K) (r : Row K) (v : ℕ → K) :
    ∑ l ∈ range (offset p.n p.nb), fullRow p r l * v l = p.lhs r (fun k i j => v (offset p.n k + (i * p.n k + j))) := by
  rw [sum_offset]
  unfold Primal.lhs
  apply Finset.sum_congr rfl
  intro k hk
  apply Finset.sum_congr rfl
  intro i hi
  apply Finset.sum_congr rfl
  intro j hj
  rw [Finset.mem_range] at hk hi hj
  have he : i * p.n k + j < p.n k * p.n k := by nlinarith
  unfold fullRow
  rw [blockOf_eq p.n p.nb k _ hk he, Nat.add_sub_cancel_left]

theorem lhs_congr (p : Primal K) (r : Row K) (X Y : ℕ → ℕ → ℕ → K)
    (h : ∀ k, k < p.nb → ∀ i j, i < p.n k → j < p.n k → X k i j = Y k i j) : p.lhs r X = p.lhs r Y := by
  unfold Primal.lhs
  apply Finset.sum_congr rfl
  intro k hk
  apply Finset.sum_congr rfl
  intro i hi
  apply Finset.sum_congr rfl
  intro j hj
  rw [h k (Finset.mem_range.1 hk) i j (Finset.mem_range.1 hi) (Finset.mem_range.1 hj)]

theorem optMat (d d' : Dual K) (o : Option (Aff K)) (h : constrainSymmetry d = .ok (o, d')) :
    d'.blocks.length = d.blocks.length ∧ ∀ (z : ℕ → K) (k : ℕ) (hk : k < d.blocks.length) (hk' : k < d'.blocks.length),
      (d'.blocks[k]).n = (d.blocks[k]).n ∧ (d'.blocks[k]).mat d'.dof z = (d.blocks[k]).mat d.dof (optApp o z) := by
  unfold constrainSymmetry fromRows at h
  by_cases he : (d.blocks.flatMap symRows).isEmpty = true
  · rw [if_pos he] at h
    obtain ⟨rfl, rfl⟩ := Prod.mk.inj (Except.ok.inj h)
    exact ⟨rfl, fun z k _ _ => ⟨rfl, rfl⟩⟩
  · rw [if_neg he] at h
    cases hs : solveEqs d.dof (d.blocks.flatMap symRows) with
    | error e => rw [hs] at h; cases h
    | ok t =>
      rw [hs] at h
      obtain ⟨rfl, rfl⟩ := Prod.mk.inj (Except.ok.inj h)
      refine ⟨by simp [vectorTransform], fun z k hk hk' => ?_⟩
      simp only [vectorTransform, List.getElem_map]
      exact ⟨rfl, mat_subst _ _ _ _⟩

/-- **C62.** Conversion of a primal problem to dual form keeps the feasible set: matrices `X` are feasible for the primal
problem exactly when they are the matrices of the dual problem at some feasible `z`. -/
theorem toDual_feasible (p : Primal K) (d : Dual K) (h : toDual p = .ok d) (X : ℕ → ℕ → ℕ → K) :
    d.blocks.length = p.nb ∧ (Feasible p X ↔ ∃ z, Sdp.Feasible d z ∧ ∀ k (hk : k < d.blocks.length), ∀ i j, i < p.n k → j < p.n k →
      X k i j = (d.blocks[k]).mat d.dof z i j) := by
  unfold toDual at h
  cases hs : solveEqs (offset p.n p.nb) (p.eqs.map fun r => (fullRow p r, - r.rhs)) with
  | error e => rw [hs] at h; cases h
  | ok t =>
    rw [hs] at h
    simp only at h
    set d0 : Dual K := ⟨t.dim, (List.range p.nb).map fun k =>
        ⟨p.n k, fun e => t.x0 (offset p.n k + e), fun e m => t.sp (offset p.n k + e) m⟩⟩ with hd0
    cases hc : constrainSymmetry d0 with
    | error e => rw [hc] at h; cases h
    | ok r =>
      obtain ⟨o, d'⟩ := r
      rw [hc] at h
      have := Except.ok.inj h
      subst this
      obtain ⟨hlen, hmat⟩ := optMat d0 _ o hc
      have hl0 : d0.blocks.length = p.nb := by rw [hd0]; simp
      refine ⟨by rw [hlen, hl0], ?_⟩
      obtain ⟨hsol, -⟩ := solveEqs_ok _ _ _ hs
      have hspec := (constrainSymmetry_spec d0).1 o _ hc
      have hmat0 : ∀ (z : ℕ → K) k (hk : k < d0.blocks.length) i j, (d0.blocks[k]).mat d0.dof z i j = t.app z (offset p.n k + (i * p.n k + j)) := by
        intro z k hk i j
        simp only [hd0, List.getElem_map, List.getElem_range]
        rfl
      have hn0 : ∀ k (hk : k < d0.blocks.length), (d0.blocks[k]).n = p.n k := by
        intro k hk
        simp [hd0]
      have heqs : ∀ z : ℕ → K, ∀ r ∈ p.eqs, p.lhs r (fun k i j => t.app z (offset p.n k + (i * p.n k + j))) = r.rhs := by
        intro z r hr
        have := (hsol (t.app z)).2 ⟨z, fun _ _ => rfl⟩ _ (List.mem_map.2 ⟨r, hr, rfl⟩)
        rw [fullRow_sum] at this
        simp only at this
        linear_combination this
      constructor
      · intro hf
        -- the stacked vector of X solves the equations
        let v : ℕ → K := fun l => X (blockOf p.n p.nb l) ((l - offset p.n (blockOf p.n p.nb l)) / p.n (blockOf p.n p.nb l))
          ((l - offset p.n (blockOf p.n p.nb l)) % p.n (blockOf p.n p.nb l))
        have hv : ∀ k, k < p.nb → ∀ i j, i < p.n k → j < p.n k → v (offset p.n k + (i * p.n k + j)) = X k i j := by
          intro k hk i j hi hj
          have he : i * p.n k + j < p.n k * p.n k := by nlinarith
          simp only [v]
          rw [blockOf_eq p.n p.nb k _ hk he, Nat.add_sub_cancel_left]
          have e1 : (i * p.n k + j) / p.n k = i := by
            rw [Nat.add_comm, Nat.mul_comm, Nat.add_mul_div_left _ _ (by omega), Nat.div_eq_of_lt hj]; omega
          have e2 : (i * p.n k + j) % p.n k = j := by
            rw [Nat.add_comm, Nat.mul_comm, Nat.add_mul_mod_self_left, Nat.mod_eq_of_lt hj]
          rw [e1, e2]
        obtain ⟨z0, hz0⟩ := (hsol v).1 (by
          intro rr hrr
          obtain ⟨r, hr, rfl⟩ := List.mem_map.1 hrr
          rw [fullRow_sum, lhs_congr p r _ X hv, hf.2 r hr]
          ring)
        have hoff : ∀ k, k < p.nb → ∀ i j, i < p.n k → j < p.n k → offset p.n k + (i * p.n k + j) < offset p.n p.nb := by
          intro k hk i j hi hj
          have he : i * p.n k + j < p.n k * p.n k := by nlinarith
          have h1 : offset p.n (k + 1) = offset p.n k + p.n k * p.n k := by unfold offset; rw [Finset.sum_range_succ]
          have h2 := offset_mono p.n (show k + 1 ≤ p.nb by omega)
          omega
        have hXz : ∀ k, k < p.nb → ∀ i j, i < p.n k → j < p.n k → X k i j = t.app z0 (offset p.n k + (i * p.n k + j)) := by
          intro k hk i j hi hj
          rw [← hv k hk i j hi hj, hz0 _ (hoff k hk i j hi hj)]
        have hfd : Sdp.Feasible d0 z0 := by
          intro b hb
          obtain ⟨k, hk, rfl⟩ := List.mem_iff_getElem.1 hb
          rw [hn0 k hk]
          rw [psd_congr (p.n k) _ (X k)]
          · exact hf.1 k (by omega)
          · intro i j hi hj
            rw [hmat0 z0 k hk, hXz k (by omega) i j hi hj]
        obtain ⟨z, hzz, hfz⟩ := (hspec z0).1 hfd
        refine ⟨z, hfz, ?_⟩
        intro k hk i j hi hj
        rw [(hmat z k (by omega) hk).2, ← mat_congr _ d0.dof hzz, hmat0 z0 k (by omega)]
        exact hXz k (by omega) i j hi hj
      · rintro ⟨z, hfz, hX⟩
        have hXz : ∀ k, k < p.nb → ∀ i j, i < p.n k → j < p.n k → X k i j = t.app (optApp o z) (offset p.n k + (i * p.n k + j)) := by
          intro k hk i j hi hj
          rw [hX k (by omega) i j hi hj, (hmat z k (by omega) (by omega)).2, hmat0 _ k (by omega)]
        refine ⟨fun k hk => ?_, fun r hr => ?_⟩
        · have := hfz _ (List.getElem_mem (show k < _ by omega))
          rw [(hmat z k (by omega) (by omega)).1, hn0 k (by omega)] at this
          rw [psd_congr (p.n k) (X k) _ (fun i j hi hj => hX k (by omega) i j hi hj)]
          exact this
        · rw [lhs_congr p r X _ hXz]
          exact heqs (optApp o z) r hr

/-- **C62 (refusal).** If the conversion raises, the primal problem has no feasible point. -/
theorem toDual_error (p : Primal K) (e : PyErr) (h : toDual p = .error e) : ¬ ∃ X, Feasible p X := by
  rintro ⟨X, hf⟩
  unfold toDual at h
  let v : ℕ → K := fun l => X (blockOf p.n p.nb l) ((l - offset p.n (blockOf p.n p.nb l)) / p.n (blockOf p.n p.nb l))
    ((l - offset p.n (blockOf p.n p.nb l)) % p.n (blockOf p.n p.nb l))
  have hv : ∀ k, k < p.nb → ∀ i j, i < p.n k → j < p.n k → v (offset p.n k + (i * p.n k + j)) = X k i j := by
    intro k hk i j hi hj
    have he : i * p.n k + j < p.n k * p.n k := by nlinarith
    simp only [v]
    rw [blockOf_eq p.n p.nb k _ hk he, Nat.add_sub_cancel_left]
    have e1 : (i * p.n k + j) / p.n k = i := by
      rw [Nat.add_comm, Nat.mul_comm, Nat.add_mul_div_left _ _ (by omega), Nat.div_eq_of_lt hj]; omega
    have e2 : (i * p.n k + j) % p.n k = j := by
      rw [Nat.add_comm, Nat.mul_comm, Nat.add_mul_mod_self_left, Nat.mod_eq_of_lt hj]
    rw [e1, e2]
  have hveq : ∀ rr ∈ p.eqs.map (fun r => (fullRow p r, - r.rhs)), ∑ l ∈ range (offset p.n p.nb), rr.1 l * v l + rr.2 = 0 := by
    intro rr hrr
    obtain ⟨r, hr, rfl⟩ := List.mem_map.1 hrr
    rw [fullRow_sum, lhs_congr p r _ X hv, hf.2 r hr]
    ring
  cases hs : solveEqs (offset p.n p.nb) (p.eqs.map fun r => (fullRow p r, - r.rhs)) with
  | error e' =>
    exact (solveEqs_error _ _ _ hs).2 ⟨v, hveq⟩
  | ok t =>
    rw [hs] at h
    simp only at h
    cases hc : constrainSymmetry (⟨t.dim, (List.range p.nb).map fun k =>
        ⟨p.n k, fun e => t.x0 (offset p.n k + e), fun e m => t.sp (offset p.n k + e) m⟩⟩ : Dual K) with
    | ok r => rw [hc] at h; cases h
    | error e' =>
      obtain ⟨-, hno⟩ := (constrainSymmetry_spec _).2 e' hc
      obtain ⟨z, hz⟩ := ((solveEqs_ok _ _ _ hs).1 v).1 hveq
      apply hno
      refine ⟨z, ?_⟩
      intro b hb i j hi hj
      obtain ⟨k, hk, rfl⟩ := List.mem_map.1 hb
      have hk := List.mem_range.1 hk
      have hoff : ∀ i j, i < p.n k → j < p.n k → offset p.n k + (i * p.n k + j) < offset p.n p.nb := by
        intro i j hi hj
        have he : i * p.n k + j < p.n k * p.n k := by nlinarith
        have h1 : offset p.n (k + 1) = offset p.n k + p.n k * p.n k := by unfold offset; rw [Finset.sum_range_succ]
        have h2 := offset_mono p.n (show k + 1 ≤ p.nb by omega)
        omega
      show t.app z (offset p.n k + (i * p.n k + j)) = t.app z (offset p.n k + (j * p.n k + i))
      rw [← hz _ (hoff i j hi hj), ← hz _ (hoff j i hj hi), hv k hk i j hi hj, hv k hk j i hj hi]
      exact (hf.1 k hk).1 i j hi hj

/-! ### Examples -/

/-- two blocks of sizes 2 and 1 with `X₀₀ + Y = 0` and `X₁₁ = 1` -/
def exPrimal : Primal ℚ := ⟨2, fun k => if k = 0 then 2 else 1,
  [⟨fun k e => if k = 0 then [1, 0, 0, 0].getD e 0 else 1, 0⟩, ⟨fun k e => if k = 0 then [0, 0, 0, 1].getD e 0 else 0, 1⟩]⟩

example : zeroDiagonals exPrimal = [(0, 0), (1, 0)] := by decide +kernel
example : (match toDual exPrimal with | .ok d => decide (d.blocks.map (·.n) = [2, 1]) | _ => false) = true := by decide +kernel
example : (primalNull exPrimal fun _ => ⟨fun i _ => if i = 0 then 1 else 0, 1⟩).eqs.length = 5 := by decide +kernel

end Verif.SdpPrimal
