import Verif.Model.UnivariateInterval
import Verif.Props.UnivariateTotal

/-!
# C19: interval proofs
-/

set_option linter.unusedSectionVars false

namespace Verif.Univariate
open Verif Finset

variable {K : Type*} [Field K] [LinearOrder K] [IsStrictOrderedRing K]

theorem trans_fold (p q : UPoly K) (x : K) (cs : List K) (hQ : UPoly K × UPoly K) (hq : uev q x ≠ 0) :
    uev (cs.foldl (transStep p q) hQ).1 x =
      uev q x ^ cs.length * (uev hQ.1 x * (uev p x / uev q x) ^ cs.length +
        uev hQ.2 x * uev cs.reverse (uev p x / uev q x)) := by
  induction cs generalizing hQ with
  | nil => simp
  | cons c cs ih =>
    rw [List.foldl_cons, ih]
    unfold transStep
    simp only [uev_padd, uev_pmul, uev_psmul, List.reverse_cons, List.length_cons, uev_append, uev_cons, uev_nil,
      List.length_reverse]
    set t := uev p x / uev q x with ht
    have hp : uev p x = t * uev q x := by rw [ht, div_mul_cancel₀ _ hq]
    rw [hp]; ring

/-- `f.transform(p, q)(x) = q(x)^n f(p(x)/q(x))`. -/
theorem uev_ptransform (f p q : UPoly K) (x : K) (hq : uev q x ≠ 0) :
    uev (ptransform f p q) x = uev q x ^ ((pstrip f).length - 1) * uev f (uev p x / uev q x) := by
  unfold ptransform
  rw [← uev_pstrip f]
  split
  · rename_i h
    have : pstrip f = [] := by simpa using h
    rw [this]; simp
  · rename_i c cs h
    rw [trans_fold p q x cs _ hq]
    have hf : pstrip f = cs.reverse ++ [c] := by
      rw [← List.reverse_reverse (pstrip f), h, List.reverse_cons]
    rw [hf, uev_append]
    simp only [uev_cons, uev_nil, List.length_append, List.length_reverse, List.length_cons, List.length_nil]
    rw [show cs.length + (0 + 1) - 1 = cs.length by omega]
    ring

theorem sosVal_flip (L : Sos K) (x : K) : sosVal (flipSos L) x = sosVal L x := by
  unfold sosVal flipSos
  rw [List.map_map]
  congr 1
  apply List.map_congr_left
  intro cp _
  simp only [Function.comp]
  split_ifs
  · rw [uev_psmul]; ring
  · rfl

theorem flip_nonneg (L : Sos K) (h : SosNonneg L) : SosNonneg (flipSos L) := by
  intro cp hcp
  unfold flipSos at hcp
  obtain ⟨cq, hcq, rfl⟩ := List.mem_map.1 hcp
  split_ifs
  · exact h cq hcq
  · exact h cq hcq

/-- The contract of `prove_univariate`, established for the model by `proveUnivariate_sound_partial`. -/
def ProverSound (prover : UPoly K → Except PyErr (Option (Sos K × Sos K))) : Prop :=
  ∀ g p, prover g = .ok (some p) →
    (∀ x, sosVal p.1 x + x * sosVal p.2 x = uev g x) ∧ SosNonneg p.1 ∧ SosNonneg p.2

theorem sosVal_tr (L : Sos K) (g : UPoly K → UPoly K) (x y : K) (h : ∀ p, uev (g p) x = uev p y) :
    sosVal (L.map fun cp => (cp.1, g cp.2)) x = sosVal L y := by
  unfold sosVal
  rw [List.map_map]
  congr 1
  apply List.map_congr_left
  intro cp _
  simp only [Function.comp, h]

theorem tr_nonneg (L : Sos K) (g : UPoly K → UPoly K) (h : SosNonneg L) :
    SosNonneg (L.map fun cp => (cp.1, g cp.2)) := by
  intro cp hcp
  obtain ⟨cq, hcq, rfl⟩ := List.mem_map.1 hcp
  exact h cq hcq

theorem backSos_spec (a b : K) (n : ℕ) (e : ℤ) (L L' : Sos K) (h : backSos a b n e L = .ok L') (hd : 0 < b - a) :
    (SosNonneg L → SosNonneg L') ∧
    ∀ x, x ≠ b → (0 ≤ e ∨ L = []) ∧ (b - a) ^ n * sosVal L' x = (b - x) ^ (2 * e.toNat) * sosVal L ((x - a) / (b - x)) := by
  induction L generalizing L' with
  | nil =>
    have := Except.ok.inj h
    subst this
    exact ⟨fun h => h, fun x _ => ⟨Or.inr rfl, by simp [sosVal]⟩⟩
  | cons cp L ih =>
    unfold backSos at h
    split at h
    · cases h
    · rename_i q hq
      split at h
      · cases h
      · rename_i L1 hL1
        have := Except.ok.inj h
        subst this
        obtain ⟨i1, i2⟩ := ih L1 hL1
        unfold backPoly at hq
        split at hq
        · cases hq
        · rename_i dp hdp
          split_ifs at hq with he
          have := Except.ok.inj hq
          subst this
          have he0 : 0 ≤ e := by omega
          refine ⟨?_, ?_⟩
          · intro hn cq hcq
            rcases List.mem_cons.1 hcq with rfl | hcq
            · exact div_nonneg (hn cp (by simp)) (pow_nonneg hd.le _)
            · exact i1 (fun c hc => hn c (List.mem_cons_of_mem _ hc)) cq hcq
          · intro x hx
            have hbx : b - x ≠ 0 := sub_ne_zero.2 (Ne.symm hx)
            refine ⟨Or.inl he0, ?_⟩
            have hv : sosVal ((cp.1 / (b - a) ^ n, pmul (ptransform cp.2 [-a, 1] [b, -1]) (ppow [b, -1] (e - dp).toNat)) :: L1) x =
                cp.1 / (b - a) ^ n * ((b - x) ^ e.toNat * uev cp.2 ((x - a) / (b - x))) ^ 2 + sosVal L1 x := by
              unfold sosVal
              rw [List.map_cons, List.sum_cons]
              congr 2
              rw [uev_pmul, uev_ppow, uev_ptransform]
              · simp only [uev_cons, uev_nil]
                have e1 : b + x * (-1 + x * 0) = b - x := by ring
                have e2 : -a + x * (1 + x * 0) = x - a := by ring
                rw [e1, e2, pdeg_length _ _ hdp]
                have : e.toNat = (dp + 1 - 1) + (e - dp).toNat := by omega
                rw [this, pow_add]; ring
              · simp only [uev_cons, uev_nil]
                have e1 : b + x * (-1 + x * 0) = b - x := by ring
                rw [e1]; exact hbx
            rw [hv, mul_add, (i2 x hx).2]
            have : sosVal (cp :: L) ((x - a) / (b - x)) = cp.1 * uev cp.2 ((x - a) / (b - x)) ^ 2 + sosVal L ((x - a) / (b - x)) := by
              simp [sosVal]
            rw [this, mul_add]
            congr 1
            have hda : (b - a) ^ n ≠ 0 := pow_ne_zero _ (ne_of_gt hd)
            rw [← mul_assoc, mul_div_cancel₀ _ hda]
            ring

/-- Value of a list of entries as a coefficient list. -/
def iPoly : List (IEntry K) → UPoly K
  | [] => []
  | e :: R => padd (pmul e.1 (e.2.foldr (fun cp acc => padd (psmul cp.1 (pmul cp.2 cp.2)) acc) [])) (iPoly R)

theorem uev_iPoly (R : List (IEntry K)) (x : K) : uev (iPoly R) x = iVal R x := by
  unfold iVal
  induction R with
  | nil => simp [iPoly]
  | cons e R ih =>
    have : ∀ L : Sos K, uev (L.foldr (fun cp acc => padd (psmul cp.1 (pmul cp.2 cp.2)) acc) []) x = sosVal L x := by
      intro L
      induction L with
      | nil => simp [sosVal]
      | cons cp L ihL =>
        simp only [List.foldr_cons, uev_padd, uev_psmul, uev_pmul, ihL, sosVal, List.map_cons, List.sum_cons]
        ring
    simp only [iPoly, uev_padd, uev_pmul, this, ih, List.map_cons, List.sum_cons]

/-- lower endpoint -/
def lowerOk (a : Option K) (x : K) : Prop := ∀ a', a = some a' → a' ≤ x
/-- upper endpoint -/
def upperOk (b : Option K) (x : K) : Prop := ∀ b', b = some b' → x ≤ b'

/-- **C19.** Whatever the interval, a returned proof has the value of the polynomial at every point, its weights are
nonnegative, its multipliers are nonnegative on the interval, and hence so is the polynomial. -/
theorem proveInterval_sound (prover : UPoly K → Except PyErr (Option (Sos K × Sos K))) (hp : ProverSound prover)
    (f : UPoly K) (a b : Option K) (R : List (IEntry K)) (h : proveInterval prover f a b = .ok (some R)) :
    (∀ x, iVal R x = uev f x) ∧ (∀ e ∈ R, SosNonneg e.2) ∧
    (∀ x, lowerOk a x → upperOk b x → ∀ e ∈ R, e.2 = [] ∨ 0 ≤ uev e.1 x) ∧
    (∀ x, lowerOk a x → upperOk b x → 0 ≤ uev f x) := by
  have main : (∀ x, iVal R x = uev f x) ∧ (∀ e ∈ R, SosNonneg e.2) ∧
    (∀ x, lowerOk a x → upperOk b x → ∀ e ∈ R, e.2 = [] ∨ 0 ≤ uev e.1 x) := by
    unfold proveInterval at h
    split at h
    · -- whole line
      split at h
      · cases h
      · cases Except.ok.inj h
      · rename_i p hpp
        obtain ⟨h1, h2, h3⟩ := hp _ _ hpp
        split_ifs at h with h0
        · cases Except.ok.inj h
        · have := Option.some.inj (Except.ok.inj h)
          subst this
          push Not at h0
          refine ⟨fun x => ?_, ?_, ?_⟩
          · rw [← h1 x]
            simp [iVal, sosVal_flip]
          · intro e he; simp at he
            rcases he with rfl | rfl
            · exact flip_nonneg _ h2
            · exact flip_nonneg _ h3
          · intro x _ _ e he; simp at he
            rcases he with rfl | rfl
            · right; simp
            · left; simp [h0, flipSos]
    · -- [a, oo)
      rename_i a
      split at h
      · cases h
      · cases Except.ok.inj h
      · rename_i p hpp
        obtain ⟨h1, h2, h3⟩ := hp _ _ hpp
        have := Option.some.inj (Except.ok.inj h)
        subst this
        have htr : ∀ x (q : UPoly K), uev (ptransform q [-a, 1] [1]) x = uev q (x - a) := by
          intro x q
          rw [uev_ptransform _ _ _ _ (by simp)]
          simp only [uev_cons, uev_nil]
          have e1 : (-a + x * (1 + x * 0)) / (1 + x * 0) = x - a := by simp; ring
          rw [e1]; simp
        refine ⟨fun x => ?_, ?_, ?_⟩
        · have := h1 (x - a)
          rw [uev_ptransform _ _ _ _ (by simp)] at this
          simp only [uev_cons, uev_nil] at this
          have e1 : (a + (x - a) * (1 + (x - a) * 0)) / (1 + (x - a) * 0) = x := by simp
          rw [e1] at this
          have e2 : (1 : K) + (x - a) * 0 = 1 := by ring
          rw [e2, one_pow, one_mul] at this
          rw [← this]
          simp only [iVal, List.map_cons, List.map_nil, List.sum_cons, List.sum_nil, sosVal_flip,
            sosVal_tr _ _ x (x - a) (htr x), uev_cons, uev_nil]
          ring
        · intro e he; simp at he
          rcases he with rfl | rfl
          · exact flip_nonneg _ (tr_nonneg _ (fun q => ptransform q [-a, 1] [1]) h2)
          · exact flip_nonneg _ (tr_nonneg _ (fun q => ptransform q [-a, 1] [1]) h3)
        · intro x hl _ e he; simp at he
          rcases he with rfl | rfl
          · right; simp
          · right
            have := hl a rfl
            simp only [uev_cons, uev_nil]
            linarith
    · -- (-oo, b]
      rename_i b
      split at h
      · cases h
      · cases Except.ok.inj h
      · rename_i p hpp
        obtain ⟨h1, h2, h3⟩ := hp _ _ hpp
        have := Option.some.inj (Except.ok.inj h)
        subst this
        have htr : ∀ x (q : UPoly K), uev (ptransform q [b, -1] [1]) x = uev q (b - x) := by
          intro x q
          rw [uev_ptransform _ _ _ _ (by simp)]
          simp only [uev_cons, uev_nil]
          have e1 : (b + x * (-1 + x * 0)) / (1 + x * 0) = b - x := by simp; ring
          rw [e1]; simp
        refine ⟨fun x => ?_, ?_, ?_⟩
        · have := h1 (b - x)
          rw [htr, sub_sub_cancel] at this
          rw [← this]
          simp only [iVal, List.map_cons, List.map_nil, List.sum_cons, List.sum_nil, sosVal_flip,
            sosVal_tr _ _ x (b - x) (htr x), uev_cons, uev_nil]
          ring
        · intro e he; simp at he
          rcases he with rfl | rfl
          · exact flip_nonneg _ (tr_nonneg _ (fun q => ptransform q [b, -1] [1]) h2)
          · exact flip_nonneg _ (tr_nonneg _ (fun q => ptransform q [b, -1] [1]) h3)
        · intro x _ hu e he; simp at he
          rcases he with rfl | rfl
          · right; simp
          · right
            have := hu b rfl
            simp only [uev_cons, uev_nil]
            linarith
    · -- [a, b]
      rename_i a b
      split_ifs at h with hd
      push Not at hd
      split at h
      · cases h
      · cases Except.ok.inj h
      · rename_i p hpp
        obtain ⟨h1, h2, h3⟩ := hp _ _ hpp
        split at h
        · cases h
        · rename_i n hn
          simp only at h
          split at h
          · cases h
          · rename_i L1 hL1
            split at h
            · cases h
            · rename_i L2 hL2
              have := Option.some.inj (Except.ok.inj h)
              subst this
              obtain ⟨s1, v1⟩ := backSos_spec a b n _ _ _ hL1 hd
              obtain ⟨s2, v2⟩ := backSos_spec a b n _ _ _ hL2 hd
              refine ⟨?_, ?_, ?_⟩
              · have hx : ∀ x, x ≠ b → iVal [(if n % 2 = 0 then [1] else [b, -1], flipSos L1),
                    (if n % 2 = 1 then [-a, 1] else pmul [-a, 1] [b, -1], flipSos L2)] x = uev f x := by
                  intro x hx
                  have hbx : b - x ≠ 0 := sub_ne_zero.2 (Ne.symm hx)
                  have hda : (b - a) ^ n ≠ 0 := pow_ne_zero _ (ne_of_gt hd)
                  obtain ⟨-, w1⟩ := v1 x hx
                  obtain ⟨g2, w2⟩ := v2 x hx
                  set y := (x - a) / (b - x) with hy
                  have hyx : y * (b - x) = x - a := by rw [hy, div_mul_cancel₀ _ hbx]
                  have hy1 : (y + 1) * (b - x) = b - a := by linear_combination hyx
                  have hy1' : y + 1 ≠ 0 := by
                    intro h0; rw [h0, zero_mul] at hy1; linarith
                  have hval := h1 y
                  rw [uev_ptransform _ _ _ _ (by
                    simp only [uev_cons, uev_nil]
                    have e1 : (1 : K) + y * (1 + y * 0) = y + 1 := by ring
                    rw [e1]; exact hy1')] at hval
                  simp only [uev_cons, uev_nil] at hval
                  have e1 : (1 : K) + y * (1 + y * 0) = y + 1 := by ring
                  have e2 : a + y * (b + y * 0) = x * (y + 1) := by
                    linear_combination hyx
                  rw [e1, e2, mul_div_cancel_right₀ _ hy1', pdeg_length _ _ hn, Nat.add_sub_cancel] at hval
                  apply mul_left_cancel₀ hda
                  have hsum : (b - a) ^ n * iVal [(if n % 2 = 0 then [1] else [b, -1], flipSos L1),
                      (if n % 2 = 1 then [-a, 1] else pmul [-a, 1] [b, -1], flipSos L2)] x =
                      (b - x) ^ n * (sosVal p.1 y + y * sosVal p.2 y) := by
                    simp only [iVal, List.map_cons, List.map_nil, List.sum_cons, List.sum_nil, sosVal_flip, add_zero]
                    rw [mul_add, mul_left_comm, w1, mul_left_comm _ _ (sosVal L2 x), w2]
                    rw [mul_add]
                    congr 1
                    · by_cases hpar : n % 2 = 0
                      · rw [if_pos hpar, if_pos hpar, show 2 * (((n:ℤ) - 0) / 2).toNat = n by omega]
                        simp
                      · rw [if_neg hpar, if_neg hpar]
                        have : n = 2 * (((n:ℤ) - 1) / 2).toNat + 1 := by omega
                        conv_rhs => rw [this, pow_succ]
                        simp only [uev_cons, uev_nil]
                        ring
                    · by_cases hpar : n % 2 = 1
                      · rw [if_pos hpar, if_pos hpar]
                        have : n = 2 * (((n:ℤ) - 1) / 2).toNat + 1 := by omega
                        conv_rhs => rw [this, pow_succ]
                        simp only [uev_cons, uev_nil]
                        linear_combination (-(b - x) ^ (2 * (((n:ℤ) - 1) / 2).toNat) * sosVal p.2 y) * hyx
                      · rw [if_neg hpar, if_neg hpar]
                        rw [if_neg hpar] at g2
                        rcases g2 with g2 | g2
                        · have : n = 2 * (((n:ℤ) - 2) / 2).toNat + 2 := by omega
                          conv_rhs => rw [this, pow_add]
                          rw [uev_pmul]
                          simp only [uev_cons, uev_nil]
                          linear_combination (-(b - x) ^ (2 * (((n:ℤ) - 2) / 2).toNat) * (b - x) * sosVal p.2 y) * hyx
                        · rw [g2]; simp [sosVal]
                  rw [hsum, hval, ← mul_assoc, ← mul_pow, mul_comm (b - x), hy1]
                intro x
                rw [← uev_iPoly]
                apply uev_eq_of_ne _ _ b
                intro x hxb
                rw [uev_iPoly, hx x hxb]
              · intro e he; simp at he
                rcases he with rfl | rfl
                · exact flip_nonneg _ (s1 h2)
                · exact flip_nonneg _ (s2 h3)
              · intro x hl hu e he
                have l1 := hl a rfl
                have u1 := hu b rfl
                simp at he
                rcases he with rfl | rfl
                · right
                  simp only
                  split_ifs
                  · simp
                  · simp only [uev_cons, uev_nil]; linarith
                · right
                  simp only
                  split_ifs
                  · simp only [uev_cons, uev_nil]; linarith
                  · rw [uev_pmul]
                    simp only [uev_cons, uev_nil]
                    exact mul_nonneg (by linarith) (by linarith)
  obtain ⟨m1, m2, m3⟩ := main
  refine ⟨m1, m2, m3, ?_⟩
  intro x hl hu
  rw [← m1 x]
  unfold iVal
  apply List.sum_nonneg
  intro v hv
  obtain ⟨e, he, rfl⟩ := List.mem_map.1 hv
  rcases m3 x hl hu e he with h0 | h0
  · rw [h0]; simp [sosVal]
  · exact mul_nonneg h0 (sosVal_nonneg _ (m2 e he) x)

end Verif.Univariate

namespace Verif.Univariate
open Verif Finset

variable {K : Type*} [Field K] [LinearOrder K] [IsStrictOrderedRing K]

theorem natDegree_toPoly (p : UPoly K) (d : ℕ) (h : pdeg p = some d) : (toPoly p).natDegree = d := by
  have hl := pdeg_length p d h
  have hne : pstrip p ≠ [] := by intro h0; rw [h0] at hl; simp at hl
  rw [← toPoly_pstrip]
  apply Polynomial.natDegree_eq_of_le_of_coeff_ne_zero
  · rw [Polynomial.natDegree_le_iff_coeff_eq_zero]
    intro N hN
    rw [coeff_toPoly, List.getD_eq_getElem?_getD, List.getElem?_eq_none (by omega)]; rfl
  · rw [coeff_toPoly, List.getD_eq_getElem?_getD, show d = (pstrip p).length - 1 by omega, ← List.getLast?_eq_getElem?,
      List.getLast?_eq_some_getLast hne]
    exact pstrip_getLast p hne

theorem exists_max_list {α : Type*} (f : α → ℕ) (l : List α) (hl : l ≠ []) : ∃ a ∈ l, ∀ b ∈ l, f b ≤ f a := by
  induction l with
  | nil => exact absurd rfl hl
  | cons a l ih =>
    by_cases h : l = []
    · exact ⟨a, by simp, by simp [h]⟩
    · obtain ⟨m, hm, hmax⟩ := ih h
      by_cases hc : f m ≤ f a
      · exact ⟨a, by simp, fun b hb => by
          rcases List.mem_cons.1 hb with rfl | hb
          · exact le_rfl
          · exact (hmax b hb).trans hc⟩
      · exact ⟨m, List.mem_cons_of_mem _ hm, fun b hb => by
          rcases List.mem_cons.1 hb with rfl | hb
          · omega
          · exact hmax b hb⟩

/-- `c X^ε p²` -/
noncomputable def termPoly (t : K × Polynomial K × ℕ) : Polynomial K :=
  Polynomial.C t.1 * (Polynomial.X ^ t.2.2 * t.2.1 ^ 2)

/-- No cancellation of leading terms in `Σ c X^ε p²` with positive weights. -/
theorem no_cancel (T : List (K × Polynomial K × ℕ)) (hT : ∀ t ∈ T, 0 < t.1 ∧ t.2.1 ≠ 0 ∧ t.2.2 ≤ 1) (n : ℕ)
    (hG : ∀ D, n < D → (T.map termPoly).sum.coeff D = 0) :
    ∀ t ∈ T, 2 * t.2.1.natDegree + t.2.2 ≤ n := by
  by_contra hcon
  push Not at hcon
  obtain ⟨t0, ht0, hlt⟩ := hcon
  obtain ⟨m, hm, hmax⟩ := exists_max_list (fun t : K × Polynomial K × ℕ => 2 * t.2.1.natDegree + t.2.2) T
    (List.ne_nil_of_mem ht0)
  set D := 2 * m.2.1.natDegree + m.2.2 with hD
  have hnD : n < D := lt_of_lt_of_le hlt (hmax t0 ht0)
  have hcoef : ∀ t ∈ T, (termPoly t).coeff D =
      if (D - t.2.2) % 2 = 0 then t.1 * t.2.1.coeff ((D - t.2.2) / 2) ^ 2 else 0 := by
    intro t ht
    have h1 := hmax t ht
    obtain ⟨c, p, ε⟩ := t
    unfold termPoly
    dsimp only at *
    rw [Polynomial.coeff_C_mul, Polynomial.coeff_X_pow_mul', if_pos (by omega)]
    split_ifs with hpar
    · have := Polynomial.coeff_pow_of_natDegree_le (p := p) (n := (D - ε)/2) (m := 2) (by omega)
      rw [show 2 * ((D - ε)/2) = D - ε by omega] at this
      rw [this]
    · rw [Polynomial.coeff_eq_zero_of_natDegree_lt, mul_zero]
      have h2 := Polynomial.natDegree_pow_le (p := p) (n := 2)
      omega
  have hsum : (T.map termPoly).sum.coeff D =
      (T.map fun t => if (D - t.2.2) % 2 = 0 then t.1 * t.2.1.coeff ((D - t.2.2) / 2) ^ 2 else 0).sum := by
    have : ∀ l : List (Polynomial K), l.sum.coeff D = (l.map fun q => q.coeff D).sum := by
      intro l
      induction l with
      | nil => simp
      | cons q l ih => simp [ih]
    rw [this, List.map_map]
    congr 1
    apply List.map_congr_left
    intro t ht
    exact hcoef t ht
  rw [hG D hnD] at hsum
  have hnn : ∀ v ∈ (T.map fun t => if (D - t.2.2) % 2 = 0 then t.1 * t.2.1.coeff ((D - t.2.2) / 2) ^ 2 else 0), 0 ≤ v := by
    intro v hv
    obtain ⟨t, ht, rfl⟩ := List.mem_map.1 hv
    beta_reduce
    split_ifs
    · exact mul_nonneg (hT t ht).1.le (sq_nonneg _)
    · exact le_rfl
  have hmm : (if (D - m.2.2) % 2 = 0 then m.1 * m.2.1.coeff ((D - m.2.2) / 2) ^ 2 else 0) ≤
      (T.map fun t => if (D - t.2.2) % 2 = 0 then t.1 * t.2.1.coeff ((D - t.2.2) / 2) ^ 2 else 0).sum :=
    List.single_le_sum hnn _ (List.mem_map.2 ⟨m, hm, rfl⟩)
  rw [← hsum, if_pos (by omega), show (D - m.2.2) / 2 = m.2.1.natDegree by omega] at hmm
  have h1 := (hT m hm)
  have : 0 < m.1 * m.2.1.coeff m.2.1.natDegree ^ 2 := by
    apply mul_pos h1.1
    have : m.2.1.coeff m.2.1.natDegree ≠ 0 := by
      rw [Polynomial.coeff_natDegree]; exact Polynomial.leadingCoeff_ne_zero.2 h1.2.1
    positivity
  linarith

/-- weights positive, polynomials nonzero: what `_reduce_sos` leaves. -/
def SosStrict (L : Sos K) : Prop := ∀ cp ∈ L, 0 < cp.1 ∧ toPoly cp.2 ≠ 0

theorem backSos_total (a b : K) (n : ℕ) (e : ℤ) (L : Sos K) (h : ∀ cp ∈ L, ∃ d, pdeg cp.2 = some d ∧ (d : ℤ) ≤ e) :
    ∃ L', backSos a b n e L = .ok L' := by
  induction L with
  | nil => exact ⟨[], rfl⟩
  | cons cp L ih =>
    obtain ⟨L', hL'⟩ := ih (fun c hc => h c (List.mem_cons_of_mem _ hc))
    obtain ⟨d, hd, hde⟩ := h cp (by simp)
    unfold backSos backPoly
    rw [hd]
    simp only
    rw [if_neg (by omega)]
    simp only
    rw [hL']
    exact ⟨_, rfl⟩

theorem uev_trans_length (f p q : UPoly K) (hp : p.length ≤ 2) (hq : q.length ≤ 2) :
    (toPoly (ptransform f p q)).natDegree ≤ (pstrip f).length - 1 := by
  have hdeg : ∀ r : UPoly K, r.length ≤ 2 → (toPoly r).natDegree ≤ 1 := by
    intro r hr
    rw [Polynomial.natDegree_le_iff_coeff_eq_zero]
    intro N hN
    rw [coeff_toPoly, List.getD_eq_getElem?_getD, List.getElem?_eq_none (by omega)]; rfl
  unfold ptransform
  split
  · simp [toPoly]
  · rename_i c cs h
    have hlen : (pstrip f).length = cs.length + 1 := by
      rw [← List.length_reverse, h]; simp
    rw [hlen, Nat.add_sub_cancel]
    have key : ∀ (cs : List K) (hQ : UPoly K × UPoly K) (m : ℕ), (toPoly hQ.1).natDegree ≤ m → (toPoly hQ.2).natDegree ≤ m →
        (toPoly (cs.foldl (transStep p q) hQ).1).natDegree ≤ m + cs.length := by
      intro cs
      induction cs with
      | nil => intro hQ m h1 h2; simpa using h1
      | cons c cs ih =>
        intro hQ m h1 h2
        rw [List.foldl_cons, List.length_cons, show m + (cs.length + 1) = m + 1 + cs.length by omega]
        apply ih
        · unfold transStep
          simp only [toPoly_padd, toPoly_pmul, toPoly_psmul]
          apply Polynomial.natDegree_add_le_of_degree_le
          · exact Polynomial.natDegree_mul_le.trans (by have := hdeg p hp; omega)
          · refine (Polynomial.natDegree_C_mul_le _ _).trans ?_
            exact Polynomial.natDegree_mul_le.trans (by have := hdeg q hq; omega)
        · unfold transStep
          simp only [toPoly_pmul]
          exact Polynomial.natDegree_mul_le.trans (by have := hdeg q hq; omega)
    have := key cs ([c], [1]) 0 (by simp [toPoly]) (by simp [toPoly])
    simpa using this

/-- **C19 (totality on a bounded interval).** For a nonzero polynomial and `a < b`, if `prove_univariate` answers with
positive weights and nonzero polynomials (as `_reduce_sos` guarantees), the transfer back never raises: the exponent of
`b - x` is never negative. -/
theorem proveInterval_total (prover : UPoly K → Except PyErr (Option (Sos K × Sos K))) (hp : ProverSound prover)
    (f : UPoly K) (hf : pstrip f ≠ []) (a b : K) (hab : a < b) (p : Sos K × Sos K)
    (hpr : prover (ptransform f [a, b] [1, 1]) = .ok (some p)) (hs1 : SosStrict p.1) (hs2 : SosStrict p.2) :
    ∃ R, proveInterval prover f (some a) (some b) = .ok (some R) := by
  obtain ⟨h1, -, -⟩ := hp _ _ hpr
  obtain ⟨n, hn⟩ : ∃ n, pdeg f = some n := by
    cases h : pdeg f with
    | none => exact absurd ((pdeg_none f).1 h) hf
    | some n => exact ⟨n, rfl⟩
  have hlen := pdeg_length f n hn
  have hdeg := uev_trans_length f [a, b] [1, 1] (by simp) (by simp)
  rw [hlen, Nat.add_sub_cancel] at hdeg
  set T : List (K × Polynomial K × ℕ) := (p.1.map fun cp => (cp.1, toPoly cp.2, 0)) ++ (p.2.map fun cp => (cp.1, toPoly cp.2, 1)) with hT
  have hTp : ∀ t ∈ T, 0 < t.1 ∧ t.2.1 ≠ 0 ∧ t.2.2 ≤ 1 := by
    intro t ht
    rw [hT, List.mem_append] at ht
    rcases ht with ht | ht
    · obtain ⟨cp, hcp, rfl⟩ := List.mem_map.1 ht
      exact ⟨(hs1 cp hcp).1, (hs1 cp hcp).2, by simp⟩
    · obtain ⟨cp, hcp, rfl⟩ := List.mem_map.1 ht
      exact ⟨(hs2 cp hcp).1, (hs2 cp hcp).2, by simp⟩
  have hTG : (T.map termPoly).sum = toPoly (ptransform f [a, b] [1, 1]) := by
    have hinf : Infinite K := inferInstance
    apply Polynomial.funext
    intro x
    rw [eval_toPoly, ← h1 x, hT, List.map_append, List.sum_append, Polynomial.eval_add]
    have key : ∀ (L : Sos K) (ε : ℕ), ((L.map fun cp : K × UPoly K => ((cp.1, toPoly cp.2, ε) : K × Polynomial K × ℕ)).map termPoly).sum.eval x = x ^ ε * sosVal L x := by
      intro L ε
      induction L with
      | nil => simp [sosVal]
      | cons cp L ih =>
        rw [List.map_cons, List.map_cons, List.sum_cons, Polynomial.eval_add, ih]
        simp only [termPoly, sosVal, List.map_cons, List.sum_cons, Polynomial.eval_mul, Polynomial.eval_C, Polynomial.eval_pow,
          Polynomial.eval_X, eval_toPoly]
        ring
    rw [key, key]; ring
  have hbound := no_cancel T hTp n (by
    intro D hD
    rw [hTG]
    exact Polynomial.coeff_eq_zero_of_natDegree_lt (by omega))
  have hd : ∀ cp : K × UPoly K, toPoly cp.2 ≠ 0 → ∃ d, pdeg cp.2 = some d ∧ (toPoly cp.2).natDegree = d := by
    intro cp hne
    cases h : pdeg cp.2 with
    | none => exact absurd ((pstrip_nil_iff _).1 ((pdeg_none _).1 h)) hne
    | some d => exact ⟨d, rfl, natDegree_toPoly _ _ h⟩
  obtain ⟨L1, hL1⟩ := backSos_total a b n (((n : ℤ) - (if n % 2 = 0 then 0 else 1)) / 2) p.1 (by
    intro cp hcp
    obtain ⟨d, e1, e2⟩ := hd cp (hs1 cp hcp).2
    refine ⟨d, e1, ?_⟩
    have := hbound (cp.1, toPoly cp.2, 0) (by rw [hT, List.mem_append]; left; exact List.mem_map.2 ⟨cp, hcp, rfl⟩)
    simp only [e2] at this
    split_ifs <;> omega)
  obtain ⟨L2, hL2⟩ := backSos_total a b n (((n : ℤ) - (if n % 2 = 1 then 1 else 2)) / 2) p.2 (by
    intro cp hcp
    obtain ⟨d, e1, e2⟩ := hd cp (hs2 cp hcp).2
    refine ⟨d, e1, ?_⟩
    have := hbound (cp.1, toPoly cp.2, 1) (by rw [hT, List.mem_append]; right; exact List.mem_map.2 ⟨cp, hcp, rfl⟩)
    simp only [e2] at this
    split_ifs <;> omega)
  unfold proveInterval
  simp only
  rw [if_neg (by linarith), hpr]
  simp only [hn]
  rw [hL1]
  simp only
  rw [hL2]
  exact ⟨_, rfl⟩

/-! ### Examples -/

/-- a prover for the example: factor data supplied by hand for `y² - y + 1`-like inputs -/
def exProver (g : UPoly ℚ) : Except PyErr (Option (Sos ℚ × Sos ℚ)) :=
  proveUnivariate 1 [(g, 1, exGoodNum)]

def isOkSome {α : Type*} : Except PyErr (Option α) → Bool
  | .ok (some _) => true
  | _ => false

/-- `x² - x + 1` on `[0, 2]`, `[1, ∞)`, `(-∞, 3]` and the whole line. -/
example : isOkSome (proveInterval exProver [1, -1, 1] (some 0) (some 2)) = true := by decide +kernel
example : isOkSome (proveInterval exProver [1, -1, 1] (some 1) none) = true := by decide +kernel
example : isOkSome (proveInterval exProver [1, -1, 1] none (some 3)) = true := by decide +kernel
example : isOkSome (proveInterval exProver [1, -1, 1] none none) = true := by decide +kernel
/-- positive on the half line only, so refused on the whole line -/
example : isOkSome (proveInterval exProver [1, 1] none none) = false ∧
  isOkSome (proveInterval exProver [1, 1] (some 0) none) = true := by decide +kernel

/-- The example prover meets the contract on inputs of degree at most two. -/
example (g : UPoly ℚ) (hg : (pstrip g).length ≤ 3) (p : Sos ℚ × Sos ℚ) (h : exProver g = .ok (some p)) :
    (∀ x, sosVal p.1 x + x * sosVal p.2 x = uev g x) ∧ SosNonneg p.1 ∧ SosNonneg p.2 := by
  obtain ⟨a, b, c, -⟩ := proveUnivariate_sound_partial g 1 [(g, 1, exGoodNum)] (by intro x; simp [factorVal])
    (by intro f hf _ h4; simp at hf; subst hf; simp only at h4; omega) p h
  exact ⟨a, b, c⟩

end Verif.Univariate
