import Verif.Props.QuinticSymmetric
import Verif.Props.NonicPoly
import Verif.Proofs.OcticFits

/-!
# What the symmetric ternary octic solver guarantees
-/

set_option linter.unusedSectionVars false

namespace Verif.Ternary

open Verif Verif.TermsPoly Verif.Acute Verif.Dense Verif.Univariate

variable {K : Type*} [Field K] [LinearOrder K] [IsStrictOrderedRing K]

/-- The test of the solver (octic_symmetric.py 55). -/
structure Octic.Sym (f : Octic K) : Prop where
  e1 : f.c710 = f.c701
  e2 : f.c620 = f.c602
  e3 : f.c530 = f.c503
  e4 : f.c521 = f.c512
  e5 : f.c431 = f.c413

/-- No terms `a^8` and `a^7*b`. -/
structure Octic.Hexagon (f : Octic K) : Prop extends f.Sym where
  z1 : f.c800 = 0
  z2 : f.c710 = 0

/-! ### The semidefinite method -/

theorem octMap_eq (x y a b c : K) : octMap x y a b c = (x * octP a b c + y * octQ a b c) ^ 2 := by
  unfold octMap
  split_ifs with h1 h2 h3
  · obtain ⟨rfl, rfl⟩ := h1
    simp only [sumA, cyc3, octP, octQ]
    ring
  · obtain ⟨rfl, rfl⟩ := h2
    simp only [cyc3, octP, octQ]
    ring
  · obtain ⟨rfl, rfl⟩ := h3
    simp only [cyc3, octP, octQ]
    ring
  · simp only [cyc3, octP, octQ]
    ring

theorem octMap_nonneg (x y a b c : K) : 0 ≤ octMap x y a b c := by
  rw [octMap_eq]
  positivity

theorem hex_value {f : Octic K} {s : HexSol K} (hs : s.Fits f.hex) (hf : f.Hexagon) (h1 : f.poly111 = 0) (a b c : K) :
    s.r * cyc3 (fun a b c => hexKer s a b c ^ 2) a b c + ((s.q.m00 - s.q.m01) / 2 * (sumA a b c ^ 2 * discV3 a b c) +
      ((s.q.m00 + s.q.m01) / 2 * octP a b c ^ 2 + s.q.m02 * 2 * octP a b c * octQ a b c + s.q.m22 * octQ a b c ^ 2)) = f.poly a b c := by
  have e332 : f.c332 = -(2 * f.c620 + f.c611 + 2 * f.c530 + 2 * f.c521 + f.c440 + 2 * f.c431 + f.c422) := by
    have h2 : 3 * (f.c800 + f.c710 + f.c701 + f.c620 + f.c611 + f.c602 + f.c530 + f.c521 + f.c512 + f.c503 + f.c440 + f.c431 + f.c422 + f.c413 + f.c332) = 0 := h1
    rw [← hf.e2, ← hf.e3, ← hf.e4, ← hf.e5, ← hf.e1, hf.z1, hf.z2] at h2
    linarith
  have e1 : _ = f.c620 := hs.e620
  have e2 : _ = f.c611 := hs.e611
  have e3 : _ = f.c530 := hs.e530
  have e4 : _ = f.c521 := hs.e521
  have e5 : _ = f.c440 := hs.e440
  have e6 : _ = f.c431 := hs.e431
  have e7 : _ = f.c422 := hs.e422
  simp only [Octic.poly, cyc3]
  rw [e332, ← hf.e2, ← hf.e3, ← hf.e4, ← hf.e5, ← hf.e1, hf.z1, hf.z2, ← e1, ← e2, ← e3, ← e4, ← e5, ← e6, ← e7]
  simp only [hexKer, octP, octQ, sumA, discV3, cyc3, cycp3]
  ring

/-- Parameters that fit the coefficients give an identity; only the weight of `s(a)^2 p(a-b)^2` is not tested. -/
theorem hexResult_ident {f : Octic K} {s : HexSol K} {C : Cert K} (hs : s.Fits f.hex) (hf : f.Hexagon) (h1 : f.poly111 = 0) (h : hexResult (some s) = some C) :
    Ident f.poly C ∧ (s.q.m01 ≤ s.q.m00 → Holds f.poly C) := by
  unfold hexResult hexQuad at h
  dsimp only at h
  cases hq : quadraticWeighting ((s.q.m00 + s.q.m01) / 2) (s.q.m02 * 2) s.q.m22 with
  | none => simp [hq] at h
  | some l =>
    obtain ⟨hw, hv⟩ := quadraticWeighting_sound _ _ _ _ hq
    simp only [hq, Option.map_some] at h
    split_ifs at h with hr
    rw [← Option.some.inj h]
    have hI : Ident f.poly (Cert.plain ((s.r, cyc3 fun a b c => hexKer s a b c ^ 2) :: ((s.q.m00 - s.q.m01) / 2, fun a b c => sumA a b c ^ 2 * discV3 a b c) ::
        l.map fun w => (w.1, octMap w.2.1 w.2.2))) := by
      refine ⟨?_, ?_, fun _ _ _ _ => zero_le_one, fun _ _ _ _ _ _ _ => zero_lt_one⟩
      · intro a b c
        have e := hex_value hs hf h1 a b c
        rw [← hv] at e
        simp only [Cert.num, Cert.plain, List.map_cons, List.sum_cons, List.map_map, Function.comp_def, octMap_eq, one_mul]
        exact e
      · intro t ht a b c ho
        rcases List.mem_cons.1 ht with rfl | ht
        · dsimp only
          unfold cyc3
          positivity
        rcases List.mem_cons.1 ht with rfl | ht
        · exact mul_nonneg (sq_nonneg _) (discV3_nonneg _ _ _)
        obtain ⟨w, hw', rfl⟩ := List.mem_map.1 ht
        exact octMap_nonneg _ _ _ _ _
    refine ⟨hI, fun hm => hI.holds ?_⟩
    intro t ht
    rcases List.mem_cons.1 ht with rfl | ht
    · exact hr
    rcases List.mem_cons.1 ht with rfl | ht
    · exact div_nonneg (sub_nonneg.2 hm) zero_le_two
    obtain ⟨w, hw', rfl⟩ := List.mem_map.1 ht
    exact hw w hw'

theorem hexResultNan_ok {r : K} {q : QForm K} {C : Cert K} : hexResultNan r q ≠ .ok (some C) := by
  unfold hexResultNan
  split
  · simp
  · split_ifs <;> simp

theorem nhM00_zero (h : Hex K) : uev (nhM00 h) 0 = -(h.w1 ^ 4 * h.w4 ^ 2) := by
  simp only [nhM00, List.reverse_cons, List.reverse_nil, List.nil_append, List.cons_append, uev]
  ring

theorem nhM00_w2 {h : Hex K} (h2 : h.w2 = 0) (t : K) : uev (nhM00 h) t = -(h.w1 ^ 4 * h.w4 ^ 2 * (t + 1) ^ 4) := by
  simp only [nhM00, List.reverse_cons, List.reverse_nil, List.nil_append, List.cons_append, uev, h2]
  ring

theorem nhM00_neg_one (h : Hex K) : uev (nhM00 h) (-1) = -(h.w2 ^ 4 * (9 * h.w1 + 3 * h.w2 - h.w4) ^ 2) := by
  simp only [nhM00, List.reverse_cons, List.reverse_nil, List.nil_append, List.cons_append, uev]
  ring

theorem nhValid_le {h : Hex K} {t : K} (hv : nhValid h t = true) : |uev (nhM01 h) t| ≤ uev (nhM00 h) t := by
  simp only [nhValid, Bool.and_eq_true, decide_eq_true_eq] at hv
  exact hv.2

/-- `w4 > 0`, `w1 ≠ 0`: the answer is an identity; it is a complete proof unless the number found is `-1`. -/
theorem nhSolve_ident {f : Octic K} {ts : List (Cand K)} {C : Cert K} (hf : f.Hexagon) (h0 : f.poly111 = 0) (h1 : f.hex.w1 ≠ 0) (h4 : 0 < f.hex.w4)
    (h : nhSolve ts f.hex = .ok (some C)) :
    Ident f.poly C ∧ (¬ Holds f.poly C → f.hex.w4 = 9 * f.hex.w1 + 3 * f.hex.w2 ∧ (nhLimit f.hex).q.m00 < (nhLimit f.hex).q.m01) := by
  unfold nhSolve at h
  generalize hr : rationalizeFunc (fun _ => 0) 0 (fun t => .ok (nhValid f.hex t)) ts = r at h
  rcases r with e | _ | t
  · simp at h
  · simp at h
  dsimp only at h
  have hv : nhValid f.hex t = true := by simpa using rationalizeFunc_valid hr
  have hle := nhValid_le hv
  have h00 : 0 ≤ uev (nhM00 f.hex) t := (abs_nonneg _).trans hle
  split_ifs at h with ht hw2
  · have ht' : t + 1 ≠ 0 := fun e => ht (eq_neg_of_add_eq_zero_left e)
    have hp := pow_pos h4 2
    have hp1 : 0 < f.hex.w1 ^ 4 := by positivity
    have ht0 : t ≠ 0 := by
      rintro rfl
      rw [nhM00_zero] at h00
      linarith [mul_pos hp1 hp]
    have hw2 : f.hex.w2 ≠ 0 := by
      intro hw2
      rw [nhM00_w2 hw2] at h00
      have : 0 < (t + 1) ^ 4 := by positivity
      linarith [mul_pos (mul_pos hp1 hp) this]
    obtain ⟨hI, hH⟩ := hexResult_ident (nh_fits h1 hw2 h4.ne' ht0 ht') hf h0 (Except.ok.inj h)
    refine ⟨hI, fun hn => absurd (hH ?_) hn⟩
    have hq : (nhParams f.hex t).q.m00 = uev (nhM00 f.hex) t / (81*t^2*f.hex.w1^2*f.hex.w2^2*(t + 1)^2*f.hex.w4) := by
      unfold nhParams
      dsimp only
      split_ifs <;> rfl
    have hq' : (nhParams f.hex t).q.m01 = uev (nhM01 f.hex) t / (81*t^2*f.hex.w1^2*f.hex.w2^2*(t + 1)^2*f.hex.w4) := by
      unfold nhParams
      dsimp only
      split_ifs <;> rfl
    rw [hq, hq']
    exact div_le_div_of_nonneg_right ((le_abs_self _).trans hle) (by positivity)
  · exact absurd h hexResultNan_ok
  · have e : t = -1 := not_not.1 ht
    subst e
    have hw4 : f.hex.w4 = 9 * f.hex.w1 + 3 * f.hex.w2 := by
      rw [nhM00_neg_one] at h00
      by_contra hne
      have h5 : 9 * f.hex.w1 + 3 * f.hex.w2 - f.hex.w4 ≠ 0 := fun e => hne (by linarith)
      have : 0 < f.hex.w2 ^ 4 * (9 * f.hex.w1 + 3 * f.hex.w2 - f.hex.w4) ^ 2 := by positivity
      linarith
    have h3 : 3 * f.hex.w1 + f.hex.w2 ≠ 0 := fun e => by linarith
    obtain ⟨hI, hH⟩ := hexResult_ident (limit_fits h1 hw2 h3 hw4) hf h0 (Except.ok.inj h)
    exact ⟨hI, fun hn => ⟨hw4, not_le.1 fun hle => hn (hH hle)⟩⟩

/-- `w4 > 0`, `w1 = 0`. -/
theorem ndSolve_sound {f : Octic K} {ts : List (Cand K)} {C : Cert K} (hf : f.Hexagon) (h0 : f.poly111 = 0) (h1 : f.hex.w1 = 0) (h4 : 0 < f.hex.w4)
    (h : ndSolve ts f.hex = .ok (some C)) : Holds f.poly C := by
  unfold ndSolve at h
  generalize hr : rationalizeFunc (fun _ => 0) 0 (fun t => .ok (ndValid f.hex t)) ts = r at h
  rcases r with e | _ | t
  · simp at h
  · simp at h
  dsimp only at h
  have hv : ndValid f.hex t = true := by simpa using rationalizeFunc_valid hr
  simp only [ndValid, Bool.and_eq_true, decide_eq_true_eq] at hv
  obtain ⟨⟨ht, -⟩, hle⟩ := hv
  split_ifs at h with hd
  · exact absurd h hexResultNan_ok
  · refine (hexResult_ident (nd_fits h1 h4.ne' ht hd) hf h0 (Except.ok.inj h)).2 ?_
    exact div_le_div_of_nonneg_right ((le_abs_self _).trans hle) (by positivity)

theorem dhParams_psd {h : Hex K} {x y : K} {s : HexSol K} (hs : dhParams h x y = some s) : s.q.m01 ≤ s.q.m00 := by
  unfold dhParams at hs
  dsimp only at hs
  split_ifs at hs with h1 h2
  rw [← Option.some.inj hs]
  simp only [QForm.psd, Bool.and_eq_true, decide_eq_true_eq] at h2
  exact sub_nonneg.1 h2.1.1.1

theorem strictPsd_params {X : HexCands K} {h : Hex K} {s : HexSol K} (hs : strictPsd X h = .ok (some s)) : ∃ x y, dhParams h x y = some s := by
  unfold strictPsd at hs
  by_cases h1 : 2 * h.c620 - h.c611 = 0
  · rw [if_pos h1] at hs
    simp at hs
  rw [if_neg h1] at hs
  dsimp only at hs
  by_cases h2 : (zDet h).getD 4 0 < 0 ∧ (zDet h).getD 3 0 ^ 2 - 4 * (zDet h).getD 4 0 * (zDet h).getD 2 0 < 0
  · rw [if_pos h2] at hs
    simp at hs
  rw [if_neg h2] at hs
  split at hs
  · simp at hs
  split at hs
  · simp at hs
  · simp at hs
  · exact ⟨_, _, Except.ok.inj hs⟩

theorem degeneratedW5_params {X : HexCands K} {h : Hex K} {s : HexSol K} (hs : degeneratedW5 X h = .ok (some s)) : ∃ x y, dhParams h x y = some s := by
  unfold degeneratedW5 at hs
  split at hs
  · simp at hs
  · simp at hs
  · split_ifs at hs
    · simp at hs
    · exact ⟨_, _, Except.ok.inj hs⟩

/-- `w4 = w2 = 0`, `w1 ≠ 0`. -/
theorem dhSolve_sound {f : Octic K} {X : HexCands K} {C : Cert K} (hf : f.Hexagon) (h0 : f.poly111 = 0) (h1 : f.hex.w1 ≠ 0) (h2 : f.hex.w2 = 0) (h4 : f.hex.w4 = 0)
    (h : dhSolve X f.hex = .ok (some C)) : Holds f.poly C := by
  unfold dhSolve at h
  split_ifs at h with h5 h6
  · simp at h
  all_goals
    generalize hr : strictPsd X f.hex = r at h
    generalize hr' : degeneratedW5 X f.hex = r' at h
  · rcases r with e | _ | s
    · simp [Except.map] at h
    · simp [Except.map, hexResult] at h
    obtain ⟨x, y, hp⟩ := strictPsd_params hr
    exact (hexResult_ident (dh_fits h1 h2 h4 hp) hf h0 (Except.ok.inj h)).2 (dhParams_psd hp)
  · rcases r' with e | _ | s
    · simp [Except.map] at h
    · simp [Except.map, hexResult] at h
    obtain ⟨x, y, hp⟩ := degeneratedW5_params hr'
    exact (hexResult_ident (dh_fits h1 h2 h4 hp) hf h0 (Except.ok.inj h)).2 (dhParams_psd hp)

/-- `w4 = w2 = w1 = 0`. -/
theorem ddSolve_sound {f : Octic K} {C : Cert K} (hf : f.Hexagon) (h0 : f.poly111 = 0) (h1 : f.hex.w1 = 0) (h2 : f.hex.w2 = 0) (h4 : f.hex.w4 = 0)
    (h : ddSolve f.hex = .ok (some C)) : Holds f.poly C := by
  unfold ddSolve at h
  dsimp only at h
  split_ifs at h with h5 hk h6
  · simp at h
  · exact absurd h hexResultNan_ok
  · exact (hexResult_ident (dd_fits1 h1 h2 h4 hk) hf h0 (Except.ok.inj h)).2 le_rfl
  · refine (hexResult_ident (dd_fits2 h1 h2 h4 hk) hf h0 (Except.ok.inj h)).2 ?_
    dsimp only
    linarith [not_le.1 h6]

/-- The polynomials for which the number `-1` is taken although a weight is negative. -/
def Octic.LimitFault (f : Octic K) : Prop :=
  f.hex.w1 ≠ 0 ∧ 0 < f.hex.w4 ∧ f.hex.w4 = 9 * f.hex.w1 + 3 * f.hex.w2 ∧ (nhLimit f.hex).q.m00 < (nhLimit f.hex).q.m01

/-- **C89, the semidefinite method.** The answer is an identity with expressions that are nonnegative, and a complete proof outside one case. -/
theorem octHexagonSdp_sound {X : OctSymExt K} {f : Octic K} {C : Cert K} (hf : f.Hexagon) (h : octHexagonSdp X f = .ok (some C)) :
    Ident f.poly C ∧ (¬ f.LimitFault → Holds f.poly C) := by
  unfold octHexagonSdp at h
  dsimp only at h
  by_cases h0 : f.hex.c620 ≤ 0 ∨ f.poly111 ≠ 0
  · rw [if_pos h0] at h
    simp at h
  rw [if_neg h0] at h
  have hz : f.poly111 = 0 := by
    push Not at h0
    exact h0.2
  by_cases h4 : f.hex.w4 < 0
  · rw [if_pos h4] at h
    simp at h
  rw [if_neg h4] at h
  by_cases h4' : 0 < f.hex.w4
  · rw [if_pos h4'] at h
    by_cases h1 : f.hex.w1 ≠ 0
    · rw [if_pos h1] at h
      obtain ⟨hI, hH⟩ := nhSolve_ident hf hz h1 h4' h
      refine ⟨hI, fun hn => ?_⟩
      by_contra hc
      obtain ⟨g1, g2⟩ := hH hc
      exact hn ⟨h1, h4', g1, g2⟩
    · rw [if_neg h1] at h
      have := ndSolve_sound hf hz (not_not.1 h1) h4' h
      exact ⟨this.ident, fun _ => this⟩
  · rw [if_neg h4'] at h
    have e4 : f.hex.w4 = 0 := le_antisymm (not_lt.1 h4') (not_lt.1 h4)
    by_cases h2 : f.hex.w2 = 0
    · rw [if_pos h2] at h
      by_cases h1 : f.hex.w1 ≠ 0
      · rw [if_pos h1] at h
        have := dhSolve_sound hf hz h1 h2 e4 h
        exact ⟨this.ident, fun _ => this⟩
      · rw [if_neg h1] at h
        have := ddSolve_sound hf hz (not_not.1 h1) h2 e4 h
        exact ⟨this.ident, fun _ => this⟩
    · rw [if_neg h2] at h
      simp at h

/-! ### Inverse quartics -/

/-- The polynomial of `_solve_inverse_quartic`. -/
def invQuartic (m p n r : K) : Val3 K :=
  cyc3 fun a b c => m * (a ^ 4 * b ^ 4) + p * (a ^ 4 * b ^ 3 * c) + n * (a ^ 4 * b ^ 2 * c ^ 2) + p * (a ^ 4 * b * c ^ 3) + r * (a ^ 3 * b ^ 3 * c ^ 2)

theorem inverseQuartic_sound {m p n r : K} {C : Cert K} (h : inverseQuartic m p n r = some C) : Holds (invQuartic m p n r) C ∧ ∀ a b c, C.den a b c = 1 := by
  unfold inverseQuartic at h
  split_ifs at h with h1 h2 h3
  · rw [← Option.some.inj h]
    obtain ⟨hm, hs⟩ := h1
    obtain ⟨hm0, h2⟩ := h2
    refine ⟨holds_sumY ?_ ?_ ?_, fun _ _ _ => rfl⟩
    · intro a b c
      simp only [List.map_cons, List.map_nil, List.sum_cons, List.sum_nil, invQuartic, sd3, prodA, cyc3, cycp3]
      field_simp
      ring
    · simp only [List.mem_cons, List.not_mem_nil, or_false, forall_eq_or_imp, forall_eq]
      exact ⟨by positivity, by positivity, hs⟩
    · simp only [List.mem_cons, List.not_mem_nil, or_false, forall_eq_or_imp, forall_eq]
      refine ⟨fun _ a b c ho => ?_, fun _ a b c ho => mul_nonneg (sq_nonneg _) (sd3_nonneg _ _ _), fun _ a b c ho => ?_⟩
      · unfold cyc3
        positivity
      · oct_pos
  · rw [← Option.some.inj h]
    obtain ⟨hm, hs⟩ := h1
    obtain ⟨h3, h4⟩ := h3
    refine ⟨holds_sumY ?_ ?_ ?_, fun _ _ _ => rfl⟩
    · intro a b c
      simp only [List.map_cons, List.map_nil, List.sum_cons, List.sum_nil, invQuartic, sd3, prodA, cyc3, cycp3]
      ring
    · simp only [List.mem_cons, List.not_mem_nil, or_false, forall_eq_or_imp, forall_eq]
      exact ⟨by positivity, h3, by positivity, hs⟩
    · simp only [List.mem_cons, List.not_mem_nil, or_false, forall_eq_or_imp, forall_eq]
      refine ⟨fun _ a b c ho => ?_, fun _ a b c ho => mul_nonneg ?_ ?_, fun _ a b c ho => mul_nonneg (sq_nonneg _) (sd3_nonneg _ _ _), fun _ a b c ho => ?_⟩
      · unfold cyc3
        positivity
      · obtain ⟨ha, hb, hc⟩ := ho
        unfold prodA cycp3
        positivity
      · oct_pos
      · oct_pos

/-! ### Hexagons -/

theorem Holds.more {f g : Val3 K} {C : Cert K} {l : List (K × Val3 K)} (h : Holds g C) (hd : ∀ a b c, C.den a b c = 1) (hw : ∀ t ∈ l, 0 ≤ t.1)
    (he : ∀ t ∈ l, ∀ a b c, Octant a b c → 0 ≤ t.2 a b c) (hid : ∀ a b c, g a b c + (l.map fun t => t.1 * t.2 a b c).sum = f a b c) : Holds f (C.more l) := by
  refine ⟨⟨?_, ?_, ?_, h.1.den⟩, h.2⟩
  · intro a b c
    have h1 := h.1.identity a b c
    simp only [Cert.num, Cert.more, hd, one_mul, mul_one, List.map_append, List.sum_append, List.map_map, Function.comp_def] at h1 ⊢
    rw [h1, ← hid]
  · intro t ht
    rcases List.mem_append.1 ht with ht | ht
    · exact h.1.weights t ht
    · obtain ⟨u, hu, rfl⟩ := List.mem_map.1 ht
      exact hw u hu
  · intro t ht a b c ho
    rcases List.mem_append.1 ht with ht | ht
    · exact h.1.exprs t ht a b c ho
    · obtain ⟨u, hu, rfl⟩ := List.mem_map.1 ht
      exact mul_nonneg (he u hu a b c ho) (h.1.den a b c ho)

theorem quad_sum_nonneg {x y : K} (hx : 0 ≤ x) (hxy : 0 ≤ x + y) {a b c : K} (ho : Octant a b c) : 0 ≤ cyc3 (fun a b c => x * a ^ 2 + y * b * c) a b c := by
  obtain ⟨ha, hb, hc⟩ := ho
  have e : cyc3 (fun a b c => x * a ^ 2 + y * b * c) a b c = x * (sd3 a b c / 2) + (x + y) * (a * b + b * c + c * a) := by
    unfold sd3 cyc3
    ring
  rw [e]
  have := sd3_nonneg a b c
  positivity

theorem hexagonCase1_sound {f : Octic K} {C : Cert K} (hf : f.Hexagon) (h : hexagonCase1 f = some C) : Holds f.poly C := by
  unfold hexagonCase1 at h
  dsimp only at h
  split_ifs at h with h1
  obtain ⟨hx, hz, hxy, hzw⟩ := h1
  obtain ⟨D, hD, hC⟩ := Option.map_eq_some_iff.1 h
  obtain ⟨hH, hd⟩ := inverseQuartic_sound hD
  rw [← hC]
  refine hH.more hd ?_ ?_ ?_
  · simp only [List.mem_cons, List.not_mem_nil, or_false, forall_eq_or_imp, forall_eq]
    exact ⟨zero_le_one, zero_le_one⟩
  · simp only [List.mem_cons, List.not_mem_nil, or_false, forall_eq_or_imp, forall_eq]
    exact ⟨fun a b c ho => mul_nonneg (sq_nonneg _) (quad_sum_nonneg hx hxy ho), fun a b c ho => mul_nonneg (discV3_nonneg _ _ _) (quad_sum_nonneg hz hzw ho)⟩
  · intro a b c
    simp only [List.map_cons, List.map_nil, List.sum_cons, List.sum_nil, invQuartic, Octic.poly, discV3, cyc3, cycp3, ← hf.e2, ← hf.e3, ← hf.e4, ← hf.e5, ← hf.e1, hf.z1, hf.z2]
    ring

/-- The second case is right only if `c620 = -c611/2` implies `c521 = -c530`. -/
theorem hexagonCase2_sound {f : Octic K} {C : Cert K} (hf : f.Hexagon) (hk : 2 * f.c620 + f.c611 = 0 → f.c530 + f.c521 = 0) (h : hexagonCase2 f = some C) : Holds f.poly C := by
  unfold hexagonCase2 at h
  dsimp only at h
  by_cases h1 : 2 * f.c620 + f.c611 = 0
  · simp only [h1, ne_eq, not_true_eq_false, if_false] at h
    split_ifs at h with h2
    obtain ⟨hx, hz, hzw⟩ := h2
    obtain ⟨D, hD, hC⟩ := Option.map_eq_some_iff.1 h
    obtain ⟨hH, hd⟩ := inverseQuartic_sound hD
    have e1 : f.c611 = -(2 * f.c620) := by linarith
    have e2 : f.c521 = -f.c530 := by linarith [hk h1]
    rw [← hC]
    refine hH.more hd ?_ ?_ ?_
    · simp only [List.mem_cons, List.not_mem_nil, or_false, forall_eq_or_imp, forall_eq]
      exact ⟨hx, zero_le_one⟩
    · simp only [List.mem_cons, List.not_mem_nil, or_false, forall_eq_or_imp, forall_eq]
      refine ⟨fun a b c ho => ?_, fun a b c ho => mul_nonneg (discV3_nonneg _ _ _) (quad_sum_nonneg hz hzw ho)⟩
      unfold cyc3
      positivity
    · intro a b c
      simp only [List.map_cons, List.map_nil, List.sum_cons, List.sum_nil, invQuartic, Octic.poly, discV3, cyc3, cycp3, ← hf.e2, ← hf.e3, ← hf.e4, ← hf.e5, ← hf.e1, hf.z1, hf.z2, e1, e2]
      ring
  · simp only [ne_eq, h1, not_false_eq_true, if_true] at h
    split_ifs at h with h2
    obtain ⟨hx, hz, hzw⟩ := h2
    obtain ⟨D, hD, hC⟩ := Option.map_eq_some_iff.1 h
    obtain ⟨hH, hd⟩ := inverseQuartic_sound hD
    rw [← hC]
    generalize hy : -2 * (2 * f.c620 + f.c530 + f.c611 + f.c521) / (2 * f.c620 + f.c611) = y at *
    have e2 : f.c521 = -(y * (2 * f.c620 + f.c611)) / 2 - (2 * f.c620 + f.c530 + f.c611) := by
      rw [← hy]
      field_simp
      ring
    refine hH.more hd ?_ ?_ ?_
    · simp only [List.mem_cons, List.not_mem_nil, or_false, forall_eq_or_imp, forall_eq]
      exact ⟨hx, zero_le_one⟩
    · simp only [List.mem_cons, List.not_mem_nil, or_false, forall_eq_or_imp, forall_eq]
      refine ⟨fun a b c ho => ?_, fun a b c ho => mul_nonneg (discV3_nonneg _ _ _) (quad_sum_nonneg hz hzw ho)⟩
      unfold cyc3
      positivity
    · intro a b c
      simp only [List.map_cons, List.map_nil, List.sum_cons, List.sum_nil, invQuartic, Octic.poly, discV3, cyc3, cycp3, ← hf.e2, ← hf.e3, ← hf.e4, ← hf.e5, ← hf.e1, hf.z1, hf.z2, e2]
      ring

/-! ### Hexagrams -/

/-- What the numbers found by the loop satisfy. -/
structure GramT.Ok (g : Gram K) (T : GramT K) : Prop where
  c2 : 0 ≤ T.c2
  c3 : 0 ≤ T.c3
  c4 : 0 ≤ T.c4
  v : g.v = g.x * T.t ^ 2 + T.c2
  u : g.u = g.y * T.t - 2 * T.h * T.c2 + T.c4
  bal : g.balance = T.c3 + 2 * T.t * g.x + 4 * T.c2 * T.h ^ 2 + g.y ^ 2 / g.x

theorem gramLoop_ok {g : Gram K} (hx : 0 < g.x) {ts : List K} {T : GramT K} (h : gramLoop g ts = some T) : T.Ok g := by
  induction ts with
  | nil => simp [gramLoop] at h
  | cons t ts ih =>
    unfold gramLoop at h
    dsimp only at h
    split_ifs at h with h1 h2
    · rw [← Option.some.inj h]
      obtain ⟨hb, hd⟩ := h1
      have hb' : g.v - t ^ 2 * g.x ≠ 0 := fun e => by linarith
      have hb'' : t ^ 2 * g.x - g.v ≠ 0 := fun e => by linarith
      refine ⟨hb.le, ?_, le_rfl, ?_, ?_, ?_⟩
      · have e : (2*t^3*g.x^3 + 2*t*g.u*g.x*g.y - 2*t*g.v*g.x^2 - g.u^2*g.x - g.v*g.y^2)/(g.x*(g.v - t^2*g.x)) + g.balance = g.det t / (g.x * (g.v - t ^ 2 * g.x)) := by
          unfold Gram.det
          field_simp
        dsimp only
        rw [e]
        exact div_nonneg hd (mul_nonneg hx.le (by linarith))
      · dsimp only
        ring
      · dsimp only
        field_simp
        ring
      · dsimp only
        have hv : g.v = g.v - t ^ 2 * g.x + t ^ 2 * g.x := by ring
        generalize g.v - t ^ 2 * g.x = k at *
        have e : t ^ 2 * g.x - g.v = -k := by rw [hv]; ring
        rw [e, hv]
        field_simp
        ring
    · rw [← Option.some.inj h]
      obtain ⟨hb, hc3, hc4⟩ := h2
      refine ⟨le_rfl, hc3, hc4, ?_, ?_, ?_⟩
      · dsimp only
        linarith
      · dsimp only
        ring
      · dsimp only
        field_simp
        ring
    · exact ih h

theorem sqDiff_pos {a b c : K} (ha : 0 < a) (hb : 0 < b) (hc : 0 < c) (hn : ¬ (a = b ∧ b = c)) : 0 < cyc3 (fun a b c => a ^ 2 * (b - c) ^ 2) a b c := by
  unfold cyc3
  by_cases h : b = c
  · have : a - b ≠ 0 := fun e => hn ⟨sub_eq_zero.1 e, h⟩
    have h2 : 0 < c ^ 2 * (a - b) ^ 2 := by positivity
    have h3 : 0 ≤ a ^ 2 * (b - c) ^ 2 := by positivity
    have h4 : 0 ≤ b ^ 2 * (c - a) ^ 2 := by positivity
    linarith
  · have : b - c ≠ 0 := fun e => h (sub_eq_zero.1 e)
    have h2 : 0 < a ^ 2 * (b - c) ^ 2 := by positivity
    have h3 : 0 ≤ c ^ 2 * (a - b) ^ 2 := by positivity
    have h4 : 0 ≤ b ^ 2 * (c - a) ^ 2 := by positivity
    linarith

/-- The coefficients in terms of the numbers found. -/
theorem gram_coeffs {f : Octic K} {T : GramT K} (hx : 0 < f.gram.x) (hT : T.Ok f.gram) :
    ∃ x r1, x = f.gram.x ∧ f.gram.y / (2 * f.gram.x) = r1 ∧ f.c611 = x ∧ f.c521 = 2 * x * r1 - x ∧ f.c440 = x * T.t ^ 2 + T.c2 ∧
      f.c431 = 2 * x * r1 * T.t - 2 * T.h * T.c2 + T.c4 - (x * T.t ^ 2 + T.c2) - 2 * x * r1 ∧
      f.c422 = T.c3 + 2 * T.t * x + 4 * T.c2 * T.h ^ 2 + 4 * x * r1 ^ 2 + x - 2 * (2 * x * r1 * T.t - 2 * T.h * T.c2 + T.c4) - 2 * (2 * x * r1) ∧
      f.c332 = f.gram.rem - (f.c611 + f.c521 * 2 + f.c431 * 2 + f.c440 + f.c422) := by
  have hr : f.gram.y = 2 * f.gram.x * (f.gram.y / (2 * f.gram.x)) := by field_simp
  have hv := hT.v
  have hu := hT.u
  have hb := hT.bal
  refine ⟨f.gram.x, f.gram.y / (2 * f.gram.x), rfl, rfl, rfl, ?_, ?_, ?_, ?_, ?_⟩
  · rw [← hr]
    unfold Octic.gram
    ring
  · rw [← hv]
    rfl
  · rw [← hr, ← hv, ← hu]
    unfold Octic.gram
    ring
  · rw [← hr, ← hu]
    have e : 4 * f.gram.x * (f.gram.y / (2 * f.gram.x)) ^ 2 = f.gram.y ^ 2 / f.gram.x := by
      field_simp
      ring
    rw [e, ← hb]
    unfold Octic.gram
    ring
  · unfold Octic.gram
    ring

theorem Holds.times2 {f E : Val3 K} {F : Cert K} (h : Holds f F) (hE : ∀ a b c, Octant a b c → 0 ≤ E a b c) :
    Holds (fun a b c => 2 * E a b c * f a b c) ⟨F.terms.map fun u => (2 * u.1, fun a b c => E a b c * u.2 a b c), F.den⟩ := by
  refine ⟨⟨?_, ?_, ?_, h.1.den⟩, h.2⟩
  · intro a b c
    have := h.1.identity a b c
    simp only [Cert.num, List.map_map, Function.comp_def] at this ⊢
    have e : (List.map (fun u : K × Val3 K => 2 * u.1 * (E a b c * u.2 a b c)) F.terms).sum = 2 * E a b c * (List.map (fun u : K × Val3 K => u.1 * u.2 a b c) F.terms).sum := by
      rw [← List.sum_map_mul_left]
      congr 1
      apply List.map_congr_left
      intro u _
      ring
    rw [e, this]
    exact mul_left_comm _ _ _
  · intro u hu
    obtain ⟨w, hw, rfl⟩ := List.mem_map.1 hu
    exact mul_nonneg zero_le_two (h.1.weights w hw)
  · intro u hu a b c ho
    obtain ⟨w, hw, rfl⟩ := List.mem_map.1 hu
    exact mul_nonneg (hE a b c ho) (h.1.exprs w hw a b c ho)

/-- **C89, hexagrams.** -/
theorem octHexagram_sound {X : OctSymExt K} {f : Octic K} {C : Cert K} (hf : f.Hexagon) (h1 : f.c620 = 0) (h2 : f.c530 = 0) (h : octHexagram X f = .ok (some C)) : Holds f.poly C := by
  unfold octHexagram at h
  dsimp only at h
  by_cases h0 : f.gram.x ≤ 0 ∨ f.gram.v < 0 ∨ f.gram.rem < 0
  · rw [if_pos h0] at h
    simp at h
  rw [if_neg h0] at h
  push Not at h0
  obtain ⟨hx, hv, hrem⟩ := h0
  generalize hl : gramLoop f.gram (X.hexagram f) = l at h
  cases l with
  | none => simp at h
  | some T =>
    dsimp only at h
    have hT := gramLoop_ok hx hl
    obtain ⟨x, r1, rfl, hr1, e1, e2, e3, e4, e5, e6⟩ := gram_coeffs hx hT
    rw [hr1] at h
    have hv' := hT.v
    have h2' := hT.c2
    have h3' := hT.c3
    have h4' := hT.c4
    rw [hv'] at h hv
    clear hl hr1 hT hv'
    rw [e4, e5, e1, e2, e3] at e6
    generalize f.gram.x = x at *
    generalize f.gram.rem = rem at *
    obtain ⟨t, k, c2, c3, c4⟩ := T
    dsimp only at *
    split_ifs at h with hd he
    · rw [← Option.some.inj (Except.ok.inj h)]
      refine (Ident.holds ⟨?_, ?_, ?_, ?_⟩ ?_)
      · intro a b c
        simp only [Cert.num, sumY_sum]
        simp only [List.map_cons, List.map_nil, List.sum_cons, List.sum_nil, Octic.poly, discV3, sd3, sab3, prodA, cyc3, cycp3, ← hf.e2, ← hf.e3, ← hf.e4, ← hf.e5, ← hf.e1, hf.z1, hf.z2,
          h1, h2, e1, e2, e3, e4, e5, e6]
        ring
      · intro u hu a b c ho
        have hu := (mem_sumY hu).1
        simp only [List.mem_cons, List.not_mem_nil, or_false] at hu
        rcases hu with rfl | rfl | rfl
        · oct_pos
        · refine mul_nonneg (discV3_nonneg _ _ _) (add_nonneg (mul_nonneg hv ?_) (mul_nonneg (by linarith) ?_))
          · unfold cyc3
            positivity
          · oct_pos
        · refine mul_nonneg (mul_nonneg (sq_nonneg _) ?_) (sd3_nonneg _ _ _)
          unfold sab3
          oct_pos
      · exact fun a b c _ => sd3_nonneg a b c
      · exact fun a b c _ _ _ hn => sd3_pos hn
      · intro u hu
        have hu := (mem_sumY hu).1
        simp only [List.mem_cons, List.not_mem_nil, or_false] at hu
        rcases hu with rfl | rfl | rfl
        · exact zero_le_one
        · exact zero_le_one
        · exact hrem
    · obtain ⟨he1, he2⟩ := he
      cases hS : (schur 3 : Option (Cert K)) with
      | none => simp [schur] at hS
      | some S =>
        rw [hS] at h
        dsimp only at h
        rw [← Option.some.inj (Except.ok.inj h)]
        have hfin := (((schur3_holds hS).smul hx.le).add he1 (e := cyc3 fun a b c => a*(b-c)^2) fun a b c ho => by oct_pos).add he2 (e := prodA)
          fun a b c ho => by
            obtain ⟨ha, hb, hc⟩ := ho
            unfold prodA cycp3
            positivity
        generalize (((S.smul x).add (x * (2 * (r1 - t) + 1) + x) (cyc3 fun a b c => a * (b - c) ^ 2)).add
          (x * 3 + x * (2 * (r1 - t) + 1) * 6 + (x * 3 * ((r1 - t) ^ 2 + 1) + c2 * 3 * (k + 1) ^ 2 + c3 + c4)) prodA) = F at *
        have hE : ∀ a b c : K, Octant a b c → 0 ≤ prodA a b c * discV3 a b c := by
          rintro a b c ⟨ha, hb, hc⟩
          refine mul_nonneg ?_ (discV3_nonneg _ _ _)
          unfold prodA cycp3
          positivity
        have hF := hfin.times2 hE
        refine Holds.quot (g := cyc3 fun a b c => a ^ 2 * (b - c) ^ 2) ?_ (holds_plain (fun a b c => by simp) (by simp) fun u hu a b c ho => ?_) fun a b c ha hb hc hn => sqDiff_pos ha hb hc hn
        · refine Holds.congr (Holds.plus (holds_plain (fun a b c => rfl) ?_ ?_) hF) ?_
          · simp only [List.mem_cons, List.not_mem_nil, or_false, forall_eq_or_imp, forall_eq]
            exact ⟨by positivity, by positivity, by positivity, by positivity, hrem⟩
          · intro u hu a b c ho
            simp only [List.mem_cons, List.not_mem_nil, or_false] at hu
            rcases hu with rfl | rfl | rfl | rfl | rfl
            · exact sq_nonneg _
            · exact sq_nonneg _
            · refine mul_nonneg (sq_nonneg _) ?_
              oct_pos
            · obtain ⟨ha, hb, hc⟩ := ho
              simp only [prodA, cyc3, cycp3]
              positivity
            · refine mul_nonneg (mul_nonneg (sq_nonneg _) ?_) ?_
              · unfold sab3
                oct_pos
              · unfold cyc3
                positivity
          · intro a b c
            simp only [List.map_cons, List.map_nil, List.sum_cons, List.sum_nil, Octic.poly, discV3, sd3, sab3, prodA, cyc3, cycp3, ← hf.e2, ← hf.e3, ← hf.e4, ← hf.e5, ← hf.e1, hf.z1, hf.z2,
              h1, h2, e1, e2, e3, e4, e5, e6]
            ring
        · simp only [List.mem_cons, List.not_mem_nil, or_false] at hu
          rw [hu]
          dsimp only
          unfold cyc3
          positivity
    · simp at h

/-! ### The solver -/

/-- The polynomials for which the second formula for hexagons is wrong. -/
def Octic.DegenerateFault (f : Octic K) : Prop := 2 * f.c620 + f.c611 = 0 ∧ f.c530 + f.c521 ≠ 0

theorem octHexagon_sound {X : OctSymExt K} {f : Octic K} {C : Cert K} (hf : f.Hexagon) (hd : ¬ f.DegenerateFault) (h : octHexagon X f = .ok (some C)) :
    Ident f.poly C ∧ (¬ f.LimitFault → Holds f.poly C) := by
  have key : ∀ {D : Cert K}, Holds f.poly D → Ident f.poly D ∧ (¬ f.LimitFault → Holds f.poly D) := fun hD => ⟨hD.ident, fun _ => hD⟩
  unfold octHexagon at h
  by_cases h0 : f.c620 < 0 ∨ 2*f.c620 + f.c611 < 0
  · rw [if_pos h0] at h
    simp at h
  rw [if_neg h0] at h
  split at h
  · simp at h
  · rename_i D hD
    rw [← Option.some.inj (Except.ok.inj h)]
    exact octHexagonSdp_sound hf hD
  · split at h
    · rename_i D hD
      rw [← Option.some.inj (Except.ok.inj h)]
      exact key (hexagonCase1_sound hf hD)
    · split at h
      · rename_i D hD
        rw [← Option.some.inj (Except.ok.inj h)]
        exact key (hexagonCase2_sound hf (fun e => by_contra fun e' => hd ⟨e, e'⟩) hD)
      · split_ifs at h with h1
        · exact key (octHexagram_sound hf h1.1 h1.2 h)
        · simp at h

/-- **C89.** Outside two cases an answer of the symmetric octic solver is a complete proof of the polynomial. -/
theorem octicSymmetric_sound {X : OctSymExt K} {b : Bool} {f : Octic K} {C : Cert K} (hd : ¬ f.DegenerateFault) (hl : ¬ f.LimitFault) (h : octicSymmetric X b f = .ok (some C)) :
    Holds f.poly C := by
  unfold octicSymmetric at h
  by_cases h1 : f.c710 = f.c701 ∧ f.c620 = f.c602 ∧ f.c530 = f.c503 ∧ f.c521 = f.c512 ∧ f.c431 = f.c413
  swap
  · rw [if_pos h1] at h
    simp at h
  rw [if_neg (not_not.2 h1)] at h
  split_ifs at h with h2 h3 h4
  · simp at h
  · obtain ⟨a1, a2, a3, a4, a5⟩ := h1
    exact octHexagram_sound ⟨⟨a1, a2, a3, a4, a5⟩, h3.1, h3.2⟩ h4.1 h4.2 h
  · obtain ⟨a1, a2, a3, a4, a5⟩ := h1
    exact (octHexagon_sound ⟨⟨a1, a2, a3, a4, a5⟩, h3.1, h3.2⟩ hd h).2 hl
  · simp at h

/-- **C89.** The answer is an identity for the polynomial unless `c611 = -2*c620` and `c521 ≠ -c530`. -/
theorem octicSymmetric_ident {X : OctSymExt K} {b : Bool} {f : Octic K} {C : Cert K} (hd : ¬ f.DegenerateFault) (h : octicSymmetric X b f = .ok (some C)) : Ident f.poly C := by
  unfold octicSymmetric at h
  by_cases h1 : f.c710 = f.c701 ∧ f.c620 = f.c602 ∧ f.c530 = f.c503 ∧ f.c521 = f.c512 ∧ f.c431 = f.c413
  swap
  · rw [if_pos h1] at h
    simp at h
  rw [if_neg (not_not.2 h1)] at h
  split_ifs at h with h2 h3 h4
  · simp at h
  · obtain ⟨a1, a2, a3, a4, a5⟩ := h1
    exact (octHexagram_sound ⟨⟨a1, a2, a3, a4, a5⟩, h3.1, h3.2⟩ h4.1 h4.2 h).ident
  · obtain ⟨a1, a2, a3, a4, a5⟩ := h1
    exact (octHexagon_sound ⟨⟨a1, a2, a3, a4, a5⟩, h3.1, h3.2⟩ hd h).1
  · simp at h

/-- The whole octic solver, with the symmetric solver in place of the contract. -/
theorem octicSolve_full {X : OcticExt K} {Y : OctSymExt K} {b : Bool} (hsymm : X.symm = octicSymmetric Y b)
    (hsolve : ∀ (s : Septic K) C, X.solve s.terms = .ok (some C) → Holds s.poly C) {f : Octic K} {C : Cert K} (hd : ¬ f.DegenerateFault) (hl : ¬ f.LimitFault)
    (h : octicSolve X f = .ok (some C)) : Holds f.poly C := by
  classical
  let X' : OcticExt K := ⟨fun g => if g = f then X.symm g else .ok none, X.rational, X.solve⟩
  have hX : X'.Sound := by
    refine ⟨fun g D hg => ?_, hsolve⟩
    by_cases e : g = f
    · have hg' : (if g = f then X.symm g else .ok none) = .ok (some D) := hg
      rw [if_pos e, hsymm] at hg'
      rw [e] at hg' ⊢
      exact octicSymmetric_sound hd hl hg'
    · have hg' : (if g = f then X.symm g else .ok none) = .ok (some D) := hg
      rw [if_neg e] at hg'
      simp at hg'
  refine octicSolve_sound hX (f := f) ?_
  have e : X'.symm f = X.symm f := if_pos rfl
  unfold octicSolve at h ⊢
  rw [e]
  exact h

/-! ### The wrong answers -/

/-- Every answer of the second case looks like a proof: it is a complete proof of some polynomial. -/
theorem hexagonCase2_looks {f : Octic K} {C : Cert K} (h : hexagonCase2 f = some C) : ∃ g, Holds g C := by
  unfold hexagonCase2 at h
  dsimp only at h
  generalize (if 2 * f.c620 + f.c611 ≠ 0 then -2 * (2 * f.c620 + f.c530 + f.c611 + f.c521) / (2 * f.c620 + f.c611) else 0) = y at h
  split_ifs at h with h2
  obtain ⟨hx, hz, hzw⟩ := h2
  obtain ⟨D, hD, hC⟩ := Option.map_eq_some_iff.1 h
  obtain ⟨hH, hd⟩ := inverseQuartic_sound hD
  rw [← hC]
  refine ⟨_, hH.more hd ?_ ?_ fun a b c => rfl⟩
  · simp only [List.mem_cons, List.not_mem_nil, or_false, forall_eq_or_imp, forall_eq]
    exact ⟨hx, zero_le_one⟩
  · simp only [List.mem_cons, List.not_mem_nil, or_false, forall_eq_or_imp, forall_eq]
    refine ⟨fun a b c ho => ?_, fun a b c ho => mul_nonneg (discV3_nonneg _ _ _) (quad_sum_nonneg hz hzw ho)⟩
    unfold cyc3
    positivity

/-- In the degenerate case every answer of the second case is wrong: the value at `(1, 1, 0)` differs by `c530 + c521`. -/
theorem hexagonCase2_wrong {f : Octic K} {C : Cert K} (hf : f.Hexagon) (hk : f.DegenerateFault) (h : hexagonCase2 f = some C) :
    C.num 1 1 0 - C.den 1 1 0 * f.poly 1 1 0 = f.c530 + f.c521 ∧ ¬ Ident f.poly C := by
  have key : C.num 1 1 0 - C.den 1 1 0 * f.poly 1 1 0 = f.c530 + f.c521 := by
    obtain ⟨h1, -⟩ := hk
    unfold hexagonCase2 at h
    dsimp only at h
    simp only [h1, ne_eq, not_true_eq_false, if_false] at h
    split_ifs at h with h2
    obtain ⟨D, hD, hC⟩ := Option.map_eq_some_iff.1 h
    obtain ⟨hH, hd⟩ := inverseQuartic_sound hD
    have e1 : f.c611 = -(2 * f.c620) := by linarith
    have hn := hH.1.identity 1 1 0
    rw [hd, one_mul] at hn
    rw [← hC]
    have hden : (D.more [((0 : K) / 8, cyc3 fun a b c => (a - b) ^ 2 * (a ^ 2 * b + a ^ 2 * c + a * b ^ 2 + (0 - 1) * a * c ^ 2 + b ^ 2 * c + (0 - 1) * b * c ^ 2 - 2 * 0 * a * b * c) ^ 2),
        (1, fun a b c => discV3 a b c * cyc3 (fun a b c => (2 * f.c620 - f.c611) / 4 * a ^ 2 + (10 * f.c620 + 6 * f.c530 + f.c611 + 2 * f.c521) / 4 * b * c) a b c)]).den 1 1 0 = 1 := hd 1 1 0
    rw [hden, one_mul]
    simp only [Cert.num, Cert.more, hd, mul_one, List.map_append, List.sum_append, List.map_map, Function.comp_def] at hn ⊢
    rw [hn]
    simp only [List.map_cons, List.map_nil, List.sum_cons, List.sum_nil, invQuartic, Octic.poly, discV3, cyc3, cycp3, ← hf.e2, ← hf.e3, ← hf.e4, ← hf.e5, ← hf.e1, hf.z1, hf.z2, e1]
    ring
  refine ⟨key, fun hI => hk.2 ?_⟩
  rw [← key, hI.identity]
  ring

/-- The symmetric octic with the given coefficients. -/
def symOctic (c620 c530 c440 c611 c521 c431 c422 c332 : ℚ) : Octic ℚ where
  c800 := 0
  c710 := 0
  c701 := 0
  c620 := c620
  c611 := c611
  c602 := c620
  c530 := c530
  c521 := c521
  c512 := c521
  c503 := c530
  c440 := c440
  c431 := c431
  c422 := c422
  c413 := c431
  c332 := c332

/-- Weights of an answer. -/
def weightsOf : Except PyErr (Option (Cert ℚ)) → Option (List ℚ)
  | .ok (some C) => some (C.terms.map Prod.fst)
  | _ => none

/-- **C89, fault.** A polynomial that is negative at `(100, 1, 1)` gets an answer; the answer looks like a proof and is one of another polynomial. -/
theorem octicSymmetric_wrong (X : OctSymExt ℚ) : ∃ C g, octicSymmetric X true (symOctic 1 0 10 (-2) (-1) 10 100 100) = .ok (some C) ∧ Holds g C ∧
    (symOctic 1 0 10 (-2) (-1) 10 100 100).poly 100 1 1 < 0 := by
  generalize hf : symOctic 1 0 10 (-2) (-1) 10 100 100 = f
  have h1 : octHexagonSdp X f = .ok none := by
    rw [← hf]
    unfold octHexagonSdp
    exact if_pos (.inr (by decide +kernel))
  have h2 : (hexagonCase1 f).isNone = true := by
    rw [← hf]
    decide +kernel
  have h3 : (hexagonCase2 f).isSome = true := by
    rw [← hf]
    decide +kernel
  obtain ⟨C, hC⟩ := Option.isSome_iff_exists.1 h3
  obtain ⟨g, hg⟩ := hexagonCase2_looks hC
  refine ⟨C, g, ?_, hg, ?_⟩
  · have e : octicSymmetric X true f = octHexagon X f := by
      rw [← hf]
      unfold octicSymmetric
      rw [if_neg (by decide +kernel), if_neg (by decide), if_pos (by decide +kernel), if_neg (by decide +kernel)]
    rw [e]
    unfold octHexagon
    have e0 : ¬ (f.c620 < 0 ∨ 2 * f.c620 + f.c611 < 0) := by
      rw [← hf]
      decide +kernel
    rw [if_neg e0, h1, Option.isNone_iff_eq_none.1 h2, hC]
  · rw [← hf]
    decide +kernel

/-- Numbers offered by the root finding in the examples. -/
def exOctSym : OctSymExt ℚ where
  nh _ := [.exact (-1), .exact (1 / 2), .exact 1, .exact 2, .exact (-1 / 2), .exact (-2)]
  nd _ := [.exact 1]
  dh _ := ⟨[.exact 1], [], [.exact 1]⟩
  hexagram _ := [0, 1, -1, 1 / 2]

/-- **C89, fault.** The number `-1` is taken although a weight is negative. -/
theorem octicSymmetric_negative : weightsOf (octicSymmetric exOctSym true (symOctic 1 (1 / 2) 3 2 (-3) (-5 / 2) (-3) 6)) = some [1 / 36, -1 / 24, 7 / 8, 1 / 2] ∧
    (symOctic 1 (1 / 2) 3 2 (-3) (-5 / 2) (-3) 6).LimitFault := by
  constructor
  · decide +kernel
  · unfold Octic.LimitFault
    decide +kernel

/-- **C89, fault.** `a^6b^2 + ...` equal to `s(a)^2 p(a-b)^2 + 3 s(a^2b^2 - a^2bc)^2` is nonnegative everywhere, and the answer contains `nan`. -/
theorem octicSymmetric_nan (X : OctSymExt ℚ) : octicSymmetric X true (symOctic 1 0 1 (-2) 0 (-4) 9 (-2)) = .error nanErr ∧
    ∀ a b c, 0 ≤ (symOctic 1 0 1 (-2) 0 (-4) 9 (-2)).poly a b c := by
  constructor
  · have h1 : octHexagonSdp X (symOctic 1 0 1 (-2) 0 (-4) 9 (-2)) = .error nanErr := by
      unfold octHexagonSdp
      dsimp only
      rw [if_neg (by decide +kernel), if_neg (by decide +kernel), if_neg (by decide +kernel), if_pos (by decide +kernel), if_neg (by decide +kernel)]
      unfold ddSolve
      dsimp only
      rw [if_neg (by decide +kernel), if_pos (by decide +kernel)]
      unfold hexResultNan
      have : (hexQuad (⟨(symOctic 1 0 1 (-2) 0 (-4) 9 (-2)).hex.c620, -(symOctic 1 0 1 (-2) 0 (-4) 9 (-2)).hex.c620, (symOctic 1 0 1 (-2) 0 (-4) 9 (-2)).hex.c530 / 2,
          (symOctic 1 0 1 (-2) 0 (-4) 9 (-2)).hex.c440 + 2 * (symOctic 1 0 1 (-2) 0 (-4) 9 (-2)).hex.c620⟩ : QForm ℚ)).isSome = true := by decide +kernel
      obtain ⟨l, hl⟩ := Option.isSome_iff_exists.1 this
      rw [hl]
      rfl
    unfold octicSymmetric
    rw [if_neg (by decide +kernel), if_neg (by decide), if_pos (by decide +kernel), if_neg (by decide +kernel)]
    unfold octHexagon
    rw [if_neg (by decide +kernel), h1]
  · intro a b c
    have e : (symOctic 1 0 1 (-2) 0 (-4) 9 (-2)).poly a b c = sumA a b c ^ 2 * discV3 a b c + 3 * octQ a b c ^ 2 := by
      simp only [symOctic, Octic.poly, sumA, discV3, octQ, cyc3, cycp3]
      ring
    rw [e]
    have := discV3_nonneg a b c
    positivity

/-- **C89, fault.** With `c611 = 2*c620`, `w2 = w4 = 0` and `w5 > 0` the computation divides by zero. -/
theorem dhSolve_zero (X : HexCands K) {h : Hex K} (h1 : h.c611 = 2 * h.c620) (h5 : 0 < h.w5) : dhSolve X h = .error nanErr := by
  unfold dhSolve
  rw [if_neg (not_lt.2 h5.le), if_pos h5]
  unfold strictPsd
  rw [if_pos (by rw [h1]; ring)]
  rfl

/-! ### Cases that meet the hypotheses -/

/-- Answers of every branch: general (`w4 > 0`), `w1 = 0`, `w2 = w4 = 0`, all zero, hexagrams with both multipliers. -/
theorem octicSymmetric_ex :
    (weightsOf (octicSymmetric exOctSym true (symOctic 1 0 1 0 0 0 0 (-3)))).isSome = true ∧
    (weightsOf (octicSymmetric exOctSym true (symOctic 0 0 1 1 1 1 1 1))).isSome = true ∧
    (weightsOf (octicSymmetric exOctSym true (symOctic 0 0 1 1 (-2) 1 1 3))).isSome = true ∧
    weightsOf (octicSymmetric exOctSym true (symOctic 1 0 3 1 (-3) (-5) 3 7)) = some [1 / 6, 0, 2 / 3, 2] := by
  decide +kernel

end Verif.Ternary
