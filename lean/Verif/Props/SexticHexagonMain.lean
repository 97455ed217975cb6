import Verif.Props.SexticHexagon
import Mathlib.Data.Real.Sqrt

/-!
# The answers and exceptions of the solver of symmetric hexagons
-/

set_option linter.unusedSectionVars false

namespace Verif.Ternary

open Verif Verif.Acute Verif.Dense

variable {K : Type*} [Field K] [LinearOrder K] [IsStrictOrderedRing K]

/-- A mean of two lists for two polynomials, put over `CyclicSum((a-b)**2)`. -/
theorem lifts_mean {f g g1 g2 : Val3 K} {l1 l2 : List (K × Val3 K)} {w n p r : K} (h1 : Lifts g1 l1) (h2 : Lifts g2 l2) (hw0 : 0 ≤ w) (hw1 : w ≤ 1) (hn : 0 ≤ n) (hp : 0 ≤ p) (hr : 0 ≤ r)
    (hg : ∀ a b c, g a b c = w * g1 a b c + (1 - w) * g2 a b c) (hf : ∀ a b c, f a b c = n * g a b c + p * discV a b c + r * a2V a b c) :
    EveryHolds f (((Acute.over (.plain (l1.map (fun e => (w * n * e.1, e.2)) ++ l2.map fun e => ((1 - w) * n * e.1, e.2))) sd3).add p discV).add r a2V) := by
  refine ⟨⟨?_, ?_, ?_, ?_⟩, ?_⟩
  · intro a b c
    have e1 := h1.sum a b c
    have e2 := h2.sum a b c
    have m : ∀ (k : K) (l : List (K × Val3 K)), ((l.map fun e => (k * e.1, e.2)).map fun t => t.1 * t.2 a b c).sum = k * (l.map fun t => t.1 * t.2 a b c).sum := by
      intro k l
      induction l with
      | nil => simp
      | cons t l ih =>
        simp only [List.map_cons, List.sum_cons] at ih ⊢
        rw [ih]; ring
    simp only [Cert.num, Cert.add, Acute.over, Cert.plain, List.map_cons, List.sum_cons, List.map_append, List.sum_append, m, e1, e2, hf, hg]
    ring
  · intro t ht
    simp only [Cert.add, Acute.over, Cert.plain, List.mem_cons, List.mem_append, List.mem_map] at ht
    rcases ht with rfl | rfl | ⟨e, he, rfl⟩ | ⟨e, he, rfl⟩
    · exact hr
    · exact hp
    · exact mul_nonneg (mul_nonneg hw0 hn) (h1.weights e he)
    · exact mul_nonneg (mul_nonneg (sub_nonneg.2 hw1) hn) (h2.weights e he)
  · intro t ht a b c _
    simp only [Cert.add, Acute.over, Cert.plain, List.mem_cons, List.mem_append, List.mem_map] at ht
    rcases ht with rfl | rfl | ⟨e, he, rfl⟩ | ⟨e, he, rfl⟩
    · dsimp only
      rw [one_mul]
      refine mul_nonneg ?_ (sd3_nonneg a b c)
      simp only [a2V, cycp3]; positivity
    · dsimp only
      rw [one_mul]
      exact mul_nonneg (discV_nonneg a b c) (sd3_nonneg a b c)
    · exact h1.exprs e he a b c
    · exact h2.exprs e he a b c
  · intro a b c _
    change 0 ≤ 1 * sd3 a b c
    rw [one_mul]; exact sd3_nonneg a b c
  · intro a b c hn
    change 0 < 1 * sd3 a b c
    rw [one_mul]; exact sd3_pos hn

theorem onCurve_inv {x y : K} {t : Option K} (h : OnCurve x y t) :
    ∃ s, invT t = some s ∧ -1 / 2 ≤ s ∧ s ≤ 1 ∧ x = 4 * s ^ 2 - 2 ∧ y = -4 * s ^ 2 - 4 * s - 2 := by
  cases t with
  | none =>
    obtain ⟨rfl, rfl⟩ := h
    exact ⟨0, rfl, by norm_num, zero_le_one, by norm_num, by norm_num⟩
  | some t =>
    obtain ⟨ht, rfl, rfl⟩ := h
    have h0 : t ≠ 0 := by rintro rfl; rcases ht with h | h <;> linarith
    refine ⟨1 / t, rfl, ?_, ?_, by field_simp, by field_simp⟩
    · rcases ht with h | h
      · have : t < 0 := by linarith
        rw [le_div_iff_of_neg this]
        linarith
      · have : 0 < 1 / t := by positivity
        linarith
    · rcases ht with h | h
      · have : 1 / t ≤ 0 := div_nonpos_of_nonneg_of_nonpos zero_le_one (by linarith)
        linarith
      · exact (div_le_one (by linarith)).2 h

/-- The square of the numbers in the branch for real variables. -/
theorem hexRealNums_spec {f : Sextic K} (h1 : |f.c330| ≤ 2 * f.c420) (h2 : |f.c411| ≤ 2 * f.c420) (hn : (hexRealNums f).2.2.1 ≠ 0) :
    0 ≤ (hexRealNums f).2.1 ∧ 0 < (hexRealNums f).2.2.1 ∧
    (∀ a b c, symHexV f.c420 f.c411 f.c330 f.c321 f.c222 a b c = (hexRealNums f).2.2.1 *
      (if (hexRealNums f).1 = true then hexH else hexG) (hexRealNums f).2.2.2.1 (hexRealNums f).2.2.2.2 a b c + (hexRealNums f).2.1 * discV a b c + f.symRem * a2V a b c) ∧
    ((hexRealNums f).2.2.2.1 = 2 → (hexRealNums f).2.2.2.2 = -10 → f.c411 = f.c330 ∧ f.c321 + 4 * f.c420 + 3 * f.c330 = 0) := by
  obtain ⟨h1a, h1b⟩ := abs_le.1 h1
  obtain ⟨h2a, h2b⟩ := abs_le.1 h2
  by_cases hc : f.c411 ≤ f.c330
  · have e : hexRealNums f = (false, (f.c420 * 2 - f.c330) / 4, f.c420 - (f.c420 * 2 - f.c330) / 4, (f.c411 + (f.c420 * 2 - f.c330) / 4 * 2) / (f.c420 - (f.c420 * 2 - f.c330) / 4),
        (f.c321 - 2 * ((f.c420 * 2 - f.c330) / 4)) / (f.c420 - (f.c420 * 2 - f.c330) / 4)) := by unfold hexRealNums; rw [if_pos hc]
    rw [e] at hn ⊢
    dsimp only at hn ⊢
    generalize hp : (f.c420 * 2 - f.c330) / 4 = p at *
    generalize hq : f.c420 - p = n at *
    have p3 : f.c330 = 2 * n - 2 * p := by rw [← hq, ← hp]; ring
    have p4 : f.c420 = n + p := by rw [← hq]; ring
    refine ⟨by linarith, lt_of_le_of_ne (by linarith) (Ne.symm hn), ?_, ?_⟩
    · intro a b c
      simp only [Bool.false_eq_true, if_false, hexG, symHexV, discV, a2V, cycp3, Sextic.symRem, p3, p4]
      field_simp
      ring
    · intro e1 e2
      rw [div_eq_iff hn] at e1 e2
      exact ⟨by linear_combination e1 - p3, by linear_combination e2 + 4 * p4 + 3 * p3⟩
  · have e : hexRealNums f = (true, (f.c420 * 2 - f.c411) / 4, f.c420 - (f.c420 * 2 - f.c411) / 4, (f.c330 + (f.c420 * 2 - f.c411) / 4 * 2) / (f.c420 - (f.c420 * 2 - f.c411) / 4),
        (f.c321 - 2 * ((f.c420 * 2 - f.c411) / 4)) / (f.c420 - (f.c420 * 2 - f.c411) / 4)) := by unfold hexRealNums; rw [if_neg hc]
    rw [e] at hn ⊢
    dsimp only at hn ⊢
    generalize hp : (f.c420 * 2 - f.c411) / 4 = p at *
    generalize hq : f.c420 - p = n at *
    have p3 : f.c411 = 2 * n - 2 * p := by rw [← hq, ← hp]; ring
    have p4 : f.c420 = n + p := by rw [← hq]; ring
    refine ⟨by linarith, lt_of_le_of_ne (by linarith) (Ne.symm hn), ?_, ?_⟩
    · intro a b c
      simp only [if_true, hexH, symHexV, discV, a2V, cycp3, Sextic.symRem, p3, p4]
      field_simp
      ring
    · intro e1 e2
      rw [div_eq_iff hn] at e1 e2
      exfalso
      apply hc
      linarith

theorem hexG_mean (w x1 y1 x2 y2 a b c : K) : hexG (w * x1 + (1 - w) * x2) (w * y1 + (1 - w) * y2) a b c = w * hexG x1 y1 a b c + (1 - w) * hexG x2 y2 a b c := by
  simp only [hexG, symHexV]; ring

theorem hexH_mean (w x1 y1 x2 y2 a b c : K) : hexH (w * x1 + (1 - w) * x2) (w * y1 + (1 - w) * y2) a b c = w * hexH x1 y1 a b c + (1 - w) * hexH x2 y2 a b c := by
  simp only [hexH, symHexV]; ring

/-- **In the branch for real variables the answers hold for all numbers, and the only exception is at one point of the plane.** -/
theorem sxHexReal_spec {X : SxHexExt K} (hX : SqrtSound X.sq) {f : Sextic K} (hf : f.SymHex) (h1 : |f.c330| ≤ 2 * f.c420) (h2 : |f.c411| ≤ 2 * f.c420) (hr : 0 ≤ f.symRem) :
    (∃ r, sxHexReal X f = .ok r ∧ ∀ C, r = some C → EveryHolds f.poly C) ∨
      (sxHexReal X f = .error .typeError ∧ f.c411 = f.c330 ∧ f.c321 + 4 * f.c420 + 3 * f.c330 = 0) := by
  unfold sxHexReal
  dsimp only
  by_cases hn : (hexRealNums f).2.2.1 = 0
  · rw [if_pos hn]; exact .inl ⟨none, rfl, fun C h => by simp at h⟩
  rw [if_neg hn]
  obtain ⟨hp, hn0, hid, hdeg⟩ := hexRealNums_spec h1 h2 hn
  cases hcomb : hexComb (hexRealNums f).2.2.2.1 (hexRealNums f).2.2.2.2 with
  | none => exact .inl ⟨none, rfl, fun C h => by simp at h⟩
  | some wt =>
    obtain ⟨w, t⟩ := wt
    by_cases hd : (hexRealNums f).2.2.2.1 = 2 ∧ (hexRealNums f).2.2.2.2 = -10
    · right
      exact ⟨if_pos hd, hdeg hd.1 hd.2⟩
    left
    dsimp only
    rw [if_neg hd]
    obtain ⟨hw0, hw1, x2, y2, hcur, ex, ey⟩ := hexComb_spec hcomb hd
    obtain ⟨l1, el1, hG, hH⟩ := hexReal_one (X := X)
    rw [el1]
    by_cases hb : (hexRealNums f).1 = true
    · rw [if_pos hb]
      obtain ⟨s, es, s1, s2, rfl, rfl⟩ := onCurve_inv hcur
      rw [es]
      obtain ⟨l2, el2, hl2⟩ := hexReal_in (X := X) s1 s2
      rw [el2]
      refine ⟨_, rfl, fun C hC => ?_⟩
      rw [← Option.some.inj hC]
      refine lifts_mean (g := hexH (hexRealNums f).2.2.2.1 (hexRealNums f).2.2.2.2) hH hl2 hw0 hw1 hn0.le hp hr (fun a b c => ?_) fun a b c => ?_
      · rw [← hexH_mean, ← ex, ← ey]
      · rw [symHex_poly hf, hid, if_pos hb]
    · rw [if_neg hb]
      obtain ⟨l2, el2, hl2⟩ := hexReal_out hX hcur
      rw [el2]
      refine ⟨_, rfl, fun C hC => ?_⟩
      rw [← Option.some.inj hC]
      refine lifts_mean (g := hexG (hexRealNums f).2.2.2.1 (hexRealNums f).2.2.2.2) hG hl2 hw0 hw1 hn0.le hp hr (fun a b c => ?_) fun a b c => ?_
      · rw [← hexG_mean, ← ex, ← ey]
      · rw [symHex_poly hf, hid, if_neg hb]

/-- Where the branch for real variables would raise, the method without a denominator succeeds. -/
theorem sxHexSdp_degenerate {X : SxHexExt K} {f : Sextic K} (h0 : 0 < f.c420) (h1 : |f.c330| ≤ 2 * f.c420) (h2 : |f.c411| ≤ 2 * f.c420) (hr : 0 ≤ f.symRem) (h3 : f.c411 = f.c330)
    (h4 : f.c321 + 4 * f.c420 + 3 * f.c330 = 0) : ∃ C, sxHexSdp X f = .ok (some C) := by
  unfold sxHexSdp
  rw [if_neg (not_le.2 h0), if_neg (not_not.2 ⟨hr, h2, h1⟩), if_pos h3]
  obtain ⟨h1a, h1b⟩ := abs_le.1 h1
  have hM : hexForm f 1 = (f.c420, f.c330 / 2, 0) := by
    simp only [hexForm, h3]
    refine Prod.ext ?_ (Prod.ext ?_ ?_)
    · norm_num; ring
    · norm_num; ring
    · have : f.c321 = -4 * f.c420 - 3 * f.c330 := by linear_combination h4
      simp only [this]; norm_num; ring
  unfold hexSol
  dsimp only
  rw [if_neg (by norm_num), hM, h3]
  have : ∃ l, quadraticWeighting ((f.c420 + f.c330 / 2) / 2) (0 * 2) f.symRem = some l := by
    unfold quadraticWeighting
    have p : 0 ≤ (f.c420 + f.c330 / 2) / 2 := by linarith
    rw [if_neg]
    · split_ifs <;> exact ⟨_, rfl⟩
    · rintro (h | h | h)
      · rw [zero_mul] at h
        have := mul_nonneg p hr
        nlinarith
      · linarith
      · linarith
  obtain ⟨l, hl⟩ := this
  have hF : ∃ l', hexFormSol f (f.c420, f.c330 / 2, 0) = some l' := by
    unfold hexFormSol
    rw [if_neg (by dsimp only; linarith), hl]
    exact ⟨_, rfl⟩
  obtain ⟨l', hF⟩ := hF
  rw [hF]
  dsimp only
  rw [if_pos (by simp)]
  exact ⟨_, rfl⟩

theorem subDisc_hexagram {f : Sextic K} (hf : f.SymHex) : f.subDisc.Hexagram := ⟨rfl, rfl, rfl, rfl, rfl, by simp only [Sextic.subDisc, hf.c312]⟩

theorem subDisc_poly {f : Sextic K} (hf : f.SymHex) (a b c : K) : f.subDisc.poly a b c + f.c420 * discV a b c = f.poly a b c := by
  rw [symHex_poly hf]
  simp only [Sextic.poly, Sextic.subDisc, discV, cycp3, symHexV, hf.c312]
  ring

/-- **Every answer of the solver of symmetric hexagons is a proof on the octant.** -/
theorem sxHexagon_sound {X : SxHexExt K} (hN : X.nd.Sound) (hX : SqrtSound X.sq) {real : Bool} {f : Sextic K} (hf : f.SymHex) {C : Cert K} (h : sxHexagon X real f = .ok (some C)) :
    Holds f.poly C := by
  unfold sxHexagon at h
  by_cases h0 : f.c420 ≤ 0
  · rw [if_pos h0] at h
    split at h
    · rename_i h1
      exact hexSym_sound hN ⟨hf.c600, hf.c510, hf.c501, h1, hf.c402.trans h1, hf.c312⟩ h
    · simp at h
  rw [if_neg h0] at h
  by_cases hr : f.symRem < 0
  · rw [if_pos hr] at h; simp at h
  rw [if_neg hr] at h
  push Not at h0 hr
  have hrest : ∀ {C}, sxHexRest X f = .ok (some C) → Holds f.poly C := by
    intro C h
    unfold sxHexRest at h
    cases hs : hexSym X.nd f.subDisc with
    | error e => rw [hs] at h; simp [Except.map] at h
    | ok r =>
      rw [hs] at h
      obtain ⟨C', rfl, rfl⟩ := Option.map_eq_some_iff.1 (Except.ok.inj h)
      exact ((hexSym_sound hN (subDisc_hexagram hf) hs).add h0.le fun a b c _ => discV_nonneg a b c).congr (subDisc_poly hf)
  cases hs : sxHexSdp X f with
  | error e => rw [hs] at h; simp at h
  | ok r =>
    rw [hs] at h
    cases r with
    | some C' =>
      rw [← Option.some.inj (Except.ok.inj h)]
      exact (sxHexSdp_sound hf hs).holds
    | none =>
      dsimp only at h
      split at h
      · rename_i hc
        rcases sxHexReal_spec hX hf hc.2.1 hc.2.2 hr with ⟨r, er, hC⟩ | ⟨er, -⟩
        · rw [er] at h
          cases r with
          | none => exact hrest h
          | some C' =>
            rw [← Option.some.inj (Except.ok.inj h)]
            exact (hC _ rfl).holds
        · rw [er] at h; simp at h
      · exact hrest h

/-- **The solver raises nothing but `TypeError`, and only in two cases.**  In the first the polynomial is negative at `(1, 1, 1)`; the second is the call `_is_valid(None)`. -/
theorem sxHexagon_error {X : SxHexExt K} (hX : SqrtSound X.sq) {real : Bool} {f : Sextic K} (hf : f.SymHex) {e : PyErr} (h : sxHexagon X real f = .error e) :
    e = .typeError ∧ ((f.c420 = 0 ∧ f.c330 = 0 ∧ f.poly 1 1 1 < 0) ∨
      (0 < f.c420 ∧ |f.c411| ≤ 2 * f.c420 ∧ |f.c330| ≤ 2 * f.c420 ∧ f.c411 ≠ f.c330 ∧ f.c321 + 4 * f.c420 + 3 * f.c330 = 0 ∧ 0 < f.poly 1 1 1)) := by
  have hrem : f.poly 1 1 1 = f.symRem := by rw [symHex_poly hf, symHexV, Sextic.symRem]; ring
  rw [hrem]
  unfold sxHexagon at h
  by_cases h0 : f.c420 ≤ 0
  · rw [if_pos h0] at h
    split at h
    · rename_i h1
      obtain ⟨e1, e2, -, -, e5⟩ := hexSym_error ⟨hf.c600, hf.c510, hf.c501, h1, hf.c402.trans h1, hf.c312⟩ h
      exact ⟨e1, .inl ⟨h1, e2, hrem ▸ e5⟩⟩
    · simp at h
  rw [if_neg h0] at h
  by_cases hr : f.symRem < 0
  · rw [if_pos hr] at h; simp at h
  rw [if_neg hr] at h
  push Not at h0 hr
  have hrest : ∀ {e}, sxHexRest X f = .error e → False := by
    intro e h
    unfold sxHexRest at h
    cases hs : hexSym X.nd f.subDisc with
    | ok r => rw [hs] at h; simp [Except.map] at h
    | error e =>
      obtain ⟨-, -, -, -, h5⟩ := hexSym_error (subDisc_hexagram hf) hs
      have := subDisc_poly hf 1 1 1
      simp only [discV, cycp3, sub_self] at this
      rw [hrem] at this
      norm_num at this
      linarith
  cases hs : sxHexSdp X f with
  | ok r =>
    exfalso
    rw [hs] at h
    cases r with
    | some C' => simp at h
    | none =>
      dsimp only at h
      split at h
      · rename_i hc
        rcases sxHexReal_spec hX hf hc.2.1 hc.2.2 hr with ⟨r, er, hC⟩ | ⟨er, e3, e4⟩
        · rw [er] at h
          cases r with
          | none => exact hrest h
          | some C' => simp at h
        · obtain ⟨C, hC⟩ := sxHexSdp_degenerate (X := X) h0 hc.2.1 hc.2.2 hr e3 e4
          rw [hs] at hC; simp at hC
      · exact hrest h
  | error e' =>
    rw [hs] at h
    cases h
    unfold sxHexSdp at hs
    rw [if_neg (not_le.2 h0)] at hs
    split at hs
    · simp at hs
    rename_i hb
    push Not at hb
    split at hs
    · simp at hs
    rename_i hne
    dsimp only at hs
    split at hs
    · rename_i hd
      split at hs
      · rename_i hp
        exact ⟨(Except.error.inj hs).symm, .inr ⟨h0, hb.2.1, hb.2.2, hne, by linear_combination hd, hp⟩⟩
      · simp at hs
    · split at hs
      · exfalso
        have hv : ∀ (us : List (Cand K)), ∃ r, rationalizeFunc (fun _ : K => (0 : K)) 0 (fun u => .ok (hexValid f u)) us = .ok r := by
          have hv' : ∀ ts : List K, ∃ r, rfBound (fun _ : K => (0 : K)) 0 (fun u => .ok (hexValid f u)) ts = .ok r := by
            intro ts
            induction ts with
            | nil => exact ⟨_, rfl⟩
            | cons t ts ih =>
              unfold rfBound
              split_ifs
              · cases hexValid f t
                · exact ih
                · exact ⟨_, rfl⟩
              · exact ih
          intro us
          induction us with
          | nil => exact ⟨_, rfl⟩
          | cons c us ih =>
            cases c with
            | exact t =>
              unfold rationalizeFunc
              cases hexValid f t
              · exact ih
              · exact ⟨_, rfl⟩
            | approx i ts =>
              unfold rationalizeFunc
              split_ifs
              · obtain ⟨r, hr'⟩ := hv' ts
                rw [hr']
                cases r
                · exact ih
                · exact ⟨_, rfl⟩
              · exact ih
        obtain ⟨r, er⟩ := hv (X.us f)
        rw [er] at hs
        simp [Except.map] at hs
      · simp at hs

/-! ### Concrete cases -/

/-- `s(a^2b^2(a^2+b^2)) + s(a^4bc) - 4s(a^3b^2c + ...) + 16a^2b^2c^2`. -/
def exRaise : Sextic ℚ := ⟨0, 0, 0, 1, 1, 1, 0, -4, -4, 16⟩

/-- A setting without candidates; the square root is not reached. -/
def exHexX : SxHexExt ℚ := ⟨⟨fun x => (x.num, x.den)⟩, fun _ => [], id, fun _ => false⟩

theorem exHexX_nd : exHexX.nd.Sound := fun t => ⟨by simp [exHexX, t.den_pos], by simp [exHexX, Rat.mul_den_eq_num]⟩

/-- **The solver raises `TypeError` for a polynomial it could prove**: `_is_valid(None)` at line 202.  The last method of the same solver has an answer. -/
theorem sxHexagon_raises_wrong : exRaise.SymHex ∧ (∀ X : SxHexExt ℚ, ∀ real, sxHexagon X real exRaise = .error .typeError) ∧
    (∃ C, sxHexRest exHexX exRaise = .ok (some C) ∧ Holds exRaise.poly C) := by
  refine ⟨⟨rfl, rfl, rfl, rfl, rfl⟩, ?_, ?_⟩
  · intro X real
    unfold sxHexagon sxHexSdp
    norm_num [exRaise, Sextic.symRem]
  · have hs : ∃ C, hexSym exHexX.nd exRaise.subDisc = .ok (some C) := by
      unfold hexSym
      rw [if_neg (by norm_num [exRaise, Sextic.subDisc])]
      dsimp only
      rw [if_pos (by norm_num [exRaise, Sextic.subDisc])]
      exact ⟨_, rfl⟩
    obtain ⟨C, hC⟩ := hs
    refine ⟨_, by unfold sxHexRest; rw [hC]; rfl, ?_⟩
    exact ((hexSym_sound exHexX_nd (subDisc_hexagram ⟨rfl, rfl, rfl, rfl, rfl⟩) hC).add (by norm_num [exRaise]) fun a b c _ => discV_nonneg a b c).congr
      (subDisc_poly ⟨rfl, rfl, rfl, rfl, rfl⟩)

/-- The hypotheses on the external calls are met with real numbers. -/
theorem sqrtSound_real : SqrtSound Real.sqrt := fun _ h => Real.sq_sqrt h

/-- `s(a^4b^2 + a^2b^4 - 2a^4bc + 2a^3b^3 - 2a^3b^2c - 2a^3bc^2) + 6a^2b^2c^2` is proved in the branch for real variables. -/
theorem ex_sxHexReal (X : SxHexExt ℝ) (hX : SqrtSound X.sq) : ∃ C, sxHexReal X ⟨0, 0, 0, 1, -2, 1, 2, -2, -2, 6⟩ = .ok (some C) ∧
    EveryHolds (Sextic.poly ⟨0, 0, 0, 1, -2, 1, 2, -2, -2, 6⟩) C := by
  have hN : hexRealNums (⟨0, 0, 0, 1, -2, 1, 2, -2, -2, 6⟩ : Sextic ℝ) = (false, 0, 1, -2, -2) := by norm_num [hexRealNums]
  have hC : hexComb (-2 : ℝ) (-2) = some (0, none) := by norm_num [hexComb]
  have : ∃ C, sxHexReal X ⟨0, 0, 0, 1, -2, 1, 2, -2, -2, 6⟩ = .ok (some C) := by
    unfold sxHexReal
    rw [hN]
    dsimp only
    rw [if_neg one_ne_zero, hC]
    dsimp only
    rw [if_neg (by norm_num)]
    obtain ⟨l1, e1, -⟩ := hexReal_one (X := X)
    rw [e1]
    exact ⟨_, rfl⟩
  obtain ⟨C, hC'⟩ := this
  refine ⟨C, hC', ?_⟩
  rcases sxHexReal_spec hX (f := ⟨0, 0, 0, 1, -2, 1, 2, -2, -2, 6⟩) ⟨rfl, rfl, rfl, rfl, rfl⟩ (by norm_num) (by norm_num) (by norm_num [Sextic.symRem]) with ⟨r, er, h⟩ | ⟨er, -⟩
  · rw [hC'] at er
    exact h C (Except.ok.inj er).symm
  · rw [hC'] at er; simp at er

/-- The method without a denominator proves `s(a^2(b-c)^2)^2`-like polynomials: here `c420 = 1`, `c411 = c330 = 0`, `c321 = -4`, `c222 = 18`. -/
theorem ex_sxHexSdp (X : SxHexExt ℚ) : ∃ C, sxHexSdp X ⟨0, 0, 0, 1, 0, 1, 0, -4, -4, 18⟩ = .ok (some C) := by
  apply sxHexSdp_degenerate <;> norm_num [Sextic.symRem]

end Verif.Ternary
