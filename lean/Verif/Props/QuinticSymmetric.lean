import Verif.Props.SepticSymmetric
import Verif.Props.TernarySexticFull
import Verif.Proofs.QuinticSymmetric

/-!
# What the symmetric ternary quintic solver guarantees
-/

set_option linter.unusedSectionVars false

namespace Verif.Ternary

open Verif Verif.TermsPoly Verif.Acute Verif.Dense

variable {K : Type*} [Field K] [LinearOrder K] [IsStrictOrderedRing K]

/-! ### Answers -/

theorem Ident.holds {f : Val3 K} {C : Cert K} (h : Ident f C) (hw : ∀ t ∈ C.terms, 0 ≤ t.1) : Holds f C := ⟨⟨h.identity, hw, h.exprs, h.den⟩, h.pos⟩

theorem Holds.ident {f : Val3 K} {C : Cert K} (h : Holds f C) : Ident f C := h.answer.ident

theorem sumY_sum (l : List (K × Val3 K)) (a b c : K) : ((sumY l).map fun t => t.1 * t.2 a b c).sum = (l.map fun t => t.1 * t.2 a b c).sum := by
  induction l with
  | nil => rfl
  | cons t l ih =>
    by_cases h : t.1 = 0
    · have e : sumY (t :: l) = sumY l := by simp [sumY, h]
      rw [e, ih, List.map_cons, List.sum_cons, h, zero_mul, zero_add]
    · have e : sumY (t :: l) = t :: sumY l := by simp [sumY, h]
      rw [e, List.map_cons, List.sum_cons, ih, List.map_cons, List.sum_cons]

theorem mem_sumY {l : List (K × Val3 K)} {t : K × Val3 K} (h : t ∈ sumY l) : t ∈ l ∧ t.1 ≠ 0 := by
  have := List.mem_filter.1 h
  exact ⟨this.1, of_decide_eq_true this.2⟩

theorem ident_sumY {f : Val3 K} {l : List (K × Val3 K)} (hid : ∀ a b c, (l.map fun t => t.1 * t.2 a b c).sum = f a b c)
    (he : ∀ t ∈ l, t.1 ≠ 0 → ∀ a b c, Octant a b c → 0 ≤ t.2 a b c) : Ident f (.plain (sumY l)) := by
  refine ⟨?_, fun t ht => he t (mem_sumY ht).1 (mem_sumY ht).2, fun _ _ _ _ => zero_le_one, fun _ _ _ _ _ _ _ => zero_lt_one⟩
  intro a b c
  change ((sumY l).map fun t => t.1 * t.2 a b c).sum = 1 * f a b c
  rw [sumY_sum, hid, one_mul]

theorem weights_sumY {l : List (K × Val3 K)} (hw : ∀ t ∈ l, 0 ≤ t.1) : ∀ t ∈ (Cert.plain (sumY l)).terms, 0 ≤ t.1 := fun t ht => hw t (mem_sumY ht).1

theorem holds_sumY {f : Val3 K} {l : List (K × Val3 K)} (hid : ∀ a b c, (l.map fun t => t.1 * t.2 a b c).sum = f a b c) (hw : ∀ t ∈ l, 0 ≤ t.1)
    (he : ∀ t ∈ l, t.1 ≠ 0 → ∀ a b c, Octant a b c → 0 ≤ t.2 a b c) : Holds f (.plain (sumY l)) := (ident_sumY hid he).holds (weights_sumY hw)

theorem sd3_nonneg (a b c : K) : 0 ≤ sd3 a b c := by
  unfold sd3 cyc3
  positivity

theorem sd3_pos {a b c : K} (hn : ¬ (a = b ∧ b = c)) : 0 < sd3 a b c := by
  refine lt_of_le_of_ne (sd3_nonneg a b c) fun h => hn ?_
  unfold sd3 cyc3 at h
  have h1 : (a - b) ^ 2 = 0 := by nlinarith [sq_nonneg (a - b), sq_nonneg (b - c), sq_nonneg (c - a)]
  have h2 : (b - c) ^ 2 = 0 := by nlinarith [sq_nonneg (a - b), sq_nonneg (b - c), sq_nonneg (c - a)]
  exact ⟨sub_eq_zero.1 (pow_eq_zero_iff two_ne_zero |>.1 h1), sub_eq_zero.1 (pow_eq_zero_iff two_ne_zero |>.1 h2)⟩

theorem Ident.over {f g e : Val3 K} {C : Cert K} (h : Ident g C) (hg : ∀ a b c, g a b c = e a b c * f a b c) (he : ∀ a b c, Octant a b c → 0 ≤ e a b c)
    (hp : ∀ a b c, 0 < a → 0 < b → 0 < c → ¬ (a = b ∧ b = c) → 0 < e a b c) : Ident f (Acute.over C e) := by
  refine ⟨?_, h.exprs, fun a b c ho => mul_nonneg (h.den a b c ho) (he a b c ho), fun a b c ha hb hc hn => mul_pos (h.pos a b c ha hb hc hn) (hp a b c ha hb hc hn)⟩
  intro a b c
  change C.num a b c = C.den a b c * e a b c * f a b c
  rw [h.identity, hg]
  ring

/-- Dividing by `CyclicSum((a-b)**2)/2`. -/
theorem ident_half {f : Val3 K} {l : List (K × Val3 K)} (hid : ∀ a b c, (l.map fun t => t.1 * t.2 a b c).sum = halfSd a b c * f a b c)
    (he : ∀ t ∈ l, t.1 ≠ 0 → ∀ a b c, Octant a b c → 0 ≤ t.2 a b c) : Ident f (Acute.over (.plain (sumY l)) halfSd) :=
  (ident_sumY (f := fun a b c => halfSd a b c * f a b c) hid he).over (fun _ _ _ => rfl) (fun a b c _ => div_nonneg (sd3_nonneg a b c) zero_le_two)
    fun _ _ _ _ _ _ hn => div_pos (sd3_pos hn) zero_lt_two

theorem holds_half {f : Val3 K} {l : List (K × Val3 K)} (hid : ∀ a b c, (l.map fun t => t.1 * t.2 a b c).sum = halfSd a b c * f a b c) (hw : ∀ t ∈ l, 0 ≤ t.1)
    (he : ∀ t ∈ l, t.1 ≠ 0 → ∀ a b c, Octant a b c → 0 ≤ t.2 a b c) : Holds f (Acute.over (.plain (sumY l)) halfSd) := (ident_half hid he).holds (weights_sumY hw)

/-- The multiplier `CommonExpr.quadratic(1, k)`. -/
def quad1 (k : K) : Val3 K := fun a b c => 1 * (a ^ 2 + b ^ 2 + c ^ 2) + k * (a * b + b * c + c * a)

theorem quad1_some {k : K} {E : Cert K} (h : quadratic 1 k = some E) : -1 ≤ k ∧ (∀ a b c, E.den a b c = 1) ∧ (∀ a b c, E.val a b c = quad1 k a b c) := by
  have hs := quadratic_sound h
  have hk : -1 ≤ k := by
    unfold quadratic at h
    split at h
    · cases h
    · rename_i hh
      push Not at hh
      linarith [hh.2]
  have hd : ∀ a b c, E.den a b c = 1 := by
    intro a b c
    unfold quadratic at h
    split at h
    · cases h
    · split at h
      · rw [← Option.some.inj h]
        rfl
      · split at h <;> (rw [← Option.some.inj h]; rfl)
  refine ⟨hk, hd, fun a b c => ?_⟩
  have := hs.identity a b c
  unfold Cert.val
  rw [hd, div_one]
  rw [hd, one_mul] at this
  exact this

theorem quad1_pos {k : K} (hk : -1 ≤ k) (a b c : K) (ha : 0 < a) (hb : 0 < b) (hc : 0 < c) (hn : ¬ (a = b ∧ b = c)) : 0 < quad1 k a b c := by
  have h := sd3_pos hn
  have e : quad1 k a b c = sd3 a b c / 2 + (k + 1) * (a * b + b * c + c * a) := by
    unfold quad1 sd3 cyc3
    ring
  rw [e]
  have h1 : 0 ≤ k + 1 := by linarith
  have h2 := mul_nonneg h1 (by positivity : 0 ≤ a * b + b * c + c * a)
  linarith

theorem quad1_nonneg {k : K} (hk : -1 ≤ k) (a b c : K) (ho : Octant a b c) : 0 ≤ quad1 k a b c := by
  obtain ⟨ha, hb, hc⟩ := ho
  have e : quad1 k a b c = sd3 a b c / 2 + (k + 1) * (a * b + b * c + c * a) := by
    unfold quad1 sd3 cyc3
    ring
  rw [e]
  have h1 : 0 ≤ k + 1 := by linarith
  have h2 := mul_nonneg h1 (by positivity : 0 ≤ a * b + b * c + c * a)
  have := sd3_nonneg a b c
  linarith

theorem Ident.quot1 {f g : Val3 K} {C E : Cert K} {k : K} (h : Ident g C) (hE : quadratic 1 k = some E) (hg : ∀ a b c, g a b c = quad1 k a b c * f a b c) :
    Ident f (C.quot E) := by
  obtain ⟨hk, hd, hv⟩ := quad1_some hE
  have hsum : ∀ a b c, (E.terms.map fun t => t.1 * t.2 a b c).sum = quad1 k a b c := by
    intro a b c
    have := hv a b c
    unfold Cert.val at this
    rwa [hd, div_one] at this
  have hnum : ∀ a b c, (C.quot E).num a b c = C.num a b c := by
    intro a b c
    unfold Cert.num Cert.quot
    simp only [List.map_map, Function.comp_def, hd, mul_one]
  have hden : ∀ a b c, (C.quot E).den a b c = C.den a b c * quad1 k a b c := by
    intro a b c
    rw [← hsum]
    rfl
  refine ⟨?_, ?_, ?_, ?_⟩
  · intro a b c
    rw [hnum, hden, h.identity, hg]
    ring
  · intro t ht a b c ho
    obtain ⟨s, hs, rfl⟩ := List.mem_map.1 ht
    dsimp only
    rw [hd, mul_one]
    exact h.exprs s hs a b c ho
  · intro a b c ho
    rw [hden]
    exact mul_nonneg (h.den a b c ho) (quad1_nonneg hk a b c ho)
  · intro a b c ha hb hc hn
    rw [hden]
    exact mul_pos (h.pos a b c ha hb hc hn) (quad1_pos hk a b c ha hb hc hn)

theorem weights_quot {C E : Cert K} (h : ∀ t ∈ C.terms, 0 ≤ t.1) : ∀ t ∈ (C.quot E).terms, 0 ≤ t.1 := by
  intro t ht
  obtain ⟨s, hs, rfl⟩ := List.mem_map.1 ht
  exact h s hs

/-! ### Expressions -/

theorem tail5_nonneg (a b c : K) (ho : Octant a b c) : 0 ≤ tail5 a b c := by
  have hp := prodA_nonneg a b c ho
  obtain ⟨ha, hb, hc⟩ := ho
  have : 0 ≤ sab3 a b c := by
    unfold sab3 cyc3
    positivity
  exact mul_nonneg hp this

theorem sab3_nonneg (a b c : K) (ho : Octant a b c) : 0 ≤ sab3 a b c := by
  obtain ⟨ha, hb, hc⟩ := ho
  unfold sab3 cyc3
  positivity

theorem prodSd_nonneg (a b c : K) (ho : Octant a b c) : 0 ≤ prodA a b c * sd3 a b c := mul_nonneg (prodA_nonneg a b c ho) (sd3_nonneg a b c)

theorem sdisc_nonneg (a b c : K) (ho : Octant a b c) : 0 ≤ sumA a b c * discV3 a b c := mul_nonneg (sumA_nonneg ho) (discV3_nonneg a b c)

theorem tgc_nonneg (t a b c : K) (ho : Octant a b c) : 0 ≤ tgc t a b c := by
  unfold tgc
  refine oct_cyc ?_ a b c ho
  rintro a b c ⟨ha, hb, hc⟩
  positivity

theorem cube_nonneg (a b c : K) (ho : Octant a b c) : 0 ≤ cyc3 (fun a b c => a ^ 3 * (b - c) ^ 2) a b c := by
  refine oct_cyc ?_ a b c ho
  rintro a b c ⟨ha, hb, hc⟩
  positivity

theorem tgt_nonneg_of_nonneg {k : K} (hk : 0 ≤ k) (t a b c : K) (ho : Octant a b c) : 0 ≤ tgt k t a b c := by
  unfold tgt
  refine oct_cyc ?_ a b c ho
  rintro a b c ⟨ha, hb, hc⟩
  positivity

theorem midSq_nonneg (t a b c : K) (ho : Octant a b c) : 0 ≤ midSq t a b c := by
  unfold midSq
  refine oct_cyc ?_ a b c ho
  rintro a b c ⟨ha, hb, hc⟩
  positivity

/-- The theorem of the docstring: `CyclicSum((a+b+k*c)*(a-b)**2*(a+b-t*c)**2)` is nonnegative for `k >= -1` and `-1 <= t <= 3`. -/
theorem tgt_nonneg {k t : K} (hk : -1 ≤ k) (h1 : -1 ≤ t) (h3 : t ≤ 3) (a b c : K) (ho : Octant a b c) : 0 ≤ tgt k t a b c := by
  rw [tgt_split]
  have hk' : 0 ≤ k + 1 := by linarith
  have h2 := mul_nonneg hk' (tgc_nonneg t a b c ho)
  have h0 : 0 ≤ tgt (-1) t a b c := by
    by_cases hn : a = b ∧ b = c
    · obtain ⟨rfl, rfl⟩ := hn
      unfold tgt cyc3
      simp
    · have e := tgt_sq t a b c
      have hp := sd3_pos hn
      have h4 : 0 ≤ (3 - t) * (1 + t) := mul_nonneg (by linarith) (by linarith)
      have h5 := mul_nonneg h4 (sdisc_nonneg a b c ho)
      have h6 := midSq_nonneg t a b c ho
      by_contra hc
      push Not at hc
      have := mul_neg_of_pos_of_neg hp hc
      linarith
  linarith

theorem schurTimes_nonneg (t a b c : K) (ho : Octant a b c) : 0 ≤ schurTimes t a b c := by
  unfold schurTimes
  refine mul_nonneg ?_ ?_
  · by_cases hn : a = b ∧ b = c
    · obtain ⟨rfl, rfl⟩ := hn
      unfold cyc3
      simp
    · have e : 2 * (a + b + c) * cyc3 (fun a b c => a * (a - b) * (a - c)) a b c =
          cyc3 (fun a b c => (a - b) ^ 2 * (a + b - c) ^ 2) a b c + 2 * cyc3 (fun a b _ => a * b * (a - b) ^ 2) a b c := by
        unfold cyc3
        ring
      obtain ⟨ha, hb, hc⟩ := ho
      have hs : 0 < a + b + c := by
        refine lt_of_le_of_ne (by positivity) fun h => hn ?_
        exact ⟨by linarith, by linarith⟩
      have h1 : 0 ≤ cyc3 (fun a b c => (a - b) ^ 2 * (a + b - c) ^ 2) a b c := by
        unfold cyc3
        positivity
      have h2 : 0 ≤ cyc3 (fun a b _ => a * b * (a - b) ^ 2) a b c := by
        unfold cyc3
        positivity
      by_contra hcon
      push Not at hcon
      have := mul_neg_of_pos_of_neg (by linarith : 0 < 2 * (a + b + c)) hcon
      linarith
  · exact cyc3_nonneg_all (fun a b c => by positivity) a b c

/-! ### Without a fifth power -/

theorem hexFirst_exprs {m u v rem : K} : ∀ t ∈ hexFirst m u v rem, t.1 ≠ 0 → ∀ a b c, Octant a b c → 0 ≤ t.2 a b c := by
  intro t ht _ a b c ho
  simp only [hexFirst, List.mem_cons, List.not_mem_nil, or_false] at ht
  rcases ht with rfl | rfl | rfl | rfl
  · oct_pos
  · exact cube_nonneg a b c ho
  · exact prodSd_nonneg a b c ho
  · exact tail5_nonneg a b c ho

/-- The solver for quintics without fifth powers never raises, and every answer is a complete proof. -/
theorem quinHexagon_sound (m u v w : K) : ∃ r, quinHexagon m u v w = .ok r ∧ ∀ C, r = some C → Holds (symQ 0 m u v w) C := by
  unfold quinHexagon
  dsimp only
  split_ifs with hm hr h1 h0 h2
  · exact ⟨none, rfl, by simp⟩
  · exact ⟨none, rfl, by simp⟩
  · refine ⟨_, rfl, ?_⟩
    intro C hC
    rw [← Option.some.inj hC]
    refine holds_sumY ?_ h1 hexFirst_exprs
    intro a b c
    rw [← hexFirst_id]
    simp only [hexFirst, List.map_cons, List.map_nil, List.sum_cons, List.sum_nil]
    ring
  · exact ⟨none, rfl, by simp⟩
  · have hm' : 0 < m := lt_of_le_of_ne (not_lt.1 hm) (Ne.symm h0)
    refine ⟨_, rfl, ?_⟩
    intro C hC
    rw [← Option.some.inj hC]
    push Not at hr
    refine holds_sumY ?_ ?_ ?_
    · intro a b c
      have hu : u = m * (u / m) := (mul_div_cancel₀ u h0).symm
      have hv : v = m * (v / m) := (mul_div_cancel₀ v h0).symm
      have e := hexSecond_id m (u / m) (v / m) w a b c
      rw [← hu, ← hv] at e
      rw [← e]
      simp only [List.map_cons, List.map_nil, List.sum_cons, List.sum_nil]
      ring
    · intro t ht
      simp only [List.mem_cons, List.not_mem_nil, or_false] at ht
      rcases ht with rfl | rfl | rfl | rfl
      · exact hm'.le
      · exact mul_nonneg (by linarith [h2.1]) hm'.le
      · exact div_nonneg (mul_nonneg (by linarith [h2.1, h2.2]) hm'.le) zero_le_two
      · exact hr
    · intro t ht _ a b c ho
      simp only [List.mem_cons, List.not_mem_nil, or_false] at ht
      rcases ht with rfl | rfl | rfl | rfl
      · oct_pos
      · exact cube_nonneg a b c ho
      · exact prodSd_nonneg a b c ho
      · exact tail5_nonneg a b c ho
  · have hm' : 0 < m := lt_of_le_of_ne (not_lt.1 hm) (Ne.symm h0)
    push Not at hr
    have hu : m * (u / m) = u := mul_div_cancel₀ u h0
    have hv : m * (v / m) = v := mul_div_cancel₀ v h0
    have hn : ¬ (0 ≤ u / m ∧ 0 ≤ 2 * (u / m) + v / m + 8) := by
      rintro ⟨ha, hb⟩
      apply h1
      have h3 := mul_nonneg hm'.le ha
      have h4 := mul_nonneg hm'.le hb
      intro t ht
      simp only [hexFirst, List.mem_cons, List.not_mem_nil, or_false] at ht
      rcases ht with rfl | rfl | rfl | rfl
      · exact hm'.le
      · dsimp only
        linarith
      · dsimp only
        nlinarith
      · exact hr
    unfold hexThird
    split_ifs with h3 h4
    · exfalso
      rw [h4] at h3 hn
      apply hn
      refine ⟨le_refl _, ?_⟩
      by_contra hc
      push Not at hc
      nlinarith
    · dsimp only
      split_ifs with h5 h6
      · exfalso
        apply hn
        have h7 : v / m + 8 = -2 * (u / m) := by
          have : (v / m + 8) / (u / m) = -2 := by linarith
          rw [div_eq_iff h4] at this
          exact this
        constructor
        · nlinarith
        · linarith
      · refine ⟨_, rfl, ?_⟩
        intro C hC
        rw [← Option.some.inj hC]
        generalize hk : (v / m + 8) / (u / m) = k at h5 h6
        generalize ht2 : -4 / (k + 2) = t at h6
        generalize hs : u / m / (t ^ 2 - 2 * t) = s at h6
        have hkm : v / m + 8 = k * (u / m) := by
          rw [div_eq_iff h4] at hk
          exact hk
        have hkt : k * t = -4 - 2 * t := by
          rw [div_eq_iff h5] at ht2
          linarith
        have hus : u / m = s * (t ^ 2 - 2 * t) := by
          rw [div_eq_iff h6.1] at hs
          exact hs
        have hvs : v / m = -8 * (1 - s) - 2 * s * t ^ 2 := by
          have : k * (s * (t ^ 2 - 2 * t)) = s * (t - 2) * (k * t) := by ring
          rw [hus, this, hkt] at hkm
          linear_combination hkm
        refine holds_sumY ?_ ?_ ?_
        · intro a b c
          have e := hexThird_id m t s w a b c
          rw [← hus, ← hvs, hu, hv] at e
          rw [← e]
          simp only [List.map_cons, List.map_nil, List.sum_cons, List.sum_nil]
          ring
        · intro t ht
          simp only [List.mem_cons, List.not_mem_nil, or_false] at ht
          rcases ht with rfl | rfl | rfl
          · exact mul_nonneg h6.2.1 hm'.le
          · exact mul_nonneg (by linarith [h6.2.2]) hm'.le
          · exact hr
        · intro t ht _ a b c ho
          simp only [List.mem_cons, List.not_mem_nil, or_false] at ht
          rcases ht with rfl | rfl | rfl
          · oct_pos
          · oct_pos
          · exact tail5_nonneg a b c ho
      · exact ⟨none, rfl, by simp⟩
    · exact ⟨none, rfl, by simp⟩

/-- Over the parabola of the docstring the solver answers. -/
theorem quinHexagon_complete {m u v w : K} (hm : 0 < m) (h : (2 * u + v) ^ 2 + 8 * v * m ≤ 0) (hr : 0 ≤ symQ 0 m u v w 1 1 1) : ∃ C, quinHexagon m u v w = .ok (some C) := by
  have hr' : 0 ≤ (m + u) * 2 + v + w := by
    have e : symQ 0 m u v w 1 1 1 = 3 * ((m + u) * 2 + v + w) := by
      unfold symQ Quintic.poly
      ring
    rw [e] at hr
    linarith
  unfold quinHexagon
  dsimp only
  rw [if_neg (not_lt.2 hm.le), if_neg (not_lt.2 hr')]
  split_ifs with h1 h2
  · exact ⟨_, rfl⟩
  · exact absurd h2 hm.ne'
  · exact ⟨_, rfl⟩
  · have hu : m * (u / m) = u := mul_div_cancel₀ u hm.ne'
    have hv : m * (v / m) = v := mul_div_cancel₀ v hm.ne'
    generalize u / m = p at *
    generalize v / m = q at *
    subst hu hv
    have h3 : (2 * p + q) ^ 2 + 8 * q ≤ 0 := by
      have e : (2 * (m * p) + m * q) ^ 2 + 8 * (m * q) * m = m ^ 2 * ((2 * p + q) ^ 2 + 8 * q) := by ring
      rw [e] at h
      by_contra hc
      push Not at hc
      have := mul_pos (pow_pos hm 2) hc
      linarith
    have hn : ¬ (0 ≤ p ∧ 0 ≤ 2 * p + q + 8) := by
      rintro ⟨ha, hb⟩
      apply h1
      have h5 := mul_nonneg hm.le ha
      have h6 := mul_nonneg hm.le hb
      intro t ht
      simp only [hexFirst, List.mem_cons, List.not_mem_nil, or_false] at ht
      rcases ht with rfl | rfl | rfl | rfl
      · exact hm.le
      · exact h5
      · dsimp only
        nlinarith
      · exact hr'
    have hp : p ≠ 0 := by
      rintro rfl
      apply hn
      refine ⟨le_refl _, ?_⟩
      by_contra hc
      push Not at hc
      nlinarith
    have hd : 2 * p + q + 8 ≠ 0 := by
      intro hd
      apply hn
      have : q = -8 - 2 * p := by linarith
      subst this
      constructor <;> nlinarith
    have hk : (q + 8) / p + 2 = (2 * p + q + 8) / p := by
      field_simp
      ring
    have hk0 : (q + 8) / p + 2 ≠ 0 := by
      rw [hk]
      exact div_ne_zero hd hp
    have ht : -4 / ((q + 8) / p + 2) = -4 * p / (2 * p + q + 8) := by
      rw [hk]
      field_simp
    have hD : 0 < 4 * p + q + 8 := by
      have : 0 < (2 * p + q + 8) ^ 2 := by positivity
      nlinarith
    have hx : (-4 * p / (2 * p + q + 8)) ^ 2 - 2 * (-4 * p / (2 * p + q + 8)) = 8 * p * (4 * p + q + 8) / (2 * p + q + 8) ^ 2 := by
      field_simp
      ring
    have hw : p / (8 * p * (4 * p + q + 8) / (2 * p + q + 8) ^ 2) = (2 * p + q + 8) ^ 2 / (8 * (4 * p + q + 8)) := by
      field_simp
    unfold hexThird
    rw [if_pos h3, if_neg hp]
    dsimp only
    rw [if_neg hk0, ht, hx, hw, if_pos]
    · exact ⟨_, rfl⟩
    · have h8 : 0 < 8 * (4 * p + q + 8) := by linarith
      refine ⟨div_ne_zero (mul_ne_zero (mul_ne_zero (by norm_num) hp) hD.ne') (pow_ne_zero 2 hd), ?_, ?_⟩
      · rw [sub_nonneg, div_le_one h8]
        nlinarith
      · have : 0 ≤ (2 * p + q + 8) ^ 2 / (8 * (4 * p + q + 8)) := by positivity
        linarith

/-! ### Subtracting squares -/

theorem firstSq_nonneg (x y a b c : K) (ho : Octant a b c) : 0 ≤ firstSq x y a b c := by
  unfold firstSq
  oct_pos

theorem firstAns_sound {m z u v w : K} (hm : 0 ≤ m) (p : K × K) : ∃ r, firstAns m z u v w p = .ok r ∧ ∀ C, r = some C → Holds (symQ m (m * z) (m * u) (m * v) w) C := by
  unfold firstAns
  dsimp only
  obtain ⟨r, hr, h⟩ := quinHexagon_sound (m * (2 * p.1 - p.2 ^ 2 + z)) (m * (u - p.1 ^ 2 - 2 * p.1 * p.2 + 2 * p.2))
    (m * (v - 2 * p.1 ^ 2 + 8 * p.1 * p.2 - 4 * p.1 + 8 * p.2 ^ 2 - 8 * p.2 + 2)) (w + m * (4 * p.1 ^ 2 - 4 * p.1 * p.2 - 6 * p.2 ^ 2 + 4 * p.2 - 1))
  rw [hr]
  cases r with
  | none => exact ⟨none, rfl, by simp⟩
  | some E =>
    refine ⟨_, rfl, ?_⟩
    intro C hC
    rw [← Option.some.inj hC]
    exact Holds.congr ((h E rfl).add hm (firstSq_nonneg p.1 p.2)) (first_id m z u v w p.1 p.2)

/-- Whatever passes `_criterion` leads to an answer. -/
theorem firstAns_complete {m z u v w x y : K} (hm : 0 < m) (hc : criterion z u v x = some y) (hr : 0 ≤ symQ m (m * z) (m * u) (m * v) w 1 1 1) :
    ∃ C, firstAns m z u v w (x, y) = .ok (some C) := by
  have key : ∃ C, quinHexagon (m * (2 * x - y ^ 2 + z)) (m * (u - x ^ 2 - 2 * x * y + 2 * y)) (m * (v - 2 * x ^ 2 + 8 * x * y - 4 * x + 8 * y ^ 2 - 8 * y + 2))
      (w + m * (4 * x ^ 2 - 4 * x * y - 6 * y ^ 2 + 4 * y - 1)) = .ok (some C) := by
    rw [← first_id m z u v w x y] at hr
    have h0 : firstSq x y 1 1 1 = 0 := by
      unfold firstSq cyc3
      ring
    rw [h0, mul_zero, add_zero] at hr
    unfold criterion at hc
    dsimp only at hc
    split_ifs at hc with h1 h2 h3
    have hy := Option.some.inj hc
    generalize -(x - 1) * (-2 * u - v + 4 * x ^ 2 - 12 * x - 8 * z - 2) / (2 * (-4 * u - v + 4 * x ^ 2 - 8 * x - 8 * z - 4)) = y' at *
    subst hy
    generalize 2 * x - y' ^ 2 + z = z2 at *
    generalize u - x ^ 2 - 2 * x * y' + 2 * y' = u2 at *
    generalize v - 2 * x ^ 2 + 8 * x * y' - 4 * x + 8 * y' ^ 2 - 8 * y' + 2 = v2 at *
    generalize w + m * (4 * x ^ 2 - 4 * x * y' - 6 * y' ^ 2 + 4 * y' - 1) = w2 at *
    rcases h3 with ⟨h4, h5⟩ | ⟨rfl, h4, h5⟩
    · refine quinHexagon_complete (mul_pos hm h4) ?_ hr
      have e : (2 * (m * u2) + m * v2) ^ 2 + 8 * (m * v2) * (m * z2) = m ^ 2 * ((2 * u2 + v2) ^ 2 + 8 * v2 * z2) := by ring
      rw [e]
      exact mul_nonpos_of_nonneg_of_nonpos (by positivity) h5
    · have hr' : 0 ≤ (m * 0 + m * u2) * 2 + m * v2 + w2 := by
        have e : symQ 0 (m * 0) (m * u2) (m * v2) w2 1 1 1 = 3 * ((m * 0 + m * u2) * 2 + m * v2 + w2) := by
          unfold symQ Quintic.poly
          ring
        rw [e] at hr
        linarith
      unfold quinHexagon
      dsimp only
      rw [if_neg (by simp), if_neg (not_lt.2 hr'), if_pos]
      · exact ⟨_, rfl⟩
      · intro t ht
        simp only [hexFirst, List.mem_cons, List.not_mem_nil, or_false] at ht
        have h6 := mul_nonneg hm.le h4
        have h7 := mul_nonneg hm.le h5
        rcases ht with rfl | rfl | rfl | rfl
        · simp
        · exact h6
        · dsimp only
          nlinarith
        · exact hr'
  obtain ⟨C, hC⟩ := key
  refine ⟨C.add m (firstSq x y), ?_⟩
  unfold firstAns
  dsimp only
  rw [hC]

end Verif.Ternary
