import Verif.Props.TernaryQuintic
import Verif.Proofs.TernaryQuinticWind

/-!
# What the solver for cyclic ternary quintics guarantees: windmills

Quintics without `a^5` and without `a^4 b` (or, after a reflection, without `a b^4`).
-/

set_option linter.unusedSectionVars false

namespace Verif.Ternary

open Verif Verif.Acute

variable {K : Type*} [Field K] [LinearOrder K] [IsStrictOrderedRing K]

/-- What the model expects from the calls and searches. -/
structure Q5Ext.Sound (X : Q5Ext K) : Prop where
  m1 : ∀ z, X.m1 z ≠ 0
  m2 : ∀ u v, X.m2 u v ≠ 0
  cubic : ∀ g C, X.cubic g = .ok (some C) → Holds g.poly C
  gcdT : ∀ x y t, X.gcdT x y = some t → t ≠ 0 ∧ 2 * t ^ 3 + x * t ^ 2 - 1 = 0 ∧ -t ^ 3 + y * t + 2 = 0
  cubT : ∀ x y, CandsExact (fun t => 2 * t ^ 3 + x * t ^ 2 - 1) (X.cubT x y)
  third : ∀ f C, X.third f = .ok (some C) → Holds f.poly C
  symm : ∀ f C, f.c410 = f.c140 → f.c320 = f.c230 → X.symm f = .ok (some C) → Holds f.poly C

theorem Q5Ext.Sound.rational {X : Q5Ext K} (h : X.Sound) (r : Bool) : Q5Ext.Sound { X with rational := r } := ⟨h.1, h.2, h.3, h.4, h.5, h.6, h.7⟩

/-! ### Without `a^4 b, a^3 b^2` -/

theorem uncTrivial_holds {f : Quintic K} (h5 : f.c500 = 0) (h4 : f.c410 = 0) (h3 : f.c320 = 0)
    (h : ∀ s ∈ uncTrivial f (f.c230 + f.c140 + f.c311 + f.c221), 0 ≤ s.1) : Holds f.poly (.plain (sumY (uncTrivial f (f.c230 + f.c140 + f.c311 + f.c221)))) := by
  refine holds_sumY ?_ h ?_
  · intro a b c
    simp only [uncTrivial, List.map_cons, List.map_nil, List.sum_cons, List.sum_nil, cyc3, abcSd, prodA, cycp3, sd3, tail5, sab3, Quintic.poly, h5, h4, h3]
    ring
  · unfold uncTrivial
    each_mem
    · intro _; oct_sum
    · intro _; oct_sum
    · intro _; exact abcSd_nonneg
    · intro _; exact tail5_nonneg

theorem uncFirst_holds {f : Quintic K} (h5 : f.c500 = 0) (h4 : f.c410 = 0) (h3 : f.c320 = 0) (ht : 0 < f.c140)
    (h : ∀ s ∈ uncFirst (f.c230 / f.c140) (f.c311 / f.c140) ((f.c230 + f.c140 + f.c311 + f.c221) / f.c140), 0 ≤ s.1) :
    Holds f.poly (over (.plain (sumY ((uncFirst (f.c230 / f.c140) (f.c311 / f.c140) ((f.c230 + f.c140 + f.c311 + f.c221) / f.c140)).map fun s => (s.1 * f.c140, s.2)))) sd3) := by
  refine holds_over ?_ ?_ ?_ (fun a b c _ => sd3_nonneg a b c) fun a b c _ _ _ hn => sd3_pos hn
  · intro a b c
    have key := uncFirst_identity (max 0 ((f.c311 / f.c140 + 3) / (-2))) (f.c230 / f.c140) (f.c311 / f.c140) ((f.c230 + f.c140 + f.c311 + f.c221) / f.c140) a b c
    have e : f.poly a b c = f.c140 * (⟨0, 0, 0, f.c230 / f.c140, 1, f.c311 / f.c140, (f.c230 + f.c140 + f.c311 + f.c221) / f.c140 - f.c230 / f.c140 - 1 - f.c311 / f.c140⟩ : Quintic K).poly a b c := by
      simp only [Quintic.poly, h5, h4, h3]
      field_simp
      ring
    rw [e]
    simp only [uncFirst, List.map_cons, List.map_nil, List.sum_cons, List.sum_nil]
    linear_combination f.c140 * key
  · intro t hm
    obtain ⟨s, hs, rfl⟩ := List.mem_map.1 hm
    exact mul_nonneg (h s hs) ht.le
  · intro t hm _
    obtain ⟨s, hs, rfl⟩ := List.mem_map.1 hm
    revert s
    unfold uncFirst
    each_mem
    · intro _ _; oct_sum
    · intro _ _ a b c ho
      refine mul_nonneg ?_ (sd3_nonneg a b c)
      revert a b c
      oct_sum
    · intro _ _ a b c ho
      exact mul_nonneg (prodA_nonneg a b c ho) (sq_nonneg _)
    · intro _ _ a b c ho
      exact mul_nonneg (tail5_nonneg a b c ho) (sd3_nonneg a b c)

theorem windSpecial_holds {f : Quintic K} (h5 : f.c500 = 0) (h4 : f.c410 = 0) (h3 : f.c320 = 0) (h2 : f.c230 = 0) (ht : 0 < f.c140)
    (hr : f.c230 + f.c140 + f.c311 + f.c221 = 0) {C : Cert K} (h : windSpecial f = some C) : Holds f.poly C := by
  unfold windSpecial at h
  dsimp only at h
  split_ifs at h with h1 hw
  · rw [← Option.some.inj h]
    refine holds_plain ?_ ?_ ?_
    · intro a b c
      simp only [List.map_cons, List.map_nil, List.sum_cons, List.sum_nil, cyc3, abcSd, prodA, cycp3, sd3, Quintic.poly, h5, h4, h3, h2]
      have : f.c221 = -f.c140 - f.c311 := by linarith
      rw [this]
      field_simp
      ring
    · each_mem
      · exact ht.le
      · dsimp only
        have : 0 ≤ 2 - -f.c311 / f.c140 := by linarith
        positivity
    · each_mem
      · oct_sum
      · exact abcSd_nonneg
  · obtain ⟨p, hp, rfl⟩ := Option.map_eq_some_iff.1 h
    have hdet := List.find?_some hp
    simp only [decide_eq_true_eq] at hdet
    have hmem := List.mem_of_find?_eq_some hp
    clear hp h
    generalize hww : -f.c311 / f.c140 = w at *
    have hw4 : w < 4 := by
      by_contra hc
      push Not at hc
      refine h1 ⟨by linarith, ?_⟩
      nlinarith [mul_nonneg (sub_nonneg.2 hc) (sq_nonneg (w - 2)), sq_nonneg (w - 4)]
    have hm : 0 < -w + 2 * p.1 + p.2.2 ^ 2 + 2 := by
      have h3' : 3 ≤ p.1 := by
        unfold specCands at hmem
        simp only [List.mem_cons, List.not_mem_nil, or_false] at hmem
        rcases hmem with rfl | rfl | rfl | rfl | rfl <;> norm_num
      nlinarith [sq_nonneg p.2.2]
    unfold specAnswer
    dsimp only
    refine holds_over ?_ ?_ ?_ ?_ ?_
    · intro a b c
      have key := spec_identity w p.1 p.2.1 p.2.2 hm.ne' a b c
      have e : f.poly a b c = f.c140 * (⟨0, 0, 0, 0, 1, -w, w - 1⟩ : Quintic K).poly a b c := by
        have e3 : f.c311 = -w * f.c140 := by
          rw [← hww]
          field_simp
        have : f.c221 = (w - 1) * f.c140 := by linear_combination hr - e3 - h2
        simp only [Quintic.poly, h5, h4, h3, h2, this, e3]
        ring
      rw [e]
      simp only [List.map_cons, List.map_nil, List.sum_cons, List.sum_nil]
      linear_combination f.c140 * key
    · each_mem
      · dsimp only; positivity
      · dsimp only; positivity
      · dsimp only; positivity
    · each_mem
      · intro _; oct_sum
      · intro _ a b c ho
        refine mul_nonneg (prodA_nonneg a b c ho) ?_
        unfold cyc3
        positivity
      · intro _ a b c ho
        refine mul_nonneg (prodA_nonneg a b c ho) ?_
        unfold cyc3
        positivity
    · exact mulW_nonneg (by nlinarith [sq_nonneg p.2.2])
    · exact mulW_pos (by nlinarith [sq_nonneg p.2.2])

theorem except_pos (a b c : K) (ha : 0 < a) (hb : 0 < b) (hc : 0 < c) : 0 < cyc3 (fun a b c => a * b * (a - b + 3 * c) ^ 2) a b c := by
  unfold cyc3
  dsimp only
  by_contra h
  push Not at h
  have h1 : 0 ≤ a * b * (a - b + 3 * c) ^ 2 := by positivity
  have h2 : 0 ≤ b * c * (b - c + 3 * a) ^ 2 := by positivity
  have h3 : 0 ≤ c * a * (c - a + 3 * b) ^ 2 := by positivity
  have e1 : a * b * (a - b + 3 * c) ^ 2 = 0 := by linarith
  have e2 : b * c * (b - c + 3 * a) ^ 2 = 0 := by linarith
  have e3 : c * a * (c - a + 3 * b) ^ 2 = 0 := by linarith
  have g1 : a - b + 3 * c = 0 := pow_eq_zero_iff two_ne_zero |>.1 ((mul_eq_zero.1 e1).resolve_left (mul_pos ha hb).ne')
  have g2 : b - c + 3 * a = 0 := pow_eq_zero_iff two_ne_zero |>.1 ((mul_eq_zero.1 e2).resolve_left (mul_pos hb hc).ne')
  have g3 : c - a + 3 * b = 0 := pow_eq_zero_iff two_ne_zero |>.1 ((mul_eq_zero.1 e3).resolve_left (mul_pos hc ha).ne')
  linarith

theorem uncExcept_holds {f : Quintic K} (h5 : f.c500 = 0) (h4 : f.c410 = 0) (h3 : f.c320 = 0) (ht : 0 < f.c140) (h2 : f.c230 / f.c140 = 0) (h1 : f.c311 / f.c140 = -13)
    {C : Cert K} (h : uncExcept f.c140 (f.c221 / f.c140) = some C) : Holds f.poly C := by
  have h2' : f.c230 = 0 := by
    rcases div_eq_zero_iff.1 h2 with h | h
    · exact h
    · exact absurd h ht.ne'
  have h1' : f.c311 = -13 * f.c140 := by rw [← h1, div_mul_cancel₀ _ ht.ne']
  unfold uncExcept at h
  split_ifs at h with h39
  · rw [← Option.some.inj h]
    have hn : ∀ a b c : K, Octant a b c → 0 ≤ cyc3 (fun a b c => a * b * (a - b + 3 * c) ^ 2) a b c := by oct_sum
    refine holds_over ?_ ?_ ?_ hn fun a b c ha hb hc _ => except_pos a b c ha hb hc
    · intro a b c
      have key := uncExcept_identity (f.c221 / f.c140) a b c
      have e : f.poly a b c = f.c140 * (⟨0, 0, 0, 0, 1, -13, f.c221 / f.c140⟩ : Quintic K).poly a b c := by
        simp only [Quintic.poly, h5, h4, h3, h2', h1']
        field_simp
        ring
      rw [e]
      simp only [List.map_cons, List.map_nil, List.sum_cons, List.sum_nil]
      linear_combination f.c140 * key
    · each_mem
      · exact ht.le
      · dsimp only; positivity
      · dsimp only; positivity
      · exact mul_nonneg (sub_nonneg.2 h39) ht.le
    · each_mem
      · intro _; oct_sum
      · intro _ a b c ho
        refine mul_nonneg (prodA_nonneg a b c ho) ?_
        unfold cyc3
        positivity
      · intro _ a b c ho
        exact mul_nonneg (prodA_nonneg a b c ho) (sq_nonneg _)
      · intro _ a b c ho
        exact mul_nonneg (tail5_nonneg a b c ho) (hn a b c ho)

/-! ### The roots of Theorem 2 -/

theorem uN_nonneg {u : K} (h : 0 < u) (h1 : 0 ≤ u ^ 3 - u ^ 2 - 1) : 0 ≤ uN u := by
  have hu : 1 < u := by
    by_contra hc
    push Not at hc
    nlinarith [mul_nonneg (mul_nonneg h.le h.le) (sub_nonneg.2 hc)]
  have e : uN u = (u ^ 3 - u ^ 2 - 1) * (u ^ 6 + 2 * u ^ 5 + 8 * u ^ 4 + 8 * u ^ 3 + 13 * u ^ 2 + 15 * u + 20) + (26 * u ^ 2 + 12 * u + 19) := by
    unfold uN
    ring
  rw [e]
  positivity

theorem uM_pos {u : K} (h : 0 < u) (h1 : 0 ≤ u ^ 3 - u ^ 2 - 1) : 0 < uM u := by
  have e : uM u = (u ^ 3 - u ^ 2 - 1) * (4 * u ^ 5 + 7 * u ^ 4 + 27 * u ^ 3 + 29 * u ^ 2 + 31 * u + 52) + (84 * u ^ 2 + 32 * u + 53) := by
    unfold uM
    ring
  rw [e]
  positivity

theorem uncAnswer_holds {X : Q5Ext K} (hX : X.Sound) {f : Quintic K} (h5 : f.c500 = 0) (h4 : f.c410 = 0) (h3 : f.c320 = 0) (ht : 0 < f.c140)
    (hr : f.c230 + f.c140 + f.c311 + f.c221 = 0) {u : K} (hu : uncValid (f.c230 / f.c140) (f.c311 / f.c140) u = true) {C : Cert K}
    (h : uncAnswer X f.c140 (f.c230 / f.c140) (f.c311 / f.c140) u (uncV u).1 (uncV u).2.1 (uncV u).2.2 = .ok (some C)) : Holds f.poly C := by
  unfold uncValid at hu
  split_ifs at hu with hu0
  simp only [decide_eq_true_eq] at hu
  obtain ⟨hr0, hr1, hr2⟩ := hu
  have hs : 0 ≤ u ^ 3 - u ^ 2 - 1 := by
    have e : (uncV u).2.1 * (u + 1) = u * (u ^ 3 - u ^ 2 - 1) := by
      unfold uncV
      field_simp
    have : 0 ≤ u * (u ^ 3 - u ^ 2 - 1) := by
      rw [← e]
      positivity
    exact nonneg_of_mul_nonneg_right this hu0
  unfold uncAnswer at h
  split_ifs at h with hz
  rw [← Option.some.inj (Except.ok.inj h)]
  clear h
  have hD : uD u ≠ 0 := by
    intro hc
    refine hz (.inr (.inl ?_))
    rw [unc_f2 hu0.ne', hc]
    simp
  clear hz
  have hphi : 0 ≤ uN u / (u * uD u ^ 2) := div_nonneg (uN_nonneg hu0 hs) (by positivity)
  have hm1 : X.m1 (-(u * (u + 1)) / uQ u) ≠ 0 := hX.m1 _
  have hm2 : X.m2 u (uncV u).1 ≠ 0 := hX.m2 _ _
  refine holds_over ?_ ?_ ?_ ?_ ?_
  · intro a b c
    have key := unc0_identity hu0 hD (uncV u).1 (uncV u).2.1 _ rfl rfl rfl _ rfl a b c
    have e : f.poly a b c = f.c140 * ((⟨0, 0, 0, (uncV u).2.1, 1, (uncV u).2.2, -((uncV u).2.1 + 1 + (uncV u).2.2)⟩ : Quintic K).poly a b c +
        cyc3 (fun a b c => a * c * (a - b) ^ 2 * ((f.c230 / f.c140 - (uncV u).2.1) * c + (f.c311 / f.c140 - (uncV u).2.2) / 2 * b)) a b c) := by
      have : f.c221 = -f.c230 - f.c140 - f.c311 := by linarith
      generalize (uncV u).2.1 = r
      generalize (uncV u).2.2 = r'
      simp only [Quintic.poly, h5, h4, h3, this, cyc3]
      field_simp
      ring
    rw [e]
    unfold uncTerms
    dsimp only
    simp only [List.map_cons, List.map_nil, List.sum_cons, List.sum_nil]
    rw [unc_y3 hu0 hD, unc_phi hu0 hD, unc_z hu0, unc_y1 hu0 hD _ hm1, unc_w hu0 hD]
    have y2 : ∀ p, uncY2 u (uncV u).1 p = 0 := by
      intro p
      have : u ^ 3 - u * u - u * (uncV u).1 + u + 1 = 0 := by
        unfold uncV
        field_simp
        ring
      unfold uncY2
      rw [this]
      simp
    rw [y2]
    generalize hv : (uncV u).1 = v at *
    generalize hr' : (uncV u).2.1 = r at *
    generalize X.m1 (-(u * (u + 1)) / uQ u) = m1 at *
    generalize X.m2 u v = m2 at *
    generalize -(u + 1) / uD u = w at *
    generalize -(u * (u + 1)) / uQ u = z at *
    generalize uN u / (u * uD u ^ 2) = phi at *
    have s1 : cyc3 (fun a b c => a * (m2 * (-u * v * w + w) * a ^ 2 * c + m2 * (u ^ 2 * v * w - u * w - u) * a * b ^ 2 +
        m2 * (u ^ 3 * w - u ^ 2 * v * w - u ^ 2 * w + u * v * w + u * w - v * w + v) * a * b * c + m2 * b ^ 3 + m2 * (-u ^ 3 * w + u - v - w) * b ^ 2 * c +
        m2 * (u ^ 2 * w + v * w - 1) * b * c ^ 2) ^ 2) a b c = m2 ^ 2 * sq8 0 (-u * v * w + w) (u ^ 2 * v * w - u * w - u)
          (u ^ 3 * w - u ^ 2 * v * w - u ^ 2 * w + u * v * w + u * w - v * w + v) 0 1 (-u ^ 3 * w + u - v - w) (u ^ 2 * w + v * w - 1) a b c := by
      generalize -u * v * w + w = x1
      generalize u ^ 2 * v * w - u * w - u = x2
      generalize u ^ 3 * w - u ^ 2 * v * w - u ^ 2 * w + u * v * w + u * w - v * w + v = x3
      generalize -u ^ 3 * w + u - v - w = x4
      generalize u ^ 2 * w + v * w - 1 = x5
      unfold sq8 cyc3
      ring
    have s2 : cyc3 (fun a b c => a * (m1 * a ^ 2 * c + m1 * (u * v * z - z) * a * b ^ 2 +
        m1 * (u ^ 2 * z - u * z + u - v ^ 2 * z + v * z - v) * a * b * c + m1 * (-u * v * z - u + z) * a * c ^ 2 + m1 * (-u ^ 2 * z - v * z - 1) * b ^ 2 * c +
        m1 * (u * z + v ^ 2 * z + v) * b * c ^ 2) ^ 2) a b c = m1 ^ 2 * sq8 0 1 (u * v * z - z) (u ^ 2 * z - u * z + u - v ^ 2 * z + v * z - v) (-u * v * z - u + z) 0
          (-u ^ 2 * z - v * z - 1) (u * z + v ^ 2 * z + v) a b c := by
      generalize u * v * z - z = x1
      generalize u ^ 2 * z - u * z + u - v ^ 2 * z + v * z - v = x2
      generalize -u * v * z - u + z = x3
      generalize -u ^ 2 * z - v * z - 1 = x4
      generalize u * z + v ^ 2 * z + v = x5
      unfold sq8 cyc3
      ring
    have s3 : prodA a b c * cyc3 (fun a b c => (a ^ 2 - b ^ 2 - u * a * c + v * b * c + (u - v) * a * b) ^ 2) a b c = pq6 1 (-1) 0 (u - v) v (-u) a b c := by
      unfold pq6 prodA cycp3 cyc3
      ring
    rw [s1, s2, s3]
    have s5 : (if f.c230 / f.c140 ≠ r ∨ f.c311 / f.c140 ≠ (uncV u).2.2 then (1 : K) else 0) *
        cyc3 (fun a b c => a * c * (a - b) ^ 2 * ((f.c230 / f.c140 - r) * c + (f.c311 / f.c140 - (uncV u).2.2) / 2 * b)) a b c =
        cyc3 (fun a b c => a * c * (a - b) ^ 2 * ((f.c230 / f.c140 - r) * c + (f.c311 / f.c140 - (uncV u).2.2) / 2 * b)) a b c := by
      split_ifs with hc
      · rw [one_mul]
      · push Not at hc
        rw [hc.1, hc.2]
        simp [cyc3]
    have i1 : 1 / m2 ^ 2 * m2 ^ 2 = 1 := by field_simp
    have i2 : ∀ k : K, k / m1 ^ 2 * m1 ^ 2 = k := fun k => by field_simp
    have i2' := i2 (r / (u ^ 2 * uD u ^ 2) * uQ u ^ 2)
    generalize hc1 : r / (u ^ 2 * uD u ^ 2) * uQ u ^ 2 / m1 ^ 2 = k1 at i2' ⊢
    generalize (if f.c230 / f.c140 ≠ r ∨ f.c311 / f.c140 ≠ (uncV u).2.2 then (1 : K) else 0) = b01 at s5 ⊢
    generalize cyc3 (fun a b c => a * c * (a - b) ^ 2 * ((f.c230 / f.c140 - r) * c + (f.c311 / f.c140 - (uncV u).2.2) / 2 * b)) a b c = G at s5 ⊢
    generalize hA : sq8 0 (-u * v * w + w) _ _ _ _ _ _ a b c = A at key ⊢
    generalize hB : sq8 0 1 _ _ _ _ _ _ a b c = B at key ⊢
    generalize pq6 1 (-1) 0 (u - v) v (-u) a b c = P at key ⊢
    generalize mulW phi a b c = M at key ⊢
    linear_combination f.c140 * key + f.c140 * A * i1 + f.c140 * B * i2' + f.c140 * M * s5
  · unfold uncTerms
    dsimp only
    rw [unc_y3 hu0 hD, unc_phi hu0 hD, unc_z hu0, unc_y1 hu0 hD _ hm1]
    have hM := (uM_pos hu0 hs).le
    each_mem
    · dsimp only; positivity
    · dsimp only; positivity
    · dsimp only
      have : u ^ 3 - u * u - u * (uncV u).1 + u + 1 = 0 := by
        unfold uncV
        field_simp
        ring
      unfold uncY2
      rw [this]
      simp
    · dsimp only; positivity
    · dsimp only
      split_ifs <;> simp [ht.le]
  · unfold uncTerms
    dsimp only
    each_mem
    · intro _; oct_sum
    · intro _; oct_sum
    · intro _ a b c ho
      exact mul_nonneg (prodA_nonneg a b c ho) (sq_nonneg _)
    · intro _ a b c ho
      refine mul_nonneg (prodA_nonneg a b c ho) ?_
      unfold cyc3
      positivity
    · intro _ a b c ho
      refine mul_nonneg ?_ ?_
      · have k1 := sub_nonneg.2 hr1
        have k2 := sub_nonneg.2 hr2
        obtain ⟨ha, hb, hc⟩ := ho
        unfold cyc3
        dsimp only
        positivity
      · rw [unc_phi hu0 hD]
        exact mulW_nonneg (by linarith) a b c ho
  · rw [unc_phi hu0 hD]
    exact mulW_nonneg (by linarith)
  · rw [unc_phi hu0 hD]
    exact mulW_pos (by linarith)

/-- A quintic for which the answer of Theorem 2 does not use the coefficient of `a^2 b^2 c` (see `unc5_wrong`). -/
def Unchecked (f : Quintic K) : Prop := 0 < f.sum7 ∧ f.c311 < -2 * f.c140

/-- The answers without `a^4 b, a^3 b^2` are complete proofs, unless the value at `(1,1,1)` is positive and no simple list works. -/
theorem unc5_holds {X : Q5Ext K} (hX : X.Sound) {f : Quintic K} (h5 : f.c500 = 0) (h4 : f.c410 = 0) (h3 : f.c320 = 0) (h2 : 0 ≤ f.c230) (hb : ¬ Unchecked f)
    {C : Cert K} (h : unc5 X f = .ok (some C)) : Holds f.poly C := by
  have hsum : f.sum7 = f.c230 + f.c140 + f.c311 + f.c221 := by
    unfold Quintic.sum7
    rw [h5, h4, h3]
    ring
  unfold unc5 at h
  by_cases c1 : X.rational = false
  · rw [if_pos c1] at h
    cases h
  rw [if_neg c1] at h
  dsimp only at h
  by_cases c2 : f.c230 + f.c140 + f.c311 + f.c221 < 0
  · rw [if_pos c2] at h
    cases h
  rw [if_neg c2] at h
  by_cases c3 : ∀ s ∈ uncTrivial f (f.c230 + f.c140 + f.c311 + f.c221), 0 ≤ s.1
  · rw [if_pos c3] at h
    rw [← Option.some.inj (Except.ok.inj h)]
    exact uncTrivial_holds h5 h4 h3 c3
  rw [if_neg c3] at h
  by_cases c4 : f.c140 ≤ 0
  · rw [if_pos c4] at h
    cases h
  rw [if_neg c4] at h
  by_cases c5 : ∀ s ∈ uncFirst (f.c230 / f.c140) (f.c311 / f.c140) ((f.c230 + f.c140 + f.c311 + f.c221) / f.c140), 0 ≤ s.1
  · rw [if_pos c5] at h
    rw [← Option.some.inj (Except.ok.inj h)]
    exact uncFirst_holds h5 h4 h3 (not_le.1 c4) c5
  rw [if_neg c5] at h
  by_cases c6 : f.c230 + f.c140 + f.c311 + f.c221 = 0
  · rw [if_pos c6] at h
    by_cases c7 : f.c230 = 0
    · rw [if_pos c7] at h
      exact windSpecial_holds h5 h4 h3 c7 (not_le.1 c4) c6 (Except.ok.inj h)
    · rw [if_neg c7] at h
      split at h
      · cases h
      · cases h
      · rename_i u hu
        have := rationalizeFunc_valid hu
        exact uncAnswer_holds hX h5 h4 h3 (not_le.1 c4) c6 (Except.ok.inj this) h
  rw [if_neg c6] at h
  by_cases c8 : f.c230 / f.c140 = 0 ∧ f.c311 / f.c140 = -13
  · rw [if_pos c8] at h
    exact uncExcept_holds h5 h4 h3 (not_le.1 c4) c8.1 c8.2 (Except.ok.inj h)
  · exfalso
    refine hb ⟨hsum ▸ lt_of_le_of_ne (not_lt.1 c2) (Ne.symm c6), ?_⟩
    by_contra hc
    refine c3 ?_
    unfold uncTrivial
    have k1 := not_le.1 c4
    each_mem
    · exact h2
    · exact k1.le
    · dsimp only
      push Not at hc
      linarith
    · exact not_lt.1 c2

/-! ### Windmills -/

theorem windBase_holds {f : Quintic K} (h5 : f.c500 = 0) (h4 : f.c410 = 0) (h1 : f.c140 = 0) {C : Cert K} (h : windBase f = some C) :
    Holds f.poly C ∧ ∀ a b c, C.den a b c = 1 := by
  unfold windBase at h
  dsimp only at h
  split_ifs at h with c1 c2 c3 c4
  · push Not at c1
    rw [← Option.some.inj h]
    refine ⟨holds_sumY ?_ ?_ ?_, fun _ _ _ => rfl⟩
    · intro a b c
      simp only [List.map_cons, List.map_nil, List.sum_cons, List.sum_nil, cyc3, abcSd, prodA, cycp3, sd3, tail5, sab3, Quintic.poly, h5, h4, h1]
      ring
    · each_mem
      · exact le_rfl
      · exact c1.1
      · exact c1.2.1
      · exact div_nonneg c2 zero_le_two
      · exact c1.2.2
    · each_mem
      · intro _; oct_sum
      · intro _; oct_sum
      · intro _; oct_sum
      · intro _; exact abcSd_nonneg
      · intro _; exact tail5_nonneg
  · push Not at c1 c2 c3
    have hp : 0 < f.c320 := by
      refine lt_of_le_of_ne c1.1 fun hc => ?_
      rw [← hc] at c3
      nlinarith [sq_pos_of_neg c2]
    rw [← Option.some.inj h]
    refine ⟨holds_sumY ?_ ?_ ?_, fun _ _ _ => rfl⟩
    · intro a b c
      simp only [List.map_cons, List.map_nil, List.sum_cons, List.sum_nil, cyc3, abcSd, prodA, cycp3, sd3, tail5, sab3, Quintic.poly, h5, h4, h1]
      field_simp
      ring
    · each_mem
      · exact c1.1
      · exact le_rfl
      · exact c4
      · exact le_rfl
      · exact c1.2.2
    · each_mem
      · intro _; oct_sum
      · intro _; oct_sum
      · intro _; oct_sum
      · intro _; exact abcSd_nonneg
      · intro _; exact tail5_nonneg

/-- The call of the solver by itself without `a b^4`. -/
theorem windRec_base {X : Q5Ext K} {f : Quintic K} (h5 : f.c500 = 0) (h4 : f.c410 = 0) (h1 : f.c140 = 0) {C : Cert K} (h : windRec X f = .ok (some C)) :
    Holds f.poly C ∧ ∀ a b c, C.den a b c = 1 := by
  unfold windRec at h
  rw [h1] at h
  simp only [lt_irrefl, if_false, if_true] at h
  split_ifs at h
  · cases h
  · exact windBase_holds h5 h4 h1 (Except.ok.inj h)

/-- The call of the solver by itself without `a^3 b^2`. -/
theorem windRec_unc {X : Q5Ext K} {f : Quintic K} (h5 : f.c500 = 0) (h4 : f.c410 = 0) (h3 : f.c320 = 0) (h2 : 0 ≤ f.c311 / 2 + f.c140) {C : Cert K}
    (h : windRec X f = .ok (some C)) : Holds f.poly C ∧ ∀ a b c, C.den a b c = 1 := by
  have hsum : f.sum7 = f.c230 + f.c140 + f.c311 + f.c221 := by
    unfold Quintic.sum7
    rw [h5, h4, h3]
    ring
  unfold windRec at h
  by_cases c0 : f.sum7 < 0
  · rw [if_pos c0] at h
    cases h
  rw [if_neg c0] at h
  by_cases c1 : f.c140 < 0
  · rw [if_pos c1] at h
    cases h
  rw [if_neg c1] at h
  by_cases c2 : f.c140 = 0
  · rw [if_pos c2] at h
    exact windBase_holds h5 h4 c2 (Except.ok.inj h)
  rw [if_neg c2, if_pos h3] at h
  by_cases c3 : 0 ≤ f.c230
  · rw [if_pos c3] at h
    unfold unc5 at h
    simp only [Bool.true_eq_false, if_false] at h
    rw [if_neg (hsum ▸ c0)] at h
    have c4 : ∀ s ∈ uncTrivial f (f.c230 + f.c140 + f.c311 + f.c221), 0 ≤ s.1 := by
      unfold uncTrivial
      each_mem
      · exact c3
      · exact not_lt.1 c1
      · exact h2
      · exact hsum ▸ not_lt.1 c0
    rw [if_pos c4] at h
    rw [← Option.some.inj (Except.ok.inj h)]
    exact ⟨uncTrivial_holds h5 h4 h3 c4, fun _ _ _ => rfl⟩
  · rw [if_neg c3] at h
    cases h

theorem windEasyA_holds {f : Quintic K} (h5 : f.c500 = 0) (h4 : f.c410 = 0) (hs : 0 ≤ f.sum7) {C : Cert K} (h : windEasyA f = some C) : Holds f.poly C := by
  unfold windEasyA at h
  dsimp only at h
  split_ifs at h with c1 c2 hc
  · obtain ⟨k1, k2, k3, k4⟩ := c2
    rw [min_eq_right hc] at h k2 k3
    rw [abs_of_nonneg (sub_nonneg.2 hc)] at h k4
    rw [← Option.some.inj h]
    refine holds_plain ?_ ?_ ?_
    · intro a b c
      simp only [List.map_cons, List.map_nil, List.sum_cons, List.sum_nil, cyc3, tail5, prodA, cycp3, sab3, Quintic.poly, Quintic.sum7, h5, h4]
      ring
    · each_mem
      · exact zero_le_one
      · exact hs
    · each_mem
      · intro a b c ho
        obtain ⟨ha, hb, hc⟩ := ho
        unfold cyc3
        dsimp only
        positivity
      · exact tail5_nonneg
  · obtain ⟨k1, k2, k3, k4⟩ := c2
    have hc' := (not_le.1 hc).le
    rw [min_eq_left hc'] at h k2 k3
    rw [abs_of_nonpos (sub_nonpos.2 hc')] at h k4
    rw [← Option.some.inj h]
    refine holds_plain ?_ ?_ ?_
    · intro a b c
      simp only [List.map_cons, List.map_nil, List.sum_cons, List.sum_nil, cyc3, tail5, prodA, cycp3, sab3, Quintic.poly, Quintic.sum7, h5, h4]
      ring
    · each_mem
      · exact zero_le_one
      · exact hs
    · each_mem
      · intro a b c ho
        obtain ⟨ha, hb, hc⟩ := ho
        generalize -(f.c320 - f.c230) = q at *
        unfold cyc3
        dsimp only
        positivity
      · exact tail5_nonneg

theorem windBound_le {f : Quintic K} {d : K} (h : windBound f = some d) : f.c230 - f.c320 ≤ d ∧ d ≤ f.c230 + f.c140 + f.c311 / 2 := by
  unfold windBound at h
  dsimp only at h
  split_ifs at h with c1 c2 c3
  · rw [← Option.some.inj h]
    exact c2
  · rw [← Option.some.inj h]
    exact ⟨le_rfl, c1⟩
  · rw [← Option.some.inj h]
    exact ⟨c1, le_rfl⟩

theorem windEasyB_holds {f : Quintic K} (h5 : f.c500 = 0) (h4 : f.c410 = 0) (hs : 0 ≤ f.sum7) {C : Cert K} (h : windEasyB f = some C) : Holds f.poly C := by
  unfold windEasyB at h
  split at h
  · cases h
  · rename_i d hd
    obtain ⟨hl, hr⟩ := windBound_le hd
    dsimp only at h
    split_ifs at h with c1
    split at h
    · cases h
    · rename_i l hq
      obtain ⟨hw, hi⟩ := quadraticWeighting_sound _ _ _ _ hq
      rw [← Option.some.inj h]
      refine holds_plain ?_ ?_ ?_
      · intro a b c
        rw [List.map_append, List.sum_append, List.map_map]
        have e : (l.map ((fun t : K × Val3 K => t.1 * t.2 a b c) ∘ fun w => (w.1, cyc3 fun a b c => c * (a - b) ^ 2 * (w.2.1 * a + w.2.2 * c) ^ 2))).sum =
            c * (a - b) ^ 2 * (f.c140 * a ^ 2 + d * a * c + (f.c230 - d) * c ^ 2) + a * (b - c) ^ 2 * (f.c140 * b ^ 2 + d * b * a + (f.c230 - d) * a ^ 2) +
              b * (c - a) ^ 2 * (f.c140 * c ^ 2 + d * c * b + (f.c230 - d) * b ^ 2) := by
          rw [← hi a c, ← hi b a, ← hi c b]
          clear hq hw hi h
          induction l with
          | nil => simp
          | cons w l ih =>
            simp only [List.map_cons, List.sum_cons, ih, Function.comp_apply, cyc3]
            ring
        rw [e]
        simp only [List.map_cons, List.map_nil, List.sum_cons, List.sum_nil, cyc3, tail5, prodA, cycp3, sab3, Quintic.poly, Quintic.sum7, h5, h4]
        ring
      · intro t ht
        rcases List.mem_append.1 ht with ht | ht
        · obtain ⟨w, hw', rfl⟩ := List.mem_map.1 ht
          exact hw w hw'
        · simp only [List.mem_cons, List.not_mem_nil, or_false] at ht
          rcases ht with rfl | rfl
          · exact zero_le_one
          · exact hs
      · intro t ht
        rcases List.mem_append.1 ht with ht | ht
        · obtain ⟨w, hw', rfl⟩ := List.mem_map.1 ht
          oct_sum
        · simp only [List.mem_cons, List.not_mem_nil, or_false] at ht
          rcases ht with rfl | rfl
          · intro a b c ho
            obtain ⟨ha, hb, hc⟩ := ho
            have k1 : 0 ≤ f.c311 / 2 + f.c140 + (f.c230 - d) := by linarith
            have k2 : 0 ≤ f.c320 - (f.c230 - d) := by linarith
            generalize f.c311 / 2 + f.c140 + (f.c230 - d) = q1 at *
            generalize f.c320 - (f.c230 - d) = q2 at *
            unfold cyc3
            dsimp only
            positivity
          · exact tail5_nonneg

theorem windEasy3_holds {f : Quintic K} (h5 : f.c500 = 0) (h4 : f.c410 = 0) (h3 : 0 < f.c320) (hs : 0 ≤ f.sum7) {C : Cert K} (h : windEasy3 f = some C) : Holds f.poly C := by
  unfold windEasy3 at h
  dsimp only at h
  split_ifs at h with c1
  obtain ⟨k1, k2⟩ := c1
  rw [← Option.some.inj h]
  refine ((holds_sumY (f := fun a b c => f.poly a b c - f.sum7 * tail5 a b c) ?_ ?_ ?_).add hs tail5_nonneg).congr fun a b c => by ring
  · intro a b c
    simp only [List.map_cons, List.map_nil, List.sum_cons, List.sum_nil, cyc3, abcSd, sd3, tail5, prodA, cycp3, sab3, Quintic.poly, Quintic.sum7, h5, h4]
    field_simp
    ring
  · each_mem
    · dsimp only; positivity
    · exact mul_nonneg k1 h3.le
    · exact mul_nonneg k2 h3.le
  · each_mem
    · intro _; oct_sum
    · intro _; oct_sum
    · intro _; exact abcSd_nonneg

theorem windEasy4_holds {f : Quintic K} (h5 : f.c500 = 0) (h4 : f.c410 = 0) (h3 : 0 < f.c320) (hs : 0 ≤ f.sum7) {C : Cert K} (h : windEasy4 f = some C) : Holds f.poly C := by
  unfold windEasy4 at h
  dsimp only at h
  split_ifs at h with c1 c2
  · rw [← Option.some.inj h]
    have k1 : 0 ≤ f.c140 - f.c320 := by
      rw [le_div_iff₀ h3] at c1
      linarith
    refine holds_plain ?_ ?_ ?_
    · intro a b c
      simp only [List.map_cons, List.map_nil, List.sum_cons, List.sum_nil, cyc3, tail5, prodA, cycp3, sab3, Quintic.poly, Quintic.sum7, h5, h4]
      field_simp
      ring
    · each_mem
      · exact h3.le
      · exact zero_le_one
      · exact hs
    · each_mem
      · oct_sum
      · intro a b c ho
        obtain ⟨ha, hb, hc⟩ := ho
        unfold cyc3
        dsimp only
        positivity
      · exact tail5_nonneg
  · split at h
    · cases h
    · rename_i t _
      split_ifs at h with c2
      obtain ⟨k1, k2, k3, k4⟩ := c2
      rw [← Option.some.inj h]
      refine ((holds_sumY (f := fun a b c => f.poly a b c - f.sum7 * tail5 a b c) ?_ ?_ ?_).add hs tail5_nonneg).congr fun a b c => by ring
      · intro a b c
        simp only [List.map_cons, List.map_nil, List.sum_cons, List.sum_nil, cyc3, tail5, prodA, cycp3, sab3, Quintic.poly, Quintic.sum7, h5, h4]
        field_simp
        ring
      · each_mem
        · exact mul_nonneg k1 h3.le
        · exact mul_nonneg k2 h3.le
        · exact mul_nonneg k3 h3.le
        · exact mul_nonneg k4 h3.le
      · each_mem
        · intro _; oct_sum
        · intro _; oct_sum
        · intro _; oct_sum
        · intro _; oct_sum

theorem windTrivial_holds {f : Quintic K} (h5 : f.c500 = 0) (h4 : f.c410 = 0) (h3 : 0 < f.c320) (hs : 0 ≤ f.sum7) {C : Cert K} (h : windTrivial f = some C) : Holds f.poly C := by
  unfold windTrivial at h
  rcases Option.or_eq_some_iff.1 h with h | ⟨_, h⟩
  · exact windEasyA_holds h5 h4 hs h
  rcases Option.or_eq_some_iff.1 h with h | ⟨_, h⟩
  · exact windEasyB_holds h5 h4 hs h
  rcases Option.or_eq_some_iff.1 h with h | ⟨_, h⟩
  · exact windEasy3_holds h5 h4 h3 hs h
  · exact windEasy4_holds h5 h4 h3 hs h

end Verif.Ternary
