import Verif.Props.TernarySextic

/-!
# What the solver of cyclic ternary sextics guarantees: trees, hexagons, and the whole solver
-/

set_option linter.unusedSectionVars false

namespace Verif.Ternary

open Verif Verif.TermsPoly Verif.Acute

variable {K : Type*} [Field K] [LinearOrder K] [IsStrictOrderedRing K]

/-- An identity with nonnegative expressions: what is left when a weight is not tested. -/
structure Ident (f : Val3 K) (C : Cert K) : Prop where
  identity : ∀ a b c, C.num a b c = C.den a b c * f a b c
  exprs : ∀ t ∈ C.terms, ∀ a b c, Octant a b c → 0 ≤ t.2 a b c
  den : ∀ a b c, Octant a b c → 0 ≤ C.den a b c
  pos : PosIn C

theorem Answer.ident {f : Val3 K} {C : Cert K} (h : Answer f C) : Ident f C := ⟨h.identity, h.exprs, h.den, h.pos⟩

theorem Answer.congr {f g : Val3 K} {C : Cert K} (h : Answer f C) (hfg : ∀ a b c, f a b c = g a b c) : Answer g C :=
  (funext fun a => funext fun b => funext fun c => hfg a b c : f = g) ▸ h

/-- A weight that is nonnegative only because the polynomial is. -/
theorem Holds.addAnswer {f g : Val3 K} {C : Cert K} (h : Holds g C) {w : K} {e : Val3 K} (he : ∀ a b c, Octant a b c → 0 ≤ e a b c) (hfg : ∀ a b c, g a b c + w * e a b c = f a b c)
    (hw : (∀ a b c, Octant a b c → 0 ≤ f a b c) → 0 ≤ w) : Answer f (C.add w e) := by
  refine ⟨?_, ?_, h.1.den, h.2, ?_⟩
  · intro a b c
    have h1 := h.1.identity a b c
    simp only [Cert.num, Cert.add, List.map_cons, List.sum_cons] at h1 ⊢
    rw [h1, ← hfg]
    ring
  · intro t ht a b c ho
    rcases List.mem_cons.1 ht with rfl | ht
    · exact mul_nonneg (he a b c ho) (h.1.den a b c ho)
    · exact h.1.exprs t ht a b c ho
  · intro hf t ht
    rcases List.mem_cons.1 ht with rfl | ht
    · exact hw hf
    · exact h.1.weights t ht

theorem Answer.over {f e : Val3 K} {C : Cert K} (h : Answer (fun a b c => e a b c * f a b c) C) (he : ∀ a b c, Octant a b c → 0 ≤ e a b c)
    (hp : ∀ a b c, 0 < a → 0 < b → 0 < c → 0 < e a b c) : Answer f (over C e) := by
  refine ⟨?_, h.exprs, fun a b c ho => mul_nonneg (h.den a b c ho) (he a b c ho), fun a b c ha hb hc hn => mul_pos (h.pos a b c ha hb hc hn) (hp a b c ha hb hc), ?_⟩
  · intro a b c
    have h1 := h.identity a b c
    change C.num a b c = C.den a b c * e a b c * f a b c
    rw [h1, mul_assoc]
  · exact fun hf => h.weights fun a b c ho => mul_nonneg (he a b c ho) (hf a b c ho)

theorem sextic_reflect (f : Sextic K) (a b c : K) : f.reflect.poly a b c = f.poly a c b := by
  unfold Sextic.reflect Sextic.poly
  ring

theorem sextic_reflect_answer {f : Sextic K} {C : Cert K} (h : Answer f.reflect.poly C) : Answer f.poly C.reflect := by
  have hnum : ∀ a b c, C.reflect.num a b c = C.num a c b := by
    intro a b c
    simp only [Cert.num, Cert.reflect, List.map_map]
    rfl
  refine ⟨?_, ?_, fun a b c ho => h.den a c b ⟨ho.1, ho.2.2, ho.2.1⟩, fun a b c ha hb hc hn => h.pos a c b ha hc hb fun hh => hn ⟨hh.1.trans hh.2, hh.2.symm⟩, ?_⟩
  · intro a b c
    rw [hnum, h.identity, sextic_reflect]
    rfl
  · intro t ht a b c ho
    obtain ⟨s, hs, rfl⟩ := List.mem_map.1 ht
    exact h.exprs s hs a c b ⟨ho.1, ho.2.2, ho.2.1⟩
  · intro hnn t ht
    obtain ⟨s, hs, rfl⟩ := List.mem_map.1 ht
    refine h.weights (fun a b c ho => ?_) s hs
    rw [sextic_reflect]
    exact hnn a c b ⟨ho.1, ho.2.2, ho.2.1⟩

/-! ### The rotated tree -/

/-- The polynomials the rotated tree is called for. -/
structure Sextic.RTree (f : Sextic K) : Prop where
  c600 : f.c600 = 0
  c510 : f.c510 = 0
  c501 : f.c501 = 0
  c420 : f.c420 = 0
  c411 : f.c411 = 0
  c330 : f.c330 = 0

theorem rtree_poly {f : Sextic K} (hf : f.RTree) (h : f.c402 ≠ 0) (a b c : K) :
    f.poly a b c = f.c402 * rtPoly (f.c321 / f.c402) (f.c312 / f.c402) (f.c222 / f.c402) a b c := by
  unfold Sextic.poly rtPoly
  rw [hf.c600, hf.c510, hf.c501, hf.c420, hf.c411, hf.c330]
  field_simp
  ring

theorem rtree_rem {f : Sextic K} (hf : f.RTree) : f.rtRem = f.poly 1 1 1 := by
  unfold Sextic.poly Sextic.rtRem
  rw [hf.c600, hf.c510, hf.c501, hf.c420, hf.c411, hf.c330]
  ring

theorem rtree_rem_nonneg {f : Sextic K} (hf : f.RTree) (h : ∀ a b c, Octant a b c → 0 ≤ f.poly a b c) : 0 ≤ f.rtRem := by
  rw [rtree_rem hf]
  exact h 1 1 1 ⟨zero_le_one, zero_le_one, zero_le_one⟩

theorem rtree_rem_div {f : Sextic K} (h : f.c402 ≠ 0) : f.c402 * ((1 + f.c312 / f.c402 + f.c321 / f.c402) * 3 + f.c222 / f.c402) = f.rtRem := by
  unfold Sextic.rtRem
  field_simp

theorem rtSimple_answer {f : Sextic K} (hf : f.RTree) (h4 : 0 < f.c402) {y : K} (h1 : f.c321 / f.c402 + 4 * y + 6 ≠ 0) (h2 : y + 2 ≠ 0)
    (hq : 0 ≤ rtQ (f.c321 / f.c402) (f.c312 / f.c402) y)
    (hd : rtN (f.c321 / f.c402) (f.c312 / f.c402) y ^ 2 ≤ 4 * rtP (f.c321 / f.c402) y * rtQ (f.c321 / f.c402) (f.c312 / f.c402) y)
    (hy : f.c321 / f.c402 = 8 * y + 6 → 0 ≤ rtP (f.c321 / f.c402) y) : Answer f.poly (rtSimple f (f.c321 / f.c402) (f.c312 / f.c402) y) := by
  have hid := fun a b c => id_rtSimple (u := f.c321 / f.c402) (v := f.c312 / f.c402) (y := y) (f.c222 / f.c402) h1 h2 a b c
  have hpoly := rtree_poly hf h4.ne'
  have hrem := rtree_rem_div h4.ne'
  generalize hu : f.c321 / f.c402 = u at *
  generalize hv : f.c312 / f.c402 = v at *
  -- the first weight
  have hp : 0 ≤ rtP u y := by
    by_contra hp
    push Not at hp
    have hq0 : rtQ u v y = 0 := by
      refine le_antisymm ?_ hq
      by_contra h
      push Not at h
      nlinarith [sq_nonneg (rtN u v y), mul_pos_of_neg_of_neg hp (neg_lt_zero.2 h)]
    rw [hq0, mul_zero] at hd
    have hn0 : rtN u v y = 0 := pow_eq_zero_iff (two_ne_zero) |>.1 (le_antisymm hd (sq_nonneg _))
    have hx : rtX u v y = 1 := by
      unfold rtN at hn0
      have h3 : (2 : K) / (y + 2) ≠ 0 := div_ne_zero two_ne_zero h2
      rcases mul_eq_zero.1 hn0 with h | h
      · rcases mul_eq_zero.1 h with h | h
        · exact absurd h h3
        · exact sub_eq_zero.1 h
      · exact absurd h hp.ne
    have hv4 : -u - v + 4 * y + 4 = 0 := by
      have h3 : 2 * (u + 4 * y + 6) ≠ 0 := mul_ne_zero two_ne_zero h1
      unfold rtX at hx
      have h5 : (y + 2) * (-u - v + 4 * y + 4) / (2 * (u + 4 * y + 6)) = 0 := by linear_combination -hx
      rcases div_eq_zero_iff.1 h5 with h | h
      · exact (mul_eq_zero.1 h).resolve_left h2
      · exact absurd h h3
    have : u = 8 * y + 6 := by
      unfold rtQ at hq0
      rw [hx] at hq0
      linear_combination -hv4 - hq0
    exact absurd (hy this) (not_le.2 hp)
  have hden : ∀ a b c : K, 0 < a → 0 < b → 0 < c → 0 < sumA a b c := by
    intro a b c ha hb hc
    simp only [sumA, cyc3]
    positivity
  refine ⟨?_, ?_, fun a b c ho => sumA_nonneg ho, fun a b c ha hb hc _ => hden a b c ha hb hc, ?_⟩
  · intro a b c
    change _ = sumA a b c * f.poly a b c
    have e : sumA a b c * f.poly a b c = f.c402 * (sumA a b c * rtPoly u v (f.c222 / f.c402) a b c) := by rw [hpoly]; ring
    rw [e, hid]
    simp only [Cert.num, rtSimple, List.map_cons, List.map_nil, List.sum_cons, List.sum_nil, add_zero]
    rw [← hrem]
    generalize rtX u v y = x
    generalize rtP u y = p at *
    generalize rtQ u v y = q at *
    generalize rtN u v y = n at *
    have key : p * cyc3 (fun a b c => a * b * (a - (-n / 2 / p) * b + (-n / 2 / p - 1) * c) ^ 2) a b c +
        (if p ≠ 0 then q - n ^ 2 / 4 / p else q) * cyc3 (fun a b c => a * b * (b - c) ^ 2) a b c + (if p ≠ 0 then 0 else n / 2) * cyc3 (fun a b c => a ^ 2 * (b - c) ^ 2) a b c =
        cyc3 (fun a b c => a * b * (p * (a - c) ^ 2 + n * ((a - c) * (b - c)) + q * (b - c) ^ 2)) a b c := by
      by_cases hp0 : p = 0
      · have hn0 : n = 0 := by
          rw [hp0, mul_zero, zero_mul] at hd
          exact pow_eq_zero_iff (two_ne_zero) |>.1 (le_antisymm hd (sq_nonneg _))
        rw [hp0, hn0]
        simp only [ne_eq, not_true_eq_false, if_false, cyc3]
        ring
      · rw [if_pos hp0, if_pos hp0]
        have s1 := rt_square (q := q) (n := n) hp0 a b c
        have s2 := rt_square (q := q) (n := n) hp0 b c a
        have s3 := rt_square (q := q) (n := n) hp0 c a b
        simp only [cyc3]
        rw [← s1, ← s2, ← s3]
        ring
    rw [← key]
    ring
  · unfold rtSimple
    dsimp only
    each_mem
    · intro a b c ho
      oct_pos
    · intro a b c ho
      refine mul_nonneg (prodA_nonneg a b c ho) ?_
      oct_pos
    · intro a b c ho
      refine mul_nonneg (prodA_nonneg a b c ho) ?_
      oct_pos
    · intro a b c ho
      refine mul_nonneg (prodA_nonneg a b c ho) ?_
      oct_pos
    · exact fun a b c ho => mul_nonneg (cycp3_sq_nonneg a b c) (sumA_nonneg ho)
  · intro hnn
    unfold rtSimple
    dsimp only
    each_mem
    · exact h4.le
    · exact mul_nonneg hp h4.le
    · refine mul_nonneg ?_ h4.le
      split
      · rename_i hp0
        have hp1 : 0 < rtP u y := lt_of_le_of_ne hp (Ne.symm hp0)
        rw [div_div, sub_nonneg, div_le_iff₀ (by positivity)]
        linarith
      · exact hq
    · refine mul_nonneg ?_ h4.le
      split
      · exact le_rfl
      · rename_i hp0
        rw [not_not.1 hp0, mul_zero, zero_mul] at hd
        rw [pow_eq_zero_iff (two_ne_zero) |>.1 (le_antisymm hd (sq_nonneg _)), zero_div]
    · exact rtree_rem_nonneg hf hnn

theorem rtFind_spec {u v : K} : ∀ {l : List K} {y : K}, rtFind u v l = .ok (some y) → y ∈ l ∧ u + 4 * y + 6 ≠ 0 ∧ y + 2 ≠ 0 ∧ 0 ≤ rtQ u v y ∧ rtN u v y ^ 2 ≤ 4 * rtP u y * rtQ u v y
  | [], y, h => by simp [rtFind] at h
  | z :: l, y, h => by
    unfold rtFind at h
    split at h
    · simp at h
    rename_i h1
    split at h
    · rename_i h2
      split at h
      · simp at h
      rename_i h3
      split at h
      · rename_i h4
        rw [← Option.some.inj (Except.ok.inj h)]
        exact ⟨List.mem_cons_self, h1, h3, h2, h4⟩
      · have := rtFind_spec h
        exact ⟨List.mem_cons_of_mem _ this.1, this.2⟩
    · have := rtFind_spec h
      exact ⟨List.mem_cons_of_mem _ this.1, this.2⟩

theorem rtMult_pos {z : K} (hz : 0 ≤ z) (a b c : K) (ha : 0 < a) (hb : 0 < b) (hc : 0 < c) : 0 < rtMult z a b c := by
  simp only [rtMult, cyc3]
  positivity

theorem rtMult_nonneg {z : K} (hz : 0 ≤ z) (a b c : K) (ho : Octant a b c) : 0 ≤ rtMult z a b c := by
  unfold rtMult
  oct_pos

theorem sumA_pos' (a b c : K) (ha : 0 < a) (hb : 0 < b) (hc : 0 < c) : 0 < sumA a b c := by
  simp only [sumA, cyc3]
  positivity

theorem rtLast_answer {X : SexticExt K} (hX : X.Sound) {f : Sextic K} (hf : f.RTree) (h4 : 0 < f.c402) {C : Cert K}
    (h : rtLast X f (f.c321 / f.c402) (f.c312 / f.c402) = .ok (some C)) : Answer f.poly C := by
  unfold rtLast at h
  split at h
  · simp at h
  · simp at h
  rename_i x hx
  obtain ⟨-, g1, g2⟩ := rationalizeFunc_sound (hX.treeX f) hx
  have g3 := of_decide_eq_true (Except.ok.inj g2)
  obtain ⟨g3, g4⟩ := g3
  have hz : 0 ≤ x * (x + 1) / 3 := by
    have : 0 ≤ x := by linarith
    positivity
  split at h
  swap
  · simp at h
  rename_i A B hA hB
  rw [← Option.some.inj (Except.ok.inj h)]
  have hm : ∀ a b c : K, Octant a b c → 0 ≤ prodA a b c * sumA a b c * rtMult (x * (x + 1) / 3) a b c :=
    fun a b c ho => mul_nonneg (mul_nonneg (prodA_nonneg a b c ho) (sumA_nonneg ho)) (rtMult_nonneg hz a b c ho)
  refine Answer.over ?_ (fun a b c ho => mul_nonneg (rtMult_nonneg hz a b c ho) (sumA_nonneg ho)) fun a b c ha hb hc => mul_pos (rtMult_pos hz a b c ha hb hc) (sumA_pos' a b c ha hb hc)
  have hx1 : 0 ≤ x + 1 := by linarith
  refine Holds.addAnswer (Holds.add (Holds.add (Holds.add (Holds.plus (Holds.smul (Holds.times (amgm_holds hA) hm) (mul_nonneg g4 h4.le))
    (Holds.smul (Holds.times (amgm_holds hB) hm) (mul_nonneg (by linarith) h4.le))) h4.le ?_) (mul_nonneg (div_nonneg hx1 (by norm_num)) h4.le) ?_) (mul_nonneg hx1 h4.le) ?_) ?_ ?_ ?_
  · intro a b c ho
    refine mul_nonneg (sumA_nonneg ho) ?_
    oct_pos
  · intro a b c ho
    refine mul_nonneg (cycp3_sq_nonneg a b c) ?_
    oct_pos
  · intro a b c ho
    refine mul_nonneg (prodA_nonneg a b c ho) ?_
    oct_pos
  · exact fun a b c ho => mul_nonneg (mul_nonneg (cycp3_sq_nonneg a b c) (sumA_nonneg ho)) (rtMult_nonneg hz a b c ho)
  · intro a b c
    have hid := id_rtLast x (f.c321 / f.c402) (f.c312 / f.c402) (f.c222 / f.c402) a b c
    have e : rtMult (x * (x + 1) / 3) a b c * sumA a b c * f.poly a b c =
      f.c402 * (rtMult (x * (x + 1) / 3) a b c * sumA a b c * rtPoly (f.c321 / f.c402) (f.c312 / f.c402) (f.c222 / f.c402) a b c) := by rw [rtree_poly hf h4.ne']; ring
    rw [e, hid, ← rtree_rem_div h4.ne']
    have e1 : cycMon (2, 0, 1) a b c - cycMon (1, 1, 1) a b c = cyc3 (fun a b c => a ^ 2 * c - a * b * c) a b c := by simp only [cycMon, cyc3]; ring
    have e2 : cycMon (2, 1, 0) a b c - cycMon (1, 1, 1) a b c = cyc3 (fun a b c => a ^ 2 * b - a * b * c) a b c := by simp only [cycMon, cyc3]; ring
    rw [e1, e2]
    ring
  · intro hnn
    rw [rtree_rem hf]
    have h1 := hnn 1 1 1 ⟨zero_le_one, zero_le_one, zero_le_one⟩
    exact nonneg_of_mul_nonneg_right h1 (mul_pos (rtMult_pos hz 1 1 1 one_pos one_pos one_pos) (sumA_pos' 1 1 1 one_pos one_pos one_pos))

theorem rtCore_answer {X : SexticExt K} (hX : X.Sound) {f : Sextic K} (hf : f.RTree) {C : Cert K} (h : rtCore X f = .ok (some C)) : Answer f.poly C := by
  unfold rtCore at h
  dsimp only at h
  split at h
  · simp at h
  rename_i h0
  push Not at h0
  obtain ⟨h4, -, hu⟩ := h0
  have e1 : ∀ a b c : K, cycMon (2, 0, 1) a b c - cycMon (1, 1, 1) a b c = cyc3 (fun a b c => a ^ 2 * c - a * b * c) a b c := by intro a b c; simp only [cycMon, cyc3]; ring
  have e2 : ∀ a b c : K, cycMon (2, 1, 0) a b c - cycMon (1, 1, 1) a b c = cyc3 (fun a b c => a ^ 2 * b - a * b * c) a b c := by intro a b c; simp only [cycMon, cyc3]; ring
  split at h
  · rename_i h1
    split at h
    swap
    · simp at h
    rename_i A B hA hB
    rw [← Option.some.inj (Except.ok.inj h)]
    refine Holds.addAnswer (Holds.add (Holds.plus (Holds.smul (Holds.times (amgm_holds hA) prodA_nonneg) (mul_nonneg (by linarith) h4.le))
      (Holds.smul (Holds.times (amgm_holds hB) prodA_nonneg) (mul_nonneg (by linarith) h4.le))) h4.le ?_) ?_ ?_ ?_
    · exact fun a b c _ => sq_nonneg _
    · exact fun a b c _ => cycp3_sq_nonneg a b c
    · intro a b c
      rw [e1, e2, rtree_poly hf h4.ne', ← rtree_rem_div h4.ne']
      simp only [rtPoly, prodA, cycp3, cyc3]
      ring
    · exact rtree_rem_nonneg hf
  split at h
  · rename_i h1
    split at h
    swap
    · simp at h
    rename_i A B hA hB
    rw [← Option.some.inj (Except.ok.inj h)]
    refine Holds.addAnswer (Holds.add (Holds.plus (Holds.smul (Holds.times (amgm_holds hA) prodA_nonneg) (mul_nonneg h1.1 h4.le))
      (Holds.smul (Holds.times (amgm_holds hB) prodA_nonneg) (mul_nonneg (by linarith) h4.le))) h4.le ?_) ?_ ?_ ?_
    · intro a b c ho
      oct_pos
    · exact fun a b c _ => cycp3_sq_nonneg a b c
    · intro a b c
      rw [e1, e2, rtree_poly hf h4.ne', ← rtree_rem_div h4.ne']
      simp only [rtPoly, prodA, cycp3, cyc3]
      ring
    · exact rtree_rem_nonneg hf
  split at h
  · simp at h
  · rename_i y hy
    obtain ⟨hm, k1, k2, k3, k4⟩ := rtFind_spec hy
    rw [← Option.some.inj (Except.ok.inj h)]
    exact rtSimple_answer hf h4 k1 k2 k3 k4 (hX.treeY f y hm)
  · exact rtLast_answer hX hf h4 h

/-- **C84 (rotated tree).** -/
theorem rotatedTree_answer {X : SexticExt K} (hX : X.Sound) {f : Sextic K} (h6 : f.c600 = 0 ∧ f.c510 = 0 ∧ f.c501 = 0) (h4 : f.c420 = 0 ∨ f.c402 = 0)
    (h3 : f.c330 = 0 ∧ f.c411 = 0) {C : Cert K} (h : rotatedTree X f = .ok (some C)) : Answer f.poly C := by
  unfold rotatedTree at h
  split at h
  · rename_i h5
    obtain ⟨D, hD, rfl⟩ := exMap_some h
    exact sextic_reflect_answer (rtCore_answer (f := f.reflect) hX ⟨h6.1, h6.2.2, h6.2.1, h4.resolve_left h5, h3.2, h3.1⟩ hD)
  · rename_i h5
    exact rtCore_answer hX ⟨h6.1, h6.2.1, h6.2.2, not_not.1 h5, h3.2, h3.1⟩ h

/-! ### The hexagon -/

theorem qwTerms_sound {c1 c2 c3 : K} {l : List (K × Val3 K)} (h : qwTerms c1 c2 c3 = some l) :
    (∀ t ∈ l, 0 ≤ t.1) ∧ (∀ t ∈ l, ∀ a b c, 0 ≤ t.2 a b c) ∧ ∀ a b c, (l.map fun t => t.1 * t.2 a b c).sum =
      c1 * cyc3 (fun a b c => a ^ 2 * b - a * b * c) a b c ^ 2 +
        c2 * (cyc3 (fun a b c => a ^ 2 * b - a * b * c) a b c * cyc3 (fun a b c => a * b ^ 2 - a * b * c) a b c) + c3 * cyc3 (fun a b c => a * b ^ 2 - a * b * c) a b c ^ 2 := by
  unfold qwTerms at h
  obtain ⟨m, hm, rfl⟩ := Option.map_eq_some_iff.1 h
  obtain ⟨h1, h2⟩ := quadraticWeighting_sound c1 c2 c3 m hm
  refine ⟨?_, ?_, ?_⟩
  · intro t ht
    obtain ⟨w, hw, rfl⟩ := List.mem_map.1 ht
    exact h1 w hw
  · intro t ht a b c
    obtain ⟨w, hw, rfl⟩ := List.mem_map.1 ht
    exact sq_nonneg _
  · intro a b c
    have e : ∀ x y : K, sqMap x y a b c = (x * cyc3 (fun a b c => a ^ 2 * b - a * b * c) a b c + y * cyc3 (fun a b c => a * b ^ 2 - a * b * c) a b c) ^ 2 := by
      intro x y
      simp only [sqMap, cyc3]
      ring
    rw [← mul_assoc, ← h2, List.map_map]
    congr 1
    apply List.map_congr_left
    intro w _
    simp only [Function.comp, e]

/-- **C84 (hexagon by a hexagram).** -/
theorem hexagonToHexagram_holds {X : SexticExt K} (hX : X.Sound) {f : Sextic K} (h6 : f.c600 = 0 ∧ f.c510 = 0 ∧ f.c501 = 0) {C : Cert K}
    (h : hexagonToHexagram X f = .ok (some C)) : Holds f.poly C := by
  unfold hexagonToHexagram at h
  split at h
  · simp at h
  split at h
  · simp at h
  · simp at h
  rename_i c3 _
  split at h
  · simp at h
  · simp at h
  rename_i D hD
  split at h
  · simp at h
  rename_i l hl
  rw [← Option.some.inj (Except.ok.inj h)]
  obtain ⟨h1, h2, h3⟩ := qwTerms_sound hl
  refine Holds.congr (Holds.plus (holds_plain h3 h1 fun t ht a b c _ => h2 t ht a b c) (hexagramSolve_holds hX ⟨rfl, rfl, rfl, rfl, rfl⟩ hD)) ?_
  intro a b c
  obtain ⟨z1, z2, z3⟩ := h6
  simp only [Sextic.poly, hexagonSub, z1, z2, z3, cyc3]
  ring

theorem sdp_relations {f : Sextic K} (h1 : f.sdp1 ≠ 0) (h2 : f.sdp2 ≠ 0) (h3 : f.sdp3 ≠ 0) :
    f.c411 - f.c330 = 6 * f.sdpR * f.sdpY * (1 - f.sdpX) ∧
    6 * f.c420 + 3 * f.c330 + f.c321 - 2 * f.c402 = 6 * f.sdpR * (-f.sdpY ^ 2 - 2 * f.sdpY + 2 * f.sdpX ^ 2 + f.sdpX * f.sdpY - 2 * f.sdpX + 2) ∧
    -2 * f.c420 + 3 * f.c330 + 6 * f.c402 + f.c312 = 6 * f.sdpR * (2 * f.sdpY ^ 2 - 2 * f.sdpY - f.sdpX ^ 2 + f.sdpX * f.sdpY + f.sdpX - 1) := by
  have := sdp_pars (A := f.c411 - f.c330) (B := 6 * f.c420 + 3 * f.c330 + f.c321 - 2 * f.c402) (C := -2 * f.c420 + 3 * f.c330 + 6 * f.c402 + f.c312) (p1 := f.sdp1) (p2 := f.sdp2)
    (p3 := f.sdp3) (by unfold Sextic.sdp1; ring) (by unfold Sextic.sdp3; ring) (by unfold Sextic.sdp2; ring) h1 h2 h3
  have hx : f.sdpX = 9 * (f.c411 - f.c330) * f.sdp3 / f.sdp1 + 1 := by unfold Sextic.sdpX; ring
  rw [hx]
  exact this

/-- The second derivative at the centre. -/
def Sextic.second (f : Sextic K) : K := 12 * f.c600 + 7 * (f.c510 + f.c501) + 4 * (f.c420 + f.c402) + 3 * f.c411 + 3 * f.c330 + f.c321 + f.c312

/-- A nonnegative polynomial that vanishes at the centre has a nonnegative second derivative there. -/
theorem second_nonneg {f : Sextic K} (h : ∀ a b c, Octant a b c → 0 ≤ f.poly a b c) (h0 : f.poly111 = 0) : 0 ≤ f.second := by
  by_contra hR
  push Not at hR
  let k3 := 20 * f.c600 + 10 * (f.c510 + f.c501) + 4 * (f.c420 + f.c402 + f.c411) + 2 * f.c330 + f.c321 + f.c312
  let k4 := 15 * f.c600 + 5 * (f.c510 + f.c501) + f.c420 + f.c402 + f.c411
  let k5 := 6 * f.c600 + f.c510 + f.c501
  have key : ∀ t : K, f.poly (1 + t) 1 1 = t ^ 2 * (f.second + t * (k3 + k4 * t + k5 * t ^ 2 + f.c600 * t ^ 3)) := by
    intro t
    have e4 : f.c222 = -(3 * (f.c600 + f.c510 + f.c501 + f.c420 + f.c411 + f.c402 + f.c330 + f.c321 + f.c312)) := by
      unfold Sextic.poly111 at h0
      linear_combination h0
    simp only [k3, k4, k5, Sextic.second, Sextic.poly, e4]
    ring
  set M := |k3| + |k4| + |k5| + |f.c600| with hM
  have hM0 : 0 ≤ M := by positivity
  have hpos : 0 < -f.second + M + 1 := by linarith
  set t := -f.second / (-f.second + M + 1) with ht
  have ht0 : 0 < t := div_pos (by linarith) hpos
  have ht1 : t ≤ 1 := by rw [ht, div_le_one hpos]; linarith
  have htM : t * M < -f.second := by
    rw [ht, div_mul_eq_mul_div, div_lt_iff₀ hpos]
    nlinarith
  have hp := h (1 + t) 1 1 ⟨by linarith, zero_le_one, zero_le_one⟩
  rw [key] at hp
  have h1 : k3 + k4 * t + k5 * t ^ 2 + f.c600 * t ^ 3 ≤ M := by
    have t2 : t ^ 2 ≤ 1 := pow_le_one₀ ht0.le ht1
    have t3 : t ^ 3 ≤ 1 := pow_le_one₀ ht0.le ht1
    have a1 := le_abs_self k3
    have bd : ∀ k s : K, 0 ≤ s → s ≤ 1 → k * s ≤ |k| := fun k s s0 s1 => by
      calc k * s ≤ |k| * s := mul_le_mul_of_nonneg_right (le_abs_self k) s0
        _ ≤ |k| := mul_le_of_le_one_right (abs_nonneg k) s1
    have a2 := bd k4 t ht0.le ht1
    have a3 := bd k5 (t ^ 2) (by positivity) t2
    have a4 := bd f.c600 (t ^ 3) (by positivity) t3
    linarith
  have h2 : f.second + t * (k3 + k4 * t + k5 * t ^ 2 + f.c600 * t ^ 3) < 0 := by
    have := mul_le_mul_of_nonneg_left h1 ht0.le
    linarith
  have := mul_neg_of_pos_of_neg (pow_pos ht0 2) h2
  linarith

theorem sdpR_nonneg {f : Sextic K} (h6 : f.c600 = 0 ∧ f.c510 = 0 ∧ f.c501 = 0) (h1 : f.sdp1 ≠ 0) (h2 : f.sdp2 ≠ 0) (h3 : f.sdp3 ≠ 0) (h : 0 ≤ f.second) : 0 ≤ f.sdpR := by
  obtain ⟨e1, e2, e3⟩ := sdp_relations h1 h2 h3
  have e : f.second = 3 * f.sdpR * ((f.sdpX - f.sdpY) ^ 2 + (f.sdpX - 1) ^ 2 + (f.sdpY - 1) ^ 2) := by
    unfold Sextic.second
    rw [h6.1, h6.2.1, h6.2.2]
    linear_combination 3 * e1 + e2 + e3
  by_contra hr
  push Not at hr
  have hs : f.second = f.sdp3 := by
    unfold Sextic.second Sextic.sdp3
    rw [h6.1, h6.2.1, h6.2.2]
    ring
  have hle : f.second ≤ 0 := by
    rw [e]
    have : 0 ≤ (f.sdpX - f.sdpY) ^ 2 + (f.sdpX - 1) ^ 2 + (f.sdpY - 1) ^ 2 := by positivity
    nlinarith
  exact h3 (hs ▸ le_antisymm hle h)

theorem sdpExpr_nonneg (x y a b c : K) : 0 ≤ sdpExpr x y a b c := by
  simp only [sdpExpr, cyc3]
  positivity

theorem hexagonSdp_cases {X : SexticExt K} {f : Sextic K} {C : Cert K} (h : hexagonSdp X f = .ok (some C)) : X.rational f = true ∧ 0 ≤ f.poly111 ∧ f.sdp1 ≠ 0 ∧ f.sdp2 ≠ 0 ∧ f.sdp3 ≠ 0 ∧
    ∃ l, qwTerms (f.c420 - 2 * f.sdpR * (f.sdpX ^ 2 - f.sdpX + 1)) (f.c330 - 2 * f.sdpR * f.sdpY * (f.sdpX - 2)) (f.c402 - 2 * f.sdpR * f.sdpY ^ 2) = some l ∧
      C = .plain ((f.sdpR, sdpExpr f.sdpX f.sdpY) :: (f.poly111, cycp3 fun a _ _ => a ^ 2) :: l) := by
  unfold hexagonSdp at h
  split at h
  · simp at h
  rename_i h0
  push Not at h0
  split at h
  · simp at h
  rename_i h1
  push Not at h1
  dsimp only at h
  split at h
  · split at h
    · simp at h
    · rename_i l hl
      refine ⟨by simpa using h0.1, h0.2, h1.1, h1.2.1, h1.2.2, l, hl, (Option.some.inj (Except.ok.inj h)).symm⟩
  · simp at h

/-- **C84 (hexagon by a quadratic form).** The identity holds; only the weight `r` is not tested. -/
theorem hexagonSdp_ident {X : SexticExt K} {f : Sextic K} (h6 : f.c600 = 0 ∧ f.c510 = 0 ∧ f.c501 = 0) {C : Cert K} (h : hexagonSdp X f = .ok (some C)) :
    Ident f.poly C ∧ ∀ t ∈ C.terms, 0 ≤ t.1 ∨ t.1 = f.sdpR := by
  obtain ⟨-, h0, h1, h2, h3, l, hl, rfl⟩ := hexagonSdp_cases h
  obtain ⟨k1, k2, k3⟩ := qwTerms_sound hl
  obtain ⟨e1, e2, e3⟩ := sdp_relations h1 h2 h3
  refine ⟨⟨?_, ?_, fun _ _ _ _ => zero_le_one, fun _ _ _ _ _ _ _ => zero_lt_one⟩, ?_⟩
  · intro a b c
    simp only [Cert.num, Cert.plain, List.map_cons, List.sum_cons, k3, one_mul]
    rw [id_sdp f h6 f.sdpR f.sdpX f.sdpY e1 e2 e3]
    ring
  · refine List.forall_mem_cons.2 ⟨fun a b c _ => sdpExpr_nonneg _ _ a b c, List.forall_mem_cons.2 ⟨fun a b c _ => cycp3_sq_nonneg a b c, fun t ht a b c _ => k2 t ht a b c⟩⟩
  · exact List.forall_mem_cons.2 ⟨Or.inr rfl, List.forall_mem_cons.2 ⟨Or.inl h0, fun t ht => Or.inl (k1 t ht)⟩⟩

theorem hexagonSdp_answer {X : SexticExt K} {f : Sextic K} (h6 : f.c600 = 0 ∧ f.c510 = 0 ∧ f.c501 = 0) (hr : 0 < f.poly111 → 0 ≤ f.sdpR) {C : Cert K}
    (h : hexagonSdp X f = .ok (some C)) : Answer f.poly C := by
  obtain ⟨hi, hw⟩ := hexagonSdp_ident h6 h
  obtain ⟨-, h0, h1, h2, h3, -⟩ := hexagonSdp_cases h
  refine ⟨hi.identity, hi.exprs, hi.den, hi.pos, fun hnn t ht => ?_⟩
  rcases hw t ht with h | h
  · exact h
  · rw [h]
    rcases h0.lt_or_eq with h0 | h0
    · exact hr h0
    · exact sdpR_nonneg h6 h1 h2 h3 (second_nonneg hnn h0.symm)

theorem firstOf_some {f : Sextic K} {C : Cert K} : ∀ {l : List (Sextic K → Except PyErr (Option (Cert K)))}, firstOf f l = .ok (some C) → ∃ s ∈ l, s f = .ok (some C)
  | [], h => by simp [firstOf] at h
  | s :: l, h => by
    unfold firstOf at h
    split at h
    · simp at h
    · rename_i D hD
      exact ⟨s, List.mem_cons_self, by rw [hD, ← h]⟩
    · obtain ⟨t, ht, h2⟩ := firstOf_some h
      exact ⟨t, List.mem_cons_of_mem _ ht, h2⟩

/-- What can be said about an answer of a solver of hexagons. -/
structure Partly (f : Sextic K) (C : Cert K) : Prop where
  ident : Ident f.poly C
  answer : (0 < f.poly111 → 0 ≤ f.sdpR) ∨ f.c600 ≠ 0 → Answer f.poly C

theorem Answer.partly {f : Sextic K} {C : Cert K} (h : Answer f.poly C) : Partly f C := ⟨h.ident, fun _ => h⟩

theorem hexagonSolve_partly {X : SexticExt K} (hX : X.Sound) {real : Bool} {f : Sextic K} {C : Cert K} (h : hexagonSolve X real f = .ok (some C)) : Partly f C := by
  unfold hexagonSolve at h
  split at h
  · simp at h
  rename_i h6
  rw [not_not] at h6
  split at h
  · rename_i hs
    exact (hX.hexagonSym f C h6 hs h).partly
  split at h
  · rename_i h4
    exact (hexagramSolve_holds hX ⟨h6.1, h6.2.1, h6.2.2, h4.1, h4.2⟩ h).answer.partly
  split at h
  · rename_i h4
    exact (rotatedTree_answer hX h6 h4.1 h4.2 h).partly
  obtain ⟨s, hs, h2⟩ := firstOf_some h
  have hs' : s = hexagonSdp X ∨ s = hexagonSdp2 ∨ s = hexagonToHexagram X := by
    split at hs
    · split at hs <;> simp at hs <;> tauto
    · simp at hs; tauto
  rcases hs' with rfl | rfl | rfl
  · refine ⟨(hexagonSdp_ident h6 h2).1, ?_⟩
    rintro (hr | hr)
    · exact hexagonSdp_answer h6 hr h2
    · exact absurd h6.1 hr
  · simp [hexagonSdp2] at h2
  · exact (hexagonToHexagram_holds hX h6 h2).answer.partly

/-! ### The full sextic -/

theorem fullQuad_sound {M : ℕ → ℕ → K} (hs1 : M 0 1 = M 1 0) (hs2 : M 0 2 = M 2 0) (hs3 : M 1 2 = M 2 1) {l : List (K × Val3 K)} (h : fullQuad M = .ok l) :
    (∀ t ∈ l, 0 ≤ t.1) ∧ (∀ t ∈ l, ∀ a b c, 0 ≤ t.2 a b c) ∧ ∀ a b c, (l.map fun t => t.1 * t.2 a b c).sum =
      M 0 0 * cyc3 (fun a b c => a ^ 3 - a * b * c) a b c ^ 2 +
        2 * M 0 1 * (cyc3 (fun a b c => a ^ 3 - a * b * c) a b c * cyc3 (fun a b c => a ^ 2 * b - a * b * c) a b c) +
        2 * M 0 2 * (cyc3 (fun a b c => a ^ 3 - a * b * c) a b c * cyc3 (fun a b c => a * b ^ 2 - a * b * c) a b c) +
        M 1 1 * cyc3 (fun a b c => a ^ 2 * b - a * b * c) a b c ^ 2 +
        2 * M 1 2 * (cyc3 (fun a b c => a ^ 2 * b - a * b * c) a b c * cyc3 (fun a b c => a * b ^ 2 - a * b * c) a b c) +
        M 2 2 * cyc3 (fun a b c => a * b ^ 2 - a * b * c) a b c ^ 2 := by
  unfold fullQuad at h
  split at h
  · simp at h
  · simp at h
  rename_i U S hc
  have hsym : ∀ r c, r < 3 → c < 3 → M r c = M c r := by
    intro r c hr hc
    have hr' : r = 0 ∨ r = 1 ∨ r = 2 := by omega
    have hc' : c = 0 ∨ c = 1 ∨ c = 2 := by omega
    rcases hr' with rfl | rfl | rfl <;> rcases hc' with rfl | rfl | rfl <;> first | rfl | assumption | (symm; assumption)
  obtain ⟨-, h2, h3⟩ := congruence_sound 3 M hsym U S hc
  rw [← Except.ok.inj h]
  refine ⟨?_, ?_, ?_⟩
  · each_mem
    · exact h3 0 (by norm_num)
    · exact h3 1 (by norm_num)
    · exact h3 2 (by norm_num)
  · each_mem <;> exact fun a b c => sq_nonneg _
  · intro a b c
    have hq := congruence_sum_of_squares 3 M hsym U S hc fun i => match i with
      | 0 => cyc3 (fun a b c => a ^ 3 - a * b * c) a b c
      | 1 => cyc3 (fun a b c => a ^ 2 * b - a * b * c) a b c
      | _ => cyc3 (fun a b c => a * b ^ 2 - a * b * c) a b c
    unfold quadForm at hq
    simp only [Finset.sum_range_succ, Finset.sum_range_zero, zero_add] at hq
    rw [h2 1 0 (by norm_num), h2 2 0 (by norm_num), h2 2 1 (by norm_num), ← hs1, ← hs2, ← hs3] at hq
    have e1 : ∀ p q r : K, cyc3 (fun a b c => p * (a ^ 3 - a * b * c) + q * (a ^ 2 * b - a * b * c) + r * (a * b ^ 2 - a * b * c)) a b c =
        p * cyc3 (fun a b c => a ^ 3 - a * b * c) a b c + q * cyc3 (fun a b c => a ^ 2 * b - a * b * c) a b c + r * cyc3 (fun a b c => a * b ^ 2 - a * b * c) a b c := by
      intro p q r
      simp only [cyc3]
      ring
    have e2 : ∀ q r : K, cyc3 (fun a b c => q * (a ^ 2 * b - a * b * c) + r * (a * b ^ 2 - a * b * c)) a b c =
        q * cyc3 (fun a b c => a ^ 2 * b - a * b * c) a b c + r * cyc3 (fun a b c => a * b ^ 2 - a * b * c) a b c := by
      intro q r
      simp only [cyc3]
      ring
    have e3 : ∀ r : K, cyc3 (fun a b c => r * (a * b ^ 2 - a * b * c)) a b c = r * cyc3 (fun a b c => a * b ^ 2 - a * b * c) a b c := by
      intro r
      simp only [cyc3]
      ring
    simp only [List.map_cons, List.map_nil, List.sum_cons, List.sum_nil, add_zero, e1, e2, e3]
    linear_combination -hq

theorem exMap_ok {α β : Type*} {g : α → β} {x : Except PyErr α} {y : β} (h : x.map g = .ok y) : ∃ z, x = .ok z ∧ y = g z := by
  cases x with
  | error e => simp [Except.map] at h
  | ok z => exact ⟨z, rfl, (Except.ok.inj h).symm⟩

theorem fullExpr_nonneg (u v x y a b c : K) : 0 ≤ fullExpr u v x y a b c := by
  simp only [fullExpr, cyc3]
  positivity

theorem fullZ_nonneg (x y : K) : 0 ≤ fullZ x y := by
  unfold fullZ
  nlinarith [sq_nonneg (2 * x + y - 3), sq_nonneg (y + 1)]

theorem fullPars_sound {X : SexticExt K} {f : Sextic K} {r : K} {u v : K → K → K} (h : fullPars X f = .ok (some (r, u, v))) (x y : K) (hz : fullZ x y ≠ 0) :
    (f.rest0 = r / fullZ x y * (6 * y - 6 * x + 6 * v x y * y + 6 * v x y * x - 6 * v x y + 6 * u x y * y + 6 * u x y + 18) ∧
    f.rest1 = -(r / fullZ x y) * (6 * y ^ 2 + 6 * x ^ 2 + 6 * x * y - 36 * x - 12 * v x y ^ 2 + 12 * v x y * y + 6 * v x y * x - 12 * u x y ^ 2 + 6 * u x y * y - 6 * u x y * x -
      12 * u x y * v x y - 18 * u x y + 18) ∧
    f.rest2 = -(r / fullZ x y) * (-12 * y ^ 2 - 12 * x ^ 2 - 12 * x * y + 18 * x + 6 * v x y ^ 2 + 12 * v x y * y + 6 * v x y * x + 6 * u x y ^ 2 + 6 * u x y * y - 6 * u x y * x +
      6 * u x y * v x y + 36 * u x y + 18)) ∧ (0 ≤ f.second → 0 ≤ r) := by
  have hsec : f.second = 3 * f.rest0 + f.rest1 + f.rest2 := by
    unfold Sextic.second Sextic.rest0 Sextic.rest1 Sextic.rest2
    ring
  unfold fullPars at h
  dsimp only at h
  split at h
  · rename_i h0
    split at h
    · simp at h
    rename_i hs
    have h' := Option.some.inj (Except.ok.inj h)
    obtain ⟨h'1, h'23⟩ := Prod.mk.inj h'
    obtain ⟨h'2, h'3⟩ := Prod.mk.inj h'23
    have hd : (f.rest1 / f.rest0 + 2 * (f.rest2 / f.rest0) + 9 / 2) ^ 2 + 27 / 4 ≠ 0 := by positivity
    obtain ⟨k1, k2, k3⟩ := full_pars1 (r1 := f.rest1 / f.rest0) (r2 := f.rest2 / f.rest0) rfl hd x y
    rw [← h'2, ← h'3]
    dsimp only
    have hd0 : 0 ≤ (f.rest1 / f.rest0 + 2 * (f.rest2 / f.rest0) + 9 / 2) ^ 2 + 27 / 4 := by positivity
    generalize hdd : (f.rest1 / f.rest0 + 2 * (f.rest2 / f.rest0) + 9 / 2) ^ 2 + 27 / 4 = d at *
    have hr1 : f.rest0 * (f.rest1 / f.rest0) = f.rest1 := mul_div_cancel₀ _ h0
    have hr2 : f.rest0 * (f.rest2 / f.rest0) = f.rest2 := mul_div_cancel₀ _ h0
    generalize f.rest1 / f.rest0 = r1 at *
    generalize f.rest2 / f.rest0 = r2 at *
    generalize ((2 * r1 ^ 2 + 5 * r1 * r2 + 9 * r1 + 2 * r2 ^ 2 + 9 * r2) * x + (2 * r1 ^ 2 + 5 * r1 * r2 + 18 * r1 + 2 * r2 ^ 2 + 18 * r2 + 27) * y +
        (-4 * r1 ^ 2 - 13 * r1 * r2 - 18 * r1 - 10 * r2 ^ 2 - 36 * r2 - 27)) / d = U at *
    generalize ((9 * r1 + 9 * r2 + 27) * x + (-2 * r1 ^ 2 - 5 * r1 * r2 - 9 * r1 - 2 * r2 ^ 2 - 9 * r2) * y + (-r1 ^ 2 - r1 * r2 - 18 * r1 + 2 * r2 ^ 2 - 9 * r2 - 27)) / d = V at *
    have hrr : r / fullZ x y * (54 * (r1 + r2 + 3) * fullZ x y) = f.rest0 * d := by
      rw [← h'1]
      field_simp
    refine ⟨⟨?_, ?_, ?_⟩, ?_⟩
    · apply mul_right_cancel₀ hd
      linear_combination -hrr - r / fullZ x y * k1
    · apply mul_right_cancel₀ hd
      rw [← hr1]
      linear_combination -r1 * hrr - r / fullZ x y * k2
    · apply mul_right_cancel₀ hd
      rw [← hr2]
      linear_combination -r2 * hrr - r / fullZ x y * k3
    · intro hsn
      have e : r = f.second * d / (54 * (r1 + r2 + 3) ^ 2) := by
        rw [← h'1, hsec, ← hr1, ← hr2]
        field_simp
        ring
      rw [e]
      positivity
  · split at h
    · rename_i h00 h0
      rw [not_not] at h00
      split at h
      · simp at h
      rename_i hs
      push Not at hs
      have h' := Option.some.inj (Except.ok.inj h)
      obtain ⟨h'1, h'23⟩ := Prod.mk.inj h'
      obtain ⟨h'2, h'3⟩ := Prod.mk.inj h'23
      obtain ⟨k1, k2, k3⟩ := full_pars2 (r1 := f.rest2 / f.rest1) rfl hs.2 x y
      rw [← h'2, ← h'3]
      dsimp only
      obtain ⟨hs1, hd⟩ := hs
      have hr2 : f.rest1 * (f.rest2 / f.rest1) = f.rest2 := mul_div_cancel₀ _ h0
      generalize f.rest2 / f.rest1 = r1 at *
      generalize 2 * r1 + 1 = d at *
      generalize ((r1 + 2) * x + (r1 + 2) * y + (-5 * r1 - 4)) / d = U at *
      generalize ((-r1 - 2) * y + (r1 - 1)) / d = V at *
      have hrr : r / fullZ x y * (54 * (r1 + 1) * fullZ x y) = f.rest1 * d ^ 2 := by
        rw [← h'1]
        field_simp
      have hd2 : d ^ 2 ≠ 0 := pow_ne_zero 2 hd
      refine ⟨⟨?_, ?_, ?_⟩, ?_⟩
      · rw [h00, k1, mul_zero]
      · apply mul_right_cancel₀ hd2
        linear_combination -hrr - r / fullZ x y * k2
      · apply mul_right_cancel₀ hd2
        rw [← hr2]
        linear_combination -r1 * hrr - r / fullZ x y * k3
      · intro hsn
        have e : r = f.second * d ^ 2 / (54 * (r1 + 1) ^ 2) := by
          rw [← h'1, hsec, h00, ← hr2]
          field_simp
          ring
        rw [e]
        positivity
    · simp at h

/-- **C84 (full sextic by a quadratic form).** -/
theorem fullSdp_answer {X : SexticExt K} {f : Sextic K} {C : Cert K} (h : fullSdp X f = .ok (some C)) : Answer f.poly C := by
  unfold fullSdp at h
  split at h
  · simp at h
  rename_i h0
  push Not at h0
  obtain ⟨-, h60, h0⟩ := h0
  split at h
  · rename_i hr
    obtain ⟨l, hl, hC⟩ := exMap_ok h
    rw [Option.some.inj hC]
    obtain ⟨k1, k2, k3⟩ := fullQuad_sound rfl rfl rfl hl
    refine (holds_plain ?_ k1 fun t ht a b c _ => k2 t ht a b c).answer
    intro a b c
    rw [k3, id_full f h0 0 0 0 0 0 (by rw [hr.1]; ring) (by rw [hr.2.1]; ring) (by rw [hr.2.2]; ring)]
    simp only [fullMat0]
    ring
  · split at h
    · simp at h
    · simp at h
    rename_i r u v hp
    split at h
    · simp at h
    rename_i x y hf
    split at h
    · simp at h
    rename_i hz
    obtain ⟨l, hl, hC⟩ := exMap_ok h
    rw [Option.some.inj hC]
    obtain ⟨k1, k2, k3⟩ := fullQuad_sound rfl rfl rfl hl
    obtain ⟨⟨e1, e2, e3⟩, hr⟩ := fullPars_sound hp x y hz
    refine ⟨?_, ?_, fun _ _ _ _ => zero_le_one, fun _ _ _ _ _ _ _ => zero_lt_one, ?_⟩
    · intro a b c
      simp only [Cert.num, Cert.plain, List.map_cons, List.sum_cons, k3, one_mul]
      rw [id_full f h0 _ _ _ _ _ e1 e2 e3]
      simp only [fullMat]
      have c1 : ∀ s t : K, (s * fullZ x y - r * t) / fullZ x y = s - r / fullZ x y * t := by intro s t; field_simp
      have c2 : ∀ s t : K, (s * fullZ x y - r * t / 2) / fullZ x y = s - r / fullZ x y * t / 2 := by intro s t; field_simp
      have c3 : ∀ s : K, (s * fullZ x y - 2 * r) / fullZ x y = s - 2 * (r / fullZ x y) := by intro s; field_simp
      rw [c1, c1, c1, c1, c2, c3]
    · exact List.forall_mem_cons.2 ⟨fun a b c _ => fullExpr_nonneg _ _ _ _ a b c, fun t ht a b c _ => k2 t ht a b c⟩
    · intro hnn
      exact List.forall_mem_cons.2 ⟨div_nonneg (hr (second_nonneg hnn h0)) (fullZ_nonneg x y), k1⟩

/-! ### The solver -/

/-- **C84.** The solver of cyclic ternary sextics: an answer is an identity for the polynomial, with expressions that are nonnegative on the octant, and a denominator that is positive at positive points that are
not all equal.  If the polynomial is nonnegative, all weights are nonnegative — except, for a hexagon that is positive at `a = b = c`, the untested weight `sdpR`. -/
theorem sexticSolve_partly {X : SexticExt K} (hX : X.Sound) {real : Bool} {f : Sextic K} {C : Cert K} (h : sexticSolve X real f = .ok (some C)) : Partly f C := by
  unfold sexticSolve at h
  split at h
  · rename_i hs
    exact (hX.ultimate f C hs h).partly
  split at h
  · exact hexagonSolve_partly hX h
  split at h
  · exact (fullSdp_answer h).partly
  · simp at h

end Verif.Ternary
