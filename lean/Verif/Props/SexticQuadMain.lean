import Verif.Props.SexticQuad
import Verif.Props.SepticSymmetric

/-!
# The solver for symmetric sextics on the axis

Every certificate of `_sos_struct_sextic_symmetric_quadratic_form` proves the polynomial; the solver may also return `nan`.
-/

namespace Verif.Ternary

open Verif Verif.Acute Verif.Univariate

variable {K : Type*} [Field K] [LinearOrder K] [IsStrictOrderedRing K]

/-! ### The bound that is tight on the border -/

/-- `F_{x,y} = (x-1)^2 s((a-b)(a-c)(a-ub)(a-uc)(a-vb)(a-vc)) + (x^2-xy+y^2-y)p(a-b)^2` with `u+v = s` and `uv = p`. -/
theorem axisF_border {x y : K} (hx : x ≠ 1) (a b c : K) :
    axisF x y a b c = (x - 1) ^ 2 * borderR ((2 - 2 * y) / (x - 1)) ((2 * x + y - 2) / (x - 1)) a b c + (x ^ 2 - x * y + y ^ 2 - y) * discV3 a b c := by
  have hd : x - 1 ≠ 0 := sub_ne_zero.2 hx
  obtain ⟨d, rfl⟩ : ∃ d, x = d + 1 := ⟨x - 1, by ring⟩
  have hd' : d ≠ 0 := by simpa using hd
  rw [add_sub_cancel_right]
  have e : d ^ 2 * borderR ((2 - 2 * y) / d) ((2 * (d + 1) + y - 2) / d) a b c =
      cyc3 (fun a b c => (a - b) * (a - c) * (d * a ^ 2 - d * ((2 - 2 * y) / d) * a * b + d * ((2 * (d + 1) + y - 2) / d) * b ^ 2)
        * (d * a ^ 2 - d * ((2 - 2 * y) / d) * a * c + d * ((2 * (d + 1) + y - 2) / d) * c ^ 2)) a b c := by
    simp only [borderR, cyc3]
    ring
  rw [e, mul_div_cancel₀ _ hd', mul_div_cancel₀ _ hd']
  simp only [axisF, discV3, cyc3, cycp3]
  ring

theorem bSol_sum (k s p m a b c : K) : ((bSol k s p m).map fun t => t.1 * t.2 a b c).sum =
    k * (1 / 2 * cyc3 (fun a b c => (a - b) ^ 2 * bG s p m a b c ^ 2) a b c + bPsi s p m * cyc3 (fun a b c => a * b * (a - b) ^ 2 * bH s p m a b c ^ 2) a b c) := by
  simp only [bSol, List.map_cons, List.map_nil, List.sum_cons, List.sum_nil]
  ring

theorem bSol_weights {k s p m : K} (hk : 0 ≤ k) (hp : 0 ≤ bPsi s p m) : ∀ t ∈ bSol k s p m, 0 ≤ t.1 := by
  intro t ht
  simp only [bSol, List.mem_cons, List.not_mem_nil, or_false] at ht
  rcases ht with rfl | rfl
  · dsimp only; positivity
  · exact mul_nonneg hk hp

theorem bSol_exprs {k s p m : K} : ∀ t ∈ bSol k s p m, ∀ a b c, Octant a b c → 0 ≤ t.2 a b c := by
  intro t ht a b c ⟨ha, hb, hc⟩
  simp only [bSol, List.mem_cons, List.not_mem_nil, or_false] at ht
  rcases ht with rfl | rfl <;> · dsimp only [cyc3]; positivity

theorem bValid_true {s p m : K} (h : bValid s p m = .ok true) : m ≠ 2 ∧ m + p - 2 ≠ 0 ∧ s - 2 * m - 1 ≠ 0 ∧ -1 ≤ bPhi s p m ∧ 0 ≤ bPsi s p m := by
  unfold bValid at h
  split at h
  · simp at h
  · rename_i hn
    push Not at hn
    have h' := of_decide_eq_true (Except.ok.inj h)
    unfold bDenom at hn
    refine ⟨hn.1, fun e => hn.2 (by rw [e]; ring), fun e => hn.2 (by rw [e]; ring), h'.1, ?_⟩
    unfold bPsi
    linarith [h'.2]

/-- The identity for one `m`, with the tail. -/
theorem bSol_identity {x y s p m : K} (hF : ∀ a b c, axisF x y a b c = (x - 1) ^ 2 * borderR s p a b c + (x ^ 2 - x * y + y ^ 2 - y) * discV3 a b c)
    (hv : bValid s p m = .ok true) (k a b c : K) :
    k * (quadV 1 (bPhi s p m) a b c * (axisF x y a b c + bKer x y s p m * discV3 a b c)) = ((bSol (k * (x - 1) ^ 2) s p m).map fun t => t.1 * t.2 a b c).sum +
      k * (x - 1) ^ 2 * (bFinal s p m * (p ^ 2 * (a * b + b * c + c * a) * discV3 a b c + (2 - m) * borderT s p a b c)) := by
  obtain ⟨h1, h2, h3, -, -⟩ := bValid_true hv
  have e := border_identity (border_fits h1 h2 h3) a b c
  rw [bSol_sum, hF]
  have eG : cyc3 (fun a b c => (a - b) ^ 2 * bG s p m a b c ^ 2) a b c = cyc3 (fun a b c => (a - b) ^ 2 * ((a ^ 2 - m * a * b + b ^ 2) * (a + b)
      + ((-m ^ 2 + (p + 1) * m - p * (s + 1) + 2) / (m + p - 2)) * c * (a ^ 2 + b ^ 2) + (((1 - 2 * p) * m ^ 2 + (p * (s + 1) - 1) * m + p - 2) / (m + p - 2)) * c ^ 2 * (a + b)
      + ((2 * (p + s) * m ^ 2 - (p * (s - 1) + (s + 2) ^ 2 - 2) * m + (p - 2) ^ 2 + 2 * s ^ 2) / (m + p - 2)) * a * b * c + (((2 * p - 1) * m - p * (s + 1) + 2) / (m + p - 2)) * c ^ 3) ^ 2) a b c := rfl
  rw [eG]
  unfold bKer bPsi quadV
  linear_combination k * (x - 1) ^ 2 * e

/-- What is known about SymPy's answers: the raw proof is a proof, a rational root is a root, and an interval is not empty. -/
structure QuadExt.Sound (X : QuadExt K) : Prop where
  prover : ProverSound X.prover
  roots : ∀ s p m, BRoot.rat m ∈ X.roots s p → bDet1 s p m = 0
  intervals : ∀ s p m, ∀ I ∈ X.intervals s p m, I.1 ≤ I.2

theorem axPick_some {x y s p ker : K} {b : BRoot K} : ∀ {l : List (BRoot K)}, axPick x y s p ker l = .ok (some b) →
    b ∈ l ∧ ∀ m, b = .rat m → bValid s p m = .ok true ∧ bKer x y s p m ≤ ker
  | [], h => by simp [axPick] at h
  | .rat m :: l, h => by
    unfold axPick at h
    split at h
    · simp at h
    · split at h
      · simp at h
      · rename_i v hv
        split at h
        · rename_i hc
          obtain rfl := Option.some.inj (Except.ok.inj h)
          refine ⟨List.mem_cons_self, fun m' h' => ?_⟩
          obtain rfl := BRoot.rat.inj h'
          exact ⟨by rw [hv, hc.1], hc.2⟩
        · obtain ⟨h1, h2⟩ := axPick_some h
          exact ⟨List.mem_cons_of_mem _ h1, h2⟩
  | .irr m :: l, h => by
    unfold axPick at h
    split at h
    · simp at h
    · split at h
      · obtain rfl := Option.some.inj (Except.ok.inj h)
        exact ⟨List.mem_cons_self, fun m' h' => by simp at h'⟩
      · obtain ⟨h1, h2⟩ := axPick_some h
        exact ⟨List.mem_cons_of_mem _ h1, h2⟩

theorem bDegen_sound {x y : K} (hx : x ≠ 1) (hp : 2 * x + y - 2 = 0) {u : K} (hu : u = (2 - 2 * y) / (x - 1)) (hu4 : u ≤ 4) (ker : K) :
    QOk (fun a b c => axisF x y a b c + ker * discV3 a b c) (bDegen x y u ker) := by
  intro C flg h
  unfold bDegen at h
  dsimp only at h
  split at h
  · simp at h
  · rename_i hex
    cases hM : quadratic 1 (-u / 4) with
    | none => simp [hM] at h
    | some M =>
      simp only [hM] at h
      obtain ⟨h1, -⟩ := Prod.mk.inj (Option.some.inj (Except.ok.inj h))
      obtain rfl := QSol.cert.inj h1
      have hpos : 0 ≤ 1 - u / 4 := by linarith
      have hd : x - 1 ≠ 0 := sub_ne_zero.2 hx
      have hG := axisF_border (y := y) hx
      rw [hp, zero_div, ← hu] at hG
      have base : Holds (fun a b c => quadV 1 (-u / 4) a b c * ((x - 1) ^ 2 * (borderR u 0 a b c + (3 * u - 5) * discV3 a b c))) (Cert.plain [
          ((x - 1) ^ 2 / 4, fun a b c => cyc3 (fun a b c => a * (a - b) * (a - c) * (2 * a - u * b - u * c)) a b c ^ 2),
          ((x - 1) ^ 2 * (1 - u / 4), cyc3 fun a b c => a * b * (a - b) ^ 2 * ((a - b) ^ 2 + (2 - u) * (a + b) * c - (3 - u) * c ^ 2) ^ 2),
          ((x - 1) ^ 2 * (1 - u / 4) / 2, cyc3 fun a b c => a ^ 2 * (b - c) ^ 2 * ((b + c - a) * (b + c - (u + 1) * a) - u * (a - c) * (a - b)) ^ 2)]) := by
        refine holds_plain (fun a b c => ?_) ?_ ?_
        · simp only [List.map_cons, List.map_nil, List.sum_cons, List.sum_nil, quadV, borderR, discV3, cyc3, cycp3]
          ring
        · intro t ht
          simp only [List.mem_cons, List.not_mem_nil, or_false] at ht
          rcases ht with rfl | rfl | rfl <;> · dsimp only; positivity
        · intro t ht a b c ⟨ha, hb, hc⟩
          simp only [List.mem_cons, List.not_mem_nil, or_false] at ht
          rcases ht with rfl | rfl | rfl <;> · dsimp only [cyc3]; positivity
      refine Holds.congr ((base.quot (quadratic_holds hM) fun a b c ha hb hc hn => quadratic_pos zero_le_one (by linarith) (.inl zero_lt_one) ha hb hc hn).add
        (not_lt.1 hex) fun a b c _ => disc3_nonneg a b c) fun a b c => ?_
      rw [hG]
      ring

/-- The weights of the combination are nonnegative, add up to one and cancel the tail. -/
theorem bWeights_spec {s p m1 m2 : K} (hm : m1 ≤ m2) (h2 : ¬ (m1 ≤ 2 ∧ 2 ≤ m2))
    (hs : ¬ ((bFinal s p m1 < 0 ∧ bFinal s p m2 < 0) ∨ (0 < bFinal s p m1 ∧ 0 < bFinal s p m2))) :
    0 ≤ (bWeights s p m1 m2).1 ∧ 0 ≤ (bWeights s p m1 m2).2 ∧ (bWeights s p m1 m2).1 + (bWeights s p m1 m2).2 = 1 ∧
      (bWeights s p m1 m2).1 * (bFinal s p m1 * (2 - m1)) + (bWeights s p m1 m2).2 * (bFinal s p m2 * (2 - m2)) = 0 := by
  unfold bWeights
  dsimp only
  generalize bFinal s p m1 = f1 at *
  generalize bFinal s p m2 = f2 at *
  split
  · rename_i hf
    push Not at hs
    have side : (0 < 2 - m1 ∧ 0 < 2 - m2) ∨ (2 - m1 < 0 ∧ 2 - m2 < 0) := by
      by_cases h : m1 ≤ 2
      · have : m2 < 2 := not_le.1 fun h' => h2 ⟨h, h'⟩
        exact .inl ⟨by linarith, by linarith⟩
      · exact .inr ⟨by linarith [not_le.1 h], by linarith [not_le.1 h]⟩
    have sign : (0 < f1 * (2 - m1) ∧ f2 * (2 - m2) ≤ 0) ∨ (f1 * (2 - m1) < 0 ∧ 0 ≤ f2 * (2 - m2)) := by
      rcases lt_or_gt_of_ne hf with h | h
      · have h' := hs.1 h
        rcases side with ⟨s1, s2⟩ | ⟨s1, s2⟩
        · exact .inr ⟨mul_neg_of_neg_of_pos h s1, mul_nonneg h' s2.le⟩
        · exact .inl ⟨mul_pos_of_neg_of_neg h s1, mul_nonpos_of_nonneg_of_nonpos h' s2.le⟩
      · have h' := hs.2 h
        rcases side with ⟨s1, s2⟩ | ⟨s1, s2⟩
        · exact .inl ⟨mul_pos h s1, mul_nonpos_of_nonpos_of_nonneg h' s2.le⟩
        · exact .inr ⟨mul_neg_of_pos_of_neg h s1, mul_nonneg_of_nonpos_of_nonpos h' s2.le⟩
    generalize f1 * (2 - m1) = w1 at *
    generalize f2 * (2 - m2) = w2 at *
    rcases sign with ⟨a1, a2⟩ | ⟨a1, a2⟩
    · have hne : w1 - w2 ≠ 0 := by intro e; linarith
      refine ⟨div_nonneg (by linarith) (by linarith), div_nonneg (by linarith) (by linarith), by field_simp; ring, by field_simp; ring⟩
    · have hne : w1 - w2 ≠ 0 := by intro e; linarith
      refine ⟨div_nonneg_of_nonpos (by linarith) (by linarith), div_nonneg_of_nonpos (by linarith) (by linarith), by field_simp; ring, by field_simp; ring⟩
  · rename_i hf
    have hf0 : f1 = 0 := not_not.1 hf
    exact ⟨zero_le_one, le_rfl, by ring, by rw [hf0]; ring⟩

theorem bCombine_sound {x y s p ker m1 m2 : K} (hF : ∀ a b c, axisF x y a b c = (x - 1) ^ 2 * borderR s p a b c + (x ^ 2 - x * y + y ^ 2 - y) * discV3 a b c)
    (hm : m1 ≤ m2) (h2 : ¬ (m1 ≤ 2 ∧ 2 ≤ m2)) (hs : ¬ ((bFinal s p m1 < 0 ∧ bFinal s p m2 < 0) ∨ (0 < bFinal s p m1 ∧ 0 < bFinal s p m2)))
    (hv1 : bValid s p m1 = .ok true) (hv2 : bValid s p m2 = .ok true) : QOk (fun a b c => axisF x y a b c + ker * discV3 a b c) (bCombine x y s p ker m1 m2) := by
  intro C flg h
  obtain ⟨w1, w2, w3, w4⟩ := bWeights_spec hm h2 hs
  have i1 := bSol_identity hF hv1
  have i2 := bSol_identity hF hv2
  obtain ⟨-, -, -, -, q1⟩ := bValid_true hv1
  obtain ⟨-, -, -, -, q2⟩ := bValid_true hv2
  unfold bCombine at h
  dsimp only at h
  generalize bWeights s p m1 m2 = W at *
  split at h
  · rename_i hc
    split at h
    · rename_i Q M hQ hM
      obtain ⟨h1, -⟩ := Prod.mk.inj (Option.some.inj (Except.ok.inj h))
      obtain rfl := QSol.cert.inj h1
      have base : Holds (fun a b c => ((bSol (W.1 * (x - 1) ^ 2) s p m1 ++ bSol (W.2 * (x - 1) ^ 2) s p m2).map fun t => t.1 * t.2 a b c).sum)
          (Cert.plain (bSol (W.1 * (x - 1) ^ 2) s p m1 ++ bSol (W.2 * (x - 1) ^ 2) s p m2)) := by
        refine holds_plain (fun _ _ _ => rfl) (fun t ht => ?_) fun t ht => ?_
        · rcases List.mem_append.1 ht with h | h
          · exact bSol_weights (mul_nonneg w1 (sq_nonneg _)) q1 t h
          · exact bSol_weights (mul_nonneg w2 (sq_nonneg _)) q2 t h
        · rcases List.mem_append.1 ht with h | h
          · exact bSol_exprs t h
          · exact bSol_exprs t h
      refine Holds.quot (g := quadV 1 (bPhi s p m1 * W.1 + bPhi s p m2 * W.2)) (Holds.congr (base.plus ((quadratic_holds hQ).times fun a b c _ => disc3_nonneg a b c)) fun a b c => ?_)
        (quadratic_holds hM) fun a b c ha hb hc' hn => quadratic_pos zero_le_one (by linarith [hc.1]) (.inl zero_lt_one) ha hb hc' hn
      have e1 := i1 W.1 a b c
      have e2 := i2 W.2 a b c
      rw [List.map_append, List.sum_append]
      simp only [quadV] at e1 e2 ⊢
      linear_combination -e1 - e2 - (x - 1) ^ 2 * borderT s p a b c * w4 + ((a ^ 2 + b ^ 2 + c ^ 2) * axisF x y a b c) * w3
    · simp at h
  · simp at h

theorem bRound_sound {x y s p ker : K} (hF : ∀ a b c, axisF x y a b c = (x - 1) ^ 2 * borderR s p a b c + (x ^ 2 - x * y + y ^ 2 - y) * discV3 a b c) :
    ∀ {l : List (K × K)}, (∀ I ∈ l, I.1 ≤ I.2) → QOk (fun a b c => axisF x y a b c + ker * discV3 a b c) (bRound x y s p ker l)
  | [], _ => fun C flg h => by simp [bRound] at h
  | (m1, m2) :: l, hl => by
    have ih := bRound_sound (ker := ker) hF fun I hI => hl I (List.mem_cons_of_mem _ hI)
    intro C flg h
    unfold bRound at h
    split at h
    · exact ih C flg h
    · rename_i h2
      split at h
      · simp at h
      · exact ih C flg h
      · rename_i hv1
        split at h
        · simp at h
        · exact ih C flg h
        · rename_i hv2
          split at h
          · exact ih C flg h
          · rename_i hs
            have hcomb := bCombine_sound (ker := ker) hF (hl _ List.mem_cons_self) h2 hs hv1 hv2
            split at h
            · simp at h
            · rename_i S hS
              exact hcomb C flg (by rw [hS]; exact h)
            · exact ih C flg h

theorem qBorder_sound {X : QuadExt K} (hX : X.Sound) (x y ker : K) : QOk (fun a b c => axisF x y a b c + ker * discV3 a b c) (qBorder X x y ker) := by
  intro C flg h
  unfold qBorder at h
  split at h
  · simp at h
  · rename_i hx
    have hd : x - 1 ≠ 0 := sub_ne_zero.2 hx
    dsimp only at h
    have hF := axisF_border (y := y) hx
    split at h
    · rename_i hp
      have hp0 : 2 * x + y - 2 = 0 := by
        rcases div_eq_zero_iff.1 hp.1 with h | h
        · exact h
        · exact absurd h hd
      exact bDegen_sound hx hp0 rfl hp.2 ker C flg h
    · split at h
      · simp at h
      · simp at h
      · rename_i m hm
        obtain ⟨hmem, hm'⟩ := axPick_some hm
        obtain ⟨hv, hk⟩ := hm' m rfl
        have hdet := hX.roots _ _ _ hmem
        have hfin : bFinal ((2 - 2 * y) / (x - 1)) ((2 * x + y - 2) / (x - 1)) m = 0 := by
          unfold bFinal
          rw [hdet]
          simp
        obtain ⟨-, -, -, hphi, hpsi⟩ := bValid_true hv
        cases hM : quadratic 1 (bPhi ((2 - 2 * y) / (x - 1)) ((2 * x + y - 2) / (x - 1)) m) with
        | none => simp [hM] at h
        | some M =>
          simp only [hM] at h
          obtain ⟨h1, -⟩ := Prod.mk.inj (Option.some.inj (Except.ok.inj h))
          obtain rfl := QSol.cert.inj h1
          have base : Holds (fun a b c => quadV 1 (bPhi ((2 - 2 * y) / (x - 1)) ((2 * x + y - 2) / (x - 1)) m) a b c *
              (axisF x y a b c + bKer x y ((2 - 2 * y) / (x - 1)) ((2 * x + y - 2) / (x - 1)) m * discV3 a b c))
              (Cert.plain (bSol ((x - 1) ^ 2) ((2 - 2 * y) / (x - 1)) ((2 * x + y - 2) / (x - 1)) m)) := by
            refine holds_plain (fun a b c => ?_) (bSol_weights (sq_nonneg _) hpsi) bSol_exprs
            have e := bSol_identity hF hv 1 a b c
            rw [hfin, one_mul, one_mul] at e
            rw [e]
            ring
          refine Holds.congr ((base.quot (quadratic_holds hM) fun a b c ha hb hc hn => quadratic_pos zero_le_one (by linarith) (.inl zero_lt_one) ha hb hc hn).add
            (sub_nonneg.2 hk) fun a b c _ => disc3_nonneg a b c) fun a b c => ?_
          ring
      · exact bRound_sound hF (hX.intervals _ _ _) C flg h

/-! ### The solver -/

theorem qLoop_sound {f : Val3 K} : ∀ {l : List (Unit → QRes K)} {acc : Option (QSol K)}, (∀ C, acc = some (.cert C) → Holds f C) → (∀ F ∈ l, QOk f (F ())) →
    ∀ C, qLoop acc l = .ok (some (.cert C)) → Holds f C
  | [], acc, ha, _, C, h => ha C (Except.ok.inj h)
  | F :: l, acc, ha, hl, C, h => by
    have hF := hl F List.mem_cons_self
    have ih := fun {acc} ha => qLoop_sound (l := l) (acc := acc) ha fun G hG => hl G (List.mem_cons_of_mem _ hG)
    unfold qLoop at h
    split at h
    · simp at h
    · exact ih ha C h
    · rename_i s hs
      obtain rfl := Option.some.inj (Except.ok.inj h)
      exact hF C true hs
    · rename_i s hs
      refine ih (fun D hD => ?_) C h
      cases acc with
      | none =>
        have : s = .cert D := by simpa using hD
        exact hF D false (by rw [hs, this])
      | some v => exact ha D (by simpa using hD)

/-- **Every certificate of `_sextic_sym_axis.solve` proves the polynomial with the given parameters.** -/
theorem qSolve_sound {X : QuadExt K} (hX : X.Sound) {co x y ker t rem : K} {r : Option K} (hco : 0 ≤ co) (ht : 0 ≤ t) (hrem : 0 ≤ rem) {C : Cert K}
    (h : qSolve X co x y ker t rem r = .ok (some (.cert C))) : Holds (fun a b c => co * axisF x y a b c + axisRem t rem r a b c + ker * discV3 a b c) C := by
  unfold qSolve at h
  split at h
  · simp at h
  · rename_i hne
    have hpos : 0 < co := lt_of_le_of_ne hco (Ne.symm hne)
    split at h
    · simp at h
    · rename_i z _
      refine qLoop_sound (f := fun a b c => co * axisF x y a b c + axisRem t rem r a b c + ker * discV3 a b c) (by simp) ?_ C h
      intro F hF
      simp only [List.mem_cons, List.not_mem_nil, or_false] at hF
      rcases hF with rfl | rfl | rfl | rfl | rfl | rfl | rfl | rfl
      · exact wrapFlat_sound (qSquare_sound x y _) hpos ht hrem
      · exact wrapFlat_sound (qTrivial_sound x y _) hpos ht hrem
      · exact wrapLift_sound (qRegular_fits x y) hco ht hrem
      · cases hL : qSos2 false x y with
        | error e => intro C flg h; simp [hL] at h
        | ok L =>
          simp only [hL]
          exact wrapLift_sound (qSos2_fits hL) hco ht hrem
      · cases hL : qSos2 true x y with
        | error e => intro C flg h; simp [hL] at h
        | ok L =>
          simp only [hL]
          exact wrapLift_sound (qSos2_fits hL) hco ht hrem
      · cases hL : qAlternative x y z with
        | none => intro C flg h; simp [hL] at h
        | some L =>
          simp only [hL]
          exact wrapLift_sound (qAlternative_fits hL) hco ht hrem
      · cases hL : qAlternative x y (-x - 1) with
        | none => intro C flg h; simp [hL] at h
        | some L =>
          simp only [hL]
          exact wrapLift_sound (qAlternative_fits hL) hco ht hrem
      · exact wrapFlat_sound (qBorder_sound hX x y _) hpos ht hrem

theorem uev_axisPoly (f : Sextic K) (z : K) : uev f.axisPoly z = f.poly z 1 1 := by
  simp only [Sextic.axisPoly, Sextic.poly, uev]
  ring

/-- The two coefficients of the form whose square is `remV r`. -/
def remCo : Option K → K × K
  | some r => (1, r)
  | none => (0, 1)

theorem remV_co (r : Option K) (a b c : K) : remV r a b c = ((remCo r).1 * (a ^ 2 + b ^ 2 + c ^ 2) + (remCo r).2 * (a * b + b * c + c * a)) ^ 2 := by
  cases r <;> · simp only [remV, remCo, cyc3]; ring

theorem axisVal_co (t s x y rem : K) (r : Option K) (z : K) : axisVal t s x y rem r z =
    t * (z - 1) ^ 4 + s * ((x - 1) * z ^ 2 - (2 - 2 * y) * z + (2 * x + y - 2)) ^ 2 + rem * ((remCo r).1 * (z ^ 2 + 2) + (remCo r).2 * (2 * z + 1)) ^ 2 := by
  cases r <;> · simp only [axisVal, remCo]; ring

theorem quadKer_co (f : Sextic K) (t co x y rem : K) (r : Option K) : quadKer f t co x y rem r =
    f.c420 - (-(3 / 4) * t + co * (3 * x ^ 2 - 2 * x * y - 2 * x + y ^ 2)) - rem * ((remCo r).2 ^ 2 - 2 * ((remCo r).1 * (remCo r).2) + 3 * (remCo r).1 ^ 2) := by
  cases r <;> · simp only [quadKer, remCo]; ring

/-- A symmetric sextic is determined by its values on the axis and the coefficient of `a^4 b^2`. -/
theorem axis_decompose {f : Sextic K} (hf : f.Symm) {t co x y rem : K} {r : Option K} (h : ∀ z, f.poly z 1 1 = (z - 1) ^ 2 * axisVal t co x y rem r z) (a b c : K) :
    f.poly a b c = co * axisF x y a b c + axisRem t rem r a b c + quadKer f t co x y rem r * discV3 a b c := by
  have h0 := h 0
  have h1 := h 1
  have h2 := h (-1)
  have h3 := h 2
  have h4 := h (-2)
  have h5 := h 3
  have h6 := h (-3)
  simp only [axisVal_co, Sextic.poly, hf.c501, hf.c402, hf.c312] at h0 h1 h2 h3 h4 h5 h6
  rw [quadKer_co]
  simp only [axisRem, remV_co]
  generalize (remCo r).1 = al at *
  generalize (remCo r).2 = be at *
  have k0 : f.c600 = t + co * (x - 1) ^ 2 + rem * al ^ 2 := by linear_combination (-1/36) * h0 + (1/48) * h1 + (1/48) * h2 + (-1/120) * h3 + (-1/120) * h4 + (1/720) * h5 + (1/720) * h6
  have k1 : f.c510 = -3 * t + co * (-x ^ 2 + 2 * x * y - 2 * y + 1) + rem * (2 * al * be - al ^ 2) := by linear_combination (1/96) * h1 + (-1/96) * h2 + (-1/120) * h3 + (1/120) * h4 + (1/480) * h5 + (-1/480) * h6
  have k2 : f.c411 = 15 * t + co * (5 * x ^ 2 - 6 * x * y - 2 * x + 4 * y ^ 2 - 2 * y + 1) + rem * (4 * be ^ 2 - 6 * al * be + 5 * al ^ 2) - 2 * f.c420 := by linear_combination (7/18) * h0 + (-13/48) * h1 + (-13/48) * h2 + (1/12) * h3 + (1/12) * h4 + (-1/144) * h5 + (-1/144) * h6
  have k3 : f.c330 = 5 * t + co * (4 * x ^ 2 - 4 * x - y ^ 2 + 2 * y ^ 2) + rem * (be ^ 2 + 4 * al ^ 2) - 2 * f.c420 := by linear_combination (7/18) * h0 + (-37/48) * h1 + (11/48) * h2 + (7/30) * h3 + (-1/15) * h4 + (-17/720) * h5 + (7/720) * h6
  have k4 : f.c321 = -15 * t + co * (-8 * x ^ 2 + 4 * x * y + 6 * x - 3 * y ^ 2 + 2 * y - 2) + rem * (-3 * be ^ 2 + 4 * al * be - 8 * al ^ 2) + 2 * f.c420 := by linear_combination (-7/18) * h0 + (61/96) * h1 + (-3/32) * h2 + (-3/20) * h3 + (-1/60) * h4 + (19/1440) * h5 + (1/1440) * h6
  have k5 : f.c222 = 45 * t + co * (24 * x ^ 2 - 18 * x * y - 12 * x + 3 * y ^ 2 + 6 * y) + rem * (3 * be ^ 2 - 18 * al * be + 24 * al ^ 2) - 6 * f.c420 := by linear_combination (-7/12) * h0 + (-25/48) * h1 + (15/16) * h2 + (9/40) * h3 + (-1/24) * h4 + (-1/48) * h5 + (1/240) * h6
  simp only [Sextic.poly, hf.c501, hf.c402, hf.c312, k0, k1, k2, k3, k4, k5, axisF, discV3, axV3, cyc3, cycp3]
  ring

/-- **Every certificate of `_sos_struct_sextic_symmetric_quadratic_form` proves the polynomial.** -/
theorem sxQuad_sound {X : QuadExt K} (hX : X.Sound) {f : Sextic K} (hf : f.Symm) {C : Cert K} (h : sxQuad X f = .ok (some (.cert C))) : Holds f.poly C := by
  unfold sxQuad at h
  dsimp only at h
  split at h
  · rename_i hd
    have hspec := restructure_spec hX.prover (p := (divOne (divOne f.axisPoly).1).1) (degLe_divOne (degLe_divOne (degLe_of_length (n := 6) (by simp [Sextic.axisPoly]))))
    split at h
    · simp at h
    · simp at h
    · simp at h
    · rename_i t co x y rem r hr
      obtain ⟨ht, hco, hrem, hz⟩ := hspec.2 t co x y rem r hr
      refine (qSolve_sound hX hco ht hrem h).congr fun a b c => (axis_decompose hf (fun z => ?_) a b c).symm
      rw [← hz z, ← uev_axisPoly, divOne_spec, divOne_spec z (divOne f.axisPoly).1, hd.1, hd.2]
      ring
  · simp at h

/-- So the polynomial is nonnegative for nonnegative variables. -/
theorem sxQuad_nonneg {X : QuadExt K} (hX : X.Sound) {f : Sextic K} (hf : f.Symm) {C : Cert K} (h : sxQuad X f = .ok (some (.cert C))) {a b c : K}
    (ha : 0 < a) (hb : 0 < b) (hc : 0 < c) (hn : ¬ (a = b ∧ b = c)) : 0 ≤ f.poly a b c := (sxQuad_sound hX hf h).nonneg ha hb hc hn

end Verif.Ternary
