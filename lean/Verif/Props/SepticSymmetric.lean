import Verif.Props.TernarySeptic
import Verif.Props.UnivariateInterval
import Verif.Proofs.SepticSymB1
import Verif.Proofs.SepticSymB2
import Verif.Proofs.Closure

/-!
# What the symmetric ternary septic solver guarantees
-/

set_option linter.unusedSectionVars false

namespace Verif.Ternary

open Verif Verif.TermsPoly Verif.Acute Verif.Dense Verif.Univariate

variable {K : Type*} [Field K] [LinearOrder K] [IsStrictOrderedRing K]

/-- A cyclic sum of expressions that are visibly nonnegative on the octant. -/
macro "oct_pos" : tactic => `(tactic| ((try dsimp only); refine oct_cyc ?_ _ _ _ (by assumption); rintro a b c ⟨ha, hb, hc⟩; positivity))

/-! ### Combining answers -/

theorem Holds.smul {f : Val3 K} {C : Cert K} (h : Holds f C) {w : K} (hw : 0 ≤ w) : Holds (fun a b c => w * f a b c) (C.smul w) := ⟨h.1.smul hw, h.2⟩

theorem Holds.plus {f g : Val3 K} {C E : Cert K} (h : Holds f C) (h' : Holds g E) : Holds (fun a b c => f a b c + g a b c) (C.plus E) :=
  ⟨h.1.plus h'.1, fun a b c ha hb hc hn => mul_pos (h.2 a b c ha hb hc hn) (h'.2 a b c ha hb hc hn)⟩

theorem Holds.nonneg {f : Val3 K} {C : Cert K} (h : Holds f C) {a b c : K} (ha : 0 < a) (hb : 0 < b) (hc : 0 < c) (hn : ¬ (a = b ∧ b = c)) : 0 ≤ f a b c :=
  h.1.nonneg ⟨ha.le, hb.le, hc.le⟩ (h.2 a b c ha hb hc hn).ne'

/-- `solution1 / solution2` proves the quotient, when the second polynomial is positive at positive points that are not all equal. -/
theorem Holds.quot {f g : Val3 K} {C E : Cert K} (h : Holds (fun a b c => g a b c * f a b c) C) (h' : Holds g E)
    (hg : ∀ a b c, 0 < a → 0 < b → 0 < c → ¬ (a = b ∧ b = c) → 0 < g a b c) : Holds f (C.quot E) := by
  have hnum : ∀ a b c, (C.quot E).num a b c = C.num a b c * E.den a b c := by
    intro a b c
    unfold Cert.num Cert.quot
    simp only [List.map_map, ← List.sum_map_mul_right]
    congr 1
    apply List.map_congr_left
    intro t _
    simp only [Function.comp]
    ring
  have hden : ∀ a b c, (C.quot E).den a b c = C.den a b c * (E.den a b c * g a b c) := by
    intro a b c
    rw [← h'.1.identity]
    rfl
  refine ⟨⟨?_, ?_, ?_, ?_⟩, ?_⟩
  · intro a b c
    rw [hnum, hden, h.1.identity]
    ring
  · intro t ht
    obtain ⟨s, hs, rfl⟩ := List.mem_map.1 ht
    exact h.1.weights s hs
  · intro t ht a b c ho
    obtain ⟨s, hs, rfl⟩ := List.mem_map.1 ht
    exact mul_nonneg (h.1.exprs s hs a b c ho) (h'.1.den a b c ho)
  · intro a b c ho
    rw [hden, ← h'.1.identity]
    refine mul_nonneg (h.1.den a b c ho) (List.sum_nonneg ?_)
    intro x hx
    obtain ⟨t, ht, rfl⟩ := List.mem_map.1 hx
    exact mul_nonneg (h'.1.weights t ht) (h'.1.exprs t ht a b c ho)
  · intro a b c ha hb hc hn
    rw [hden]
    exact mul_pos (h.2 a b c ha hb hc hn) (mul_pos (h'.2 a b c ha hb hc hn) (hg a b c ha hb hc hn))

/-- A list of terms over a denominator. -/
theorem holds_mk {f : Val3 K} {l : List (K × Val3 K)} {d : Val3 K} (hid : ∀ a b c, (l.map fun t => t.1 * t.2 a b c).sum = d a b c * f a b c)
    (hw : ∀ t ∈ l, 0 ≤ t.1) (he : ∀ t ∈ l, ∀ a b c, Octant a b c → 0 ≤ t.2 a b c) (hd : ∀ a b c, Octant a b c → 0 ≤ d a b c)
    (hp : ∀ a b c, 0 < a → 0 < b → 0 < c → ¬ (a = b ∧ b = c) → 0 < d a b c) : Holds f ⟨l, d⟩ := ⟨⟨hid, hw, he, hd⟩, hp⟩

theorem holds_plain {f : Val3 K} {l : List (K × Val3 K)} (hid : ∀ a b c, (l.map fun t => t.1 * t.2 a b c).sum = f a b c)
    (hw : ∀ t ∈ l, 0 ≤ t.1) (he : ∀ t ∈ l, ∀ a b c, Octant a b c → 0 ≤ t.2 a b c) : Holds f (Cert.plain l) :=
  ⟨plain_shows hid hw he, fun _ _ _ _ _ _ _ => zero_lt_one⟩

theorem schur3_holds {C : Cert K} (h : schur 3 = some C) : Holds (cyc3 fun a b c => a * (a - b) * (a - c)) C := by
  have h3 := schur3_sound h
  refine Holds.congr ⟨shows_of_proves h3, fun a b c ha hb hc _ => h3.pos a b c ⟨ha.le, hb.le, hc.le⟩ fun h0 => ha.ne' h0.1⟩ ?_
  intro a b c
  unfold schurPoly cyc3
  ring

theorem schur3_pos {a b c : K} (ha : 0 < a) (hb : 0 < b) (hc : 0 < c) (hn : ¬ (a = b ∧ b = c)) : 0 < cyc3 (fun a b c => a * (a - b) * (a - c)) a b c := by
  have hs : 0 < a + b + c := by positivity
  have e : 2 * (a + b + c) * cyc3 (fun a b c => a * (a - b) * (a - c)) a b c =
      cyc3 (fun a b c => (a - b) ^ 2 * (a + b - c) ^ 2) a b c + 2 * cyc3 (fun a b _ => a * b * (a - b) ^ 2) a b c := by
    unfold cyc3
    ring
  have h1 : 0 ≤ cyc3 (fun a b c => (a - b) ^ 2 * (a + b - c) ^ 2) a b c := by
    unfold cyc3
    positivity
  have h2 : 0 < cyc3 (fun a b _ => a * b * (a - b) ^ 2) a b c := by
    by_cases hab : a = b
    · have hbc : b - c ≠ 0 := fun h => hn ⟨hab, by linarith⟩
      unfold cyc3
      have := mul_pos (mul_pos hb hc) (pow_pos (abs_pos.2 hbc) 2)
      rw [sq_abs] at this
      have h3 : 0 ≤ a * b * (a - b) ^ 2 := by positivity
      have h4 : 0 ≤ c * a * (c - a) ^ 2 := by positivity
      linarith
    · have hab' : a - b ≠ 0 := sub_ne_zero.2 hab
      unfold cyc3
      have := mul_pos (mul_pos ha hb) (pow_pos (abs_pos.2 hab') 2)
      rw [sq_abs] at this
      have h3 : 0 ≤ b * c * (b - c) ^ 2 := by positivity
      have h4 : 0 ≤ c * a * (c - a) ^ 2 := by positivity
      linarith
  by_contra hcon
  push Not at hcon
  nlinarith [mul_nonneg (mul_nonneg zero_le_two hs.le) (neg_nonneg.2 hcon)]

/-! ### The families `F` and `G` -/

/-- What the solvers of `F_{x,y}` and `G_{x,y}` promise: `f + k s(a) p(a-b)^2` equals the answer. -/
def AxisOk (f : Septic K) (r : Cert K × K) : Prop := Holds (fun a b c => f.poly a b c + r.2 * kSep.poly a b c) r.1

theorem sumA_posIn (a b c : K) (ha : 0 < a) (hb : 0 < b) (hc : 0 < c) (_ : ¬ (a = b ∧ b = c)) : 0 < sumA a b c := by
  simp only [sumA, cyc3]
  positivity

theorem discV3_nonneg (a b c : K) : 0 ≤ discV3 a b c := by
  simp only [discV3, cycp3]
  positivity

theorem fSquare_ok (x y : K) : ∃ r, fSquare x y = .ok r ∧ ∀ p, r = some p → AxisOk (fSep x y) p := by
  unfold fSquare
  split
  · rename_i hxy
    refine ⟨_, rfl, ?_⟩
    intro p hp
    rw [← Option.some.inj hp]
    refine holds_plain ?_ ?_ ?_
    · intro a b c
      simp only [List.map_cons, List.map_nil, List.sum_cons, List.sum_nil, add_zero]
      exact id_square hxy a b c
    · intro t ht
      simp only [List.mem_cons, List.not_mem_nil, or_false] at ht
      rw [ht]
      norm_num
    · intro t ht a b c ho
      obtain ⟨ha, hb, hc⟩ := ho
      simp only [List.mem_cons, List.not_mem_nil, or_false] at ht
      rw [ht]
      simp only [cyc3]
      positivity
  · exact ⟨_, rfl, fun p hp => absurd hp (by simp)⟩

theorem sosRem_weight (c1 c2 : K) : 0 ≤ (sosRem c1 c2).2.1 := by
  unfold sosRem
  split
  · rename_i h
    exact div_nonneg (by linarith) (by norm_num)
  · rename_i h
    push Not at h
    change 0 ≤ c2 - 2 * c1
    linarith

theorem sosRem_expr (c1 c2 a b c : K) (ho : Octant a b c) : 0 ≤ (sosRem c1 c2).2.2 a b c := by
  obtain ⟨ha, hb, hc⟩ := ho
  unfold sosRem
  split
  · simp only [cyc3]
    positivity
  · simp only [cyc3]
    positivity

theorem fSos_ok (second : Bool) (x y : K) : ∃ r, fSos second x y = .ok r ∧ ∀ p, r = some p → AxisOk (fSep x y) p := by
  unfold fSos
  split
  · exact ⟨_, rfl, fun p hp => absurd hp (by simp)⟩
  refine ⟨_, rfl, ?_⟩
  intro p hp
  rw [← Option.some.inj hp]
  generalize (if second = true then -x ^ 2 / (6 * (x - 1)) else 2 - y) = z
  refine holds_mk ?_ ?_ ?_ (fun a b c ho => sumA_nonneg ho) sumA_posIn
  · intro a b c
    simp only [List.map_cons, List.map_nil, List.sum_cons, List.sum_nil, add_zero, one_mul]
    have h1 := id_fsos x y z a b c
    have h2 := sosRem_eq (-x ^ 2 / 3 - 2 * x * z + 2 * z) (-2 * x ^ 2 / 3 + 2 * x * z - 2 * y * z - z ^ 2 + 2 * z) a b c
    have h3 : sumA a b c = a + b + c := rfl
    rw [kSep_poly, h3]
    generalize sosRem (-x ^ 2 / 3 - 2 * x * z + 2 * z) (-2 * x ^ 2 / 3 + 2 * x * z - 2 * y * z - z ^ 2 + 2 * z) = R at h2 ⊢
    generalize cyc3 _ a b c = e1 at h1 ⊢
    generalize cyc3 _ a b c = e2 at h1 ⊢
    linear_combination h1 + discV3 a b c * h2
  · intro t ht
    simp only [List.mem_cons, List.not_mem_nil, or_false] at ht
    rcases ht with rfl | rfl | rfl
    · norm_num
    · exact zero_le_one
    · exact sosRem_weight _ _
  · intro t ht a b c ho
    simp only [List.mem_cons, List.not_mem_nil, or_false] at ht
    rcases ht with rfl | rfl | rfl
    · oct_pos
    · oct_pos
    · exact mul_nonneg (sosRem_expr _ _ a b c ho) (discV3_nonneg a b c)

theorem fBorderLast_ok (x y : K) : ∃ r, fBorderLast x y = .ok r ∧ ∀ p, r = some p → AxisOk (fSep x y) p := by
  unfold fBorderLast
  dsimp only
  split
  · rename_i hx
    obtain ⟨hx, hdet⟩ := hx
    have hv : x - 1 ≠ 0 := sub_ne_zero.2 hx
    split
    · rename_i hu
      have hy : y = 2 * ((2 * x + y - 3) / (2 * (x - 1))) * (x - 1) - 2 * x + 3 := by
        field_simp
        ring
      generalize (2 * x + y - 3) / (2 * (x - 1)) = u at hu hy ⊢
      obtain ⟨hu0, hu1⟩ := hu
      obtain ⟨r, hr, hsound⟩ := cubicSymmetric_sound (f := (⟨1, u - 1, u - 1, 3 - 6 * u⟩ : Cubic K)) rfl
      rw [hr]
      cases r with
      | none =>
        exfalso
        unfold cubicSymmetric at hr
        dsimp only at hr
        split at hr
        · simp at hr
        · split at hr
          · simp only [schur] at hr
            simp at hr
          · rename_i _ h2
            exact h2 ⟨zero_le_one, by linarith, by linarith⟩
      | some M =>
        dsimp only
        refine ⟨_, rfl, ?_⟩
        intro p hp
        rw [← Option.some.inj hp]
        have hM := (hsound M rfl).1
        refine Holds.quot (g := (⟨1, u - 1, u - 1, 3 - 6 * u⟩ : Cubic K).poly) (holds_plain ?_ ?_ ?_)
          ⟨shows_of_proves hM, fun a b c ha hb hc _ => hM.pos a b c ⟨ha.le, hb.le, hc.le⟩ fun h0 => ha.ne' h0.1⟩ ?_
        · intro a b c
          simp only [List.map_cons, List.map_nil, List.sum_cons, List.sum_nil, add_zero]
          have h2 := id_border2 hy a b c
          have hd : (6 * x + 3 * y - 8) * (6 * x ^ 2 + 9 * x * y - 20 * x + 3 * y ^ 2 - 15 * y + 17) / (x - 1) * (x - 1) =
              (6 * x + 3 * y - 8) * (6 * x ^ 2 + 9 * x * y - 20 * x + 3 * y ^ 2 - 15 * y + 17) := div_mul_cancel₀ _ hv
          apply mul_left_cancel₀ hv
          unfold Cubic.poly
          generalize (6 * x + 3 * y - 8) * (6 * x ^ 2 + 9 * x * y - 20 * x + 3 * y ^ 2 - 15 * y + 17) / (x - 1) = D at hd ⊢
          generalize (fSep x y).poly a b c = F at h2 ⊢
          generalize kSep.poly a b c = k at h2 ⊢
          generalize discV3 a b c = d at h2 ⊢
          generalize prodA a b c = pr at h2 ⊢
          generalize sumA a b c = su at h2 ⊢
          generalize cyc3 _ a b c = e1 at h2 ⊢
          generalize cyc3 _ a b c = e2 at h2 ⊢
          generalize cyc3 _ a b c = e3 at h2 ⊢
          linear_combination h2 + d * su * pr * hd
        · intro t ht
          simp only [List.mem_cons, List.not_mem_nil, or_false] at ht
          rcases ht with rfl | rfl | rfl | rfl
          · exact hu0
          · exact hu0
          · exact sub_nonneg.2 hu1
          · exact hdet
        · intro t ht a b c ho
          simp only [List.mem_cons, List.not_mem_nil, or_false] at ht
          rcases ht with rfl | rfl | rfl | rfl
          · oct_pos
          · oct_pos
          · exact sq_nonneg _
          · exact mul_nonneg (mul_nonneg (discV3_nonneg a b c) (sumA_nonneg ho)) (prodA_nonneg a b c ho)
        · intro a b c ha hb hc hn
          have h1 := schur3_pos ha hb hc hn
          have h2 : 0 ≤ cyc3 (fun a b c => a * (b - c) ^ 2) a b c := oct_cyc (fun a b c ho => by obtain ⟨ha, hb, hc⟩ := ho; positivity) a b c ⟨ha.le, hb.le, hc.le⟩
          have e : (⟨1, u - 1, u - 1, 3 - 6 * u⟩ : Cubic K).poly a b c = cyc3 (fun a b c => a * (a - b) * (a - c)) a b c + u * cyc3 (fun a b c => a * (b - c) ^ 2) a b c := by
            unfold Cubic.poly cyc3
            ring
          rw [e]
          exact add_pos_of_pos_of_nonneg h1 (mul_nonneg hu0 h2)
    · exact ⟨_, rfl, fun p hp => absurd hp (by simp)⟩
  · exact ⟨_, rfl, fun p hp => absurd hp (by simp)⟩

theorem qw_cyc (l : List (K × (K × K))) (P Q : Val3 K) (a b c : K) :
    (List.map ((fun t : K × Val3 K => t.1 * t.2 a b c) ∘ fun w : K × (K × K) => (w.1, cyc3 fun a b c => c * (w.2.1 * P a b c + w.2.2 * Q a b c) ^ 2)) l).sum =
      c * (l.map fun w => w.1 * (w.2.1 * P a b c + w.2.2 * Q a b c) ^ 2).sum + a * (l.map fun w => w.1 * (w.2.1 * P b c a + w.2.2 * Q b c a) ^ 2).sum +
        b * (l.map fun w => w.1 * (w.2.1 * P c a b + w.2.2 * Q c a b) ^ 2).sum := by
  induction l with
  | nil => simp
  | cons w l ih =>
    rw [List.map_cons, List.sum_cons, ih]
    simp only [Function.comp, List.map_cons, List.sum_cons, cyc3]
    ring

theorem fBorder_ok (x y : K) : ∃ r, fBorder x y = .ok r ∧ ∀ p, r = some p → AxisOk (fSep x y) p := by
  unfold fBorder
  split
  · rename_i h0
    refine ⟨_, rfl, ?_⟩
    intro p hp
    rw [← Option.some.inj hp]
    refine holds_mk ?_ ?_ ?_ (fun a b c ho => sumA_nonneg ho) sumA_posIn
    · intro a b c
      simp only [List.map_cons, List.map_nil, List.sum_cons, List.sum_nil, add_zero, one_mul]
      exact id_border0 h0 a b c
    · intro t ht
      simp only [List.mem_cons, List.not_mem_nil, or_false] at ht
      rcases ht with rfl | rfl
      · norm_num
      · exact zero_le_one
    · intro t ht a b c ho
      simp only [List.mem_cons, List.not_mem_nil, or_false] at ht
      rcases ht with rfl | rfl
      · oct_pos
      · oct_pos
  rename_i h0
  push Not at h0
  split
  · rename_i hx
    have hv : x - 1 ≠ 0 := sub_ne_zero.2 hx.1
    have hy : y = 4 * ((y - 1) / (4 * (x - 1))) * (x - 1) + 1 := by
      field_simp
      ring
    have hu0 : (y - 1) / (4 * (x - 1)) ≠ 0 := div_ne_zero (sub_ne_zero.2 h0.1) (by simpa using hv)
    dsimp only
    generalize (y - 1) / (4 * (x - 1)) = u at hy hu0 ⊢
    split
    · rename_i l hl
      split
      · rename_i hdet
        obtain ⟨hw, hq⟩ := quadraticWeighting_sound _ _ _ _ hl
        have hupos : 0 < u := by
          unfold quadraticWeighting at hl
          split at hl
          · simp at hl
          · rename_i hc
            push Not at hc
            exact lt_of_le_of_ne hc.2.1 (Ne.symm hu0)
        split
        · rename_i hQ
          exfalso
          unfold quadratic at hQ
          split at hQ
          · rename_i hc
            rcases hc with hc | hc
            · linarith
            · linarith
          · split at hQ
            · simp at hQ
            · split at hQ <;> simp at hQ
        · rename_i Q hQ
          refine ⟨_, rfl, ?_⟩
          intro p hp
          rw [← Option.some.inj hp]
          have hM := quadratic_sound hQ
          refine Holds.quot (holds_plain ?_ ?_ ?_)
            ⟨shows_of_proves hM, fun a b c ha hb hc _ => hM.pos a b c ⟨ha.le, hb.le, hc.le⟩ fun h0 => ha.ne' h0.1⟩ ?_
          · intro a b c
            rw [List.map_append, List.sum_append, List.map_map]
            have hsum : (List.map ((fun t : K × Val3 K => t.1 * t.2 a b c) ∘ fun w : K × (K × K) =>
                (w.1, cyc3 fun a b c => c * (w.2.1 * borderP1 x y a b c + w.2.2 * borderP2 x y a b c) ^ 2)) l).sum =
                cyc3 (fun a b c => c * (u * borderP1 x y a b c ^ 2 + u * borderP1 x y a b c * borderP2 x y a b c + borderP2 x y a b c ^ 2)) a b c := by
              have q1 := hq (borderP1 x y a b c) (borderP2 x y a b c)
              have q2 := hq (borderP1 x y b c a) (borderP2 x y b c a)
              have q3 := hq (borderP1 x y c a b) (borderP2 x y c a b)
              rw [one_mul] at q1 q2 q3
              rw [qw_cyc, q1, q2, q3]
              rfl
            rw [hsum]
            simp only [List.map_cons, List.map_nil, List.sum_cons, List.sum_nil, add_zero]
            have h1 := id_border1 hy a b c
            have h2v : 2 * (x - 1) ≠ 0 := mul_ne_zero two_ne_zero hv
            have hd := div_mul_cancel₀ (72 * x ^ 3 + 108 * x ^ 2 * y - 300 * x ^ 2 + 54 * x * y ^ 2 - 318 * x * y + 434 * x + 9 * y ^ 3 - 84 * y ^ 2 + 243 * y - 218) h2v
            apply mul_left_cancel₀ h2v
            generalize (72 * x ^ 3 + 108 * x ^ 2 * y - 300 * x ^ 2 + 54 * x * y ^ 2 - 318 * x * y + 434 * x + 9 * y ^ 3 - 84 * y ^ 2 + 243 * y - 218) / (2 * (x - 1)) = D at hd ⊢
            generalize (fSep x y).poly a b c = F at h1 ⊢
            generalize kSep.poly a b c = k at h1 ⊢
            generalize discV3 a b c = d at h1 ⊢
            generalize prodA a b c = pr at h1 ⊢
            generalize cyc3 _ a b c = e1 at h1 ⊢
            linear_combination h1 + pr * d * hd
          · intro t ht
            rcases List.mem_append.1 ht with ht | ht
            · obtain ⟨w, hw', rfl⟩ := List.mem_map.1 ht
              exact hw w hw'
            · simp only [List.mem_cons, List.not_mem_nil, or_false] at ht
              rw [ht]
              exact hdet
          · intro t ht a b c ho
            rcases List.mem_append.1 ht with ht | ht
            · obtain ⟨w, hw', rfl⟩ := List.mem_map.1 ht
              oct_pos
            · simp only [List.mem_cons, List.not_mem_nil, or_false] at ht
              rw [ht]
              exact mul_nonneg (prodA_nonneg a b c ho) (discV3_nonneg a b c)
          · intro a b c ha hb hc _
            have h1 : 0 < 2 * u * (a * b + b * c + c * a) := by positivity
            nlinarith [sq_nonneg (a - b), sq_nonneg (b - c), sq_nonneg (c - a)]
      · exact fBorderLast_ok x y
    · exact fBorderLast_ok x y
  · exact fBorderLast_ok x y

theorem fRegular_ok (x y : K) : ∃ r, fRegular x y = .ok r ∧ ∀ p, r = some p → AxisOk (fSep x y) p := by
  unfold fRegular
  dsimp only
  split
  · rename_i h
    simp [schur] at h
  · rename_i S hS
    refine ⟨_, rfl, ?_⟩
    intro p hp
    rw [← Option.some.inj hp]
    refine Holds.quot (g := cyc3 fun a b c => a * (a - b) * (a - c)) (holds_plain ?_ ?_ ?_) (schur3_holds hS) fun a b c => schur3_pos
    · intro a b c
      simp only [List.map_cons, List.map_nil, List.sum_cons, List.sum_nil, add_zero, one_mul, zero_mul]
      exact id_regular x y a b c
    · intro t ht
      simp only [List.mem_cons, List.not_mem_nil, or_false] at ht
      rcases ht with rfl | rfl <;> exact zero_le_one
    · intro t ht a b c ho
      simp only [List.mem_cons, List.not_mem_nil, or_false] at ht
      rcases ht with rfl | rfl
      · exact sq_nonneg _
      · exact mul_nonneg (mul_nonneg (prodA_nonneg a b c ho) (sumA_nonneg ho)) (discV3_nonneg a b c)

theorem gTrivial_ok {x y : K} {p : Cert K × K} (h : gTrivial x y = some p) : AxisOk (gSep x y) p := by
  rw [← Option.some.inj h]
  refine holds_plain ?_ ?_ ?_
  · intro a b c
    simp only [List.map_cons, List.map_nil, List.sum_cons, List.sum_nil, add_zero, one_mul, zero_mul]
    exact id_gtrivial x y a b c
  · intro t ht
    simp only [List.mem_cons, List.not_mem_nil, or_false] at ht
    rw [ht]
    exact zero_le_one
  · intro t ht a b c ho
    simp only [List.mem_cons, List.not_mem_nil, or_false] at ht
    rw [ht]
    oct_pos

theorem gBorder_ok {x y : K} {p : Cert K × K} (h : gBorder x y = some p) : AxisOk (gSep x y) p := by
  unfold gBorder at h
  dsimp only at h
  split at h
  · simp at h
  · rename_i hk
    push Not at hk
    split at h
    · rename_i hy
      rw [← Option.some.inj h]
      refine holds_plain ?_ ?_ ?_
      · intro a b c
        simp only [List.map_cons, List.map_nil, List.sum_cons, List.sum_nil, add_zero, one_mul]
        rw [← id_gborder]
        ring
      · intro t ht
        simp only [List.mem_cons, List.not_mem_nil, or_false] at ht
        rcases ht with rfl | rfl | rfl
        · exact zero_le_one
        · change 0 ≤ 4 * (x - 1) * (2 * x + y - 2)
          linarith
        · change 0 ≤ 8 * (y - 1) * (2 * x + y - 2)
          linarith
      · intro t ht a b c ho
        simp only [List.mem_cons, List.not_mem_nil, or_false] at ht
        rcases ht with rfl | rfl | rfl
        · oct_pos
        · exact mul_nonneg (by oct_pos) (prodA_nonneg a b c ho)
        · exact mul_nonneg (by oct_pos) (prodA_nonneg a b c ho)
    · simp at h

theorem gSos_ok {x y : K} {p : Cert K × K} (h : gSos x y = some p) : AxisOk (gSep x y) p := by
  unfold gSos at h
  dsimp only at h
  rw [← Option.some.inj h]
  clear h
  refine holds_mk ?_ ?_ ?_ (fun a b c ho => sumA_nonneg ho) sumA_posIn
  · intro a b c
    simp only [List.map_cons, List.map_nil, List.sum_cons, List.sum_nil, add_zero, one_mul]
    have h3 : sumA a b c = a + b + c := rfl
    rw [kSep_poly, h3]
    split
    · have h1 := id_gsos1 x y a b c
      have h2 := sosRem_eq (4 * y * (x - 1)) (8 * y * (x - 1)) a b c
      generalize sosRem (4 * y * (x - 1)) (8 * y * (x - 1)) = R at h2 ⊢
      generalize cyc3 _ a b c = e1 at h1 ⊢
      generalize cyc3 _ a b c = e2 at h1 ⊢
      linear_combination h1 + discV3 a b c * h2
    · have h1 := id_gsos0 x y a b c
      have h2 := sosRem_eq (-2 * (-x - 1) ^ 2 - 4 * (-x - 1) * x + 4 * (-x - 1) * y - 4 * (-x - 1) + 2 * x ^ 2 + 4 * x * y - 2 * x * (2 - y) - 8 * x - 2 * y ^ 2 + 4 * y + 2 * (2 - y) - 2)
        (-4 * (-x - 1) * y - x ^ 2 + 2 * x * y + 2 * x * (2 - y) - 2 * x + 4 * y ^ 2 - 2 * y * (2 - y) - 6 * y - (2 - y) ^ 2 + 2 * (2 - y) - 1) a b c
      generalize sosRem (-2 * (-x - 1) ^ 2 - 4 * (-x - 1) * x + 4 * (-x - 1) * y - 4 * (-x - 1) + 2 * x ^ 2 + 4 * x * y - 2 * x * (2 - y) - 8 * x - 2 * y ^ 2 + 4 * y + 2 * (2 - y) - 2)
        (-4 * (-x - 1) * y - x ^ 2 + 2 * x * y + 2 * x * (2 - y) - 2 * x + 4 * y ^ 2 - 2 * y * (2 - y) - 6 * y - (2 - y) ^ 2 + 2 * (2 - y) - 1) = R at h2 ⊢
      generalize cyc3 _ a b c = e1 at h1 ⊢
      generalize cyc3 _ a b c = e2 at h1 ⊢
      linear_combination h1 + discV3 a b c * h2
  · intro t ht
    simp only [List.mem_cons, List.not_mem_nil, or_false] at ht
    rcases ht with rfl | rfl | rfl
    · exact zero_le_one
    · exact zero_le_two
    · exact sosRem_weight _ _
  · intro t ht a b c ho
    simp only [List.mem_cons, List.not_mem_nil, or_false] at ht
    rcases ht with rfl | rfl | rfl
    · oct_pos
    · oct_pos
    · exact mul_nonneg (sosRem_expr _ _ a b c ho) (discV3_nonneg a b c)

/-! ### The symmetric axis -/

theorem divOne_spec (x : K) : ∀ p : UPoly K, uev p x = (x - 1) * uev (divOne p).1 x + (divOne p).2
  | [] => by simp [divOne, uev]
  | c :: p => by
    simp only [divOne, uev]
    linear_combination x * divOne_spec x p

theorem divOne_length : ∀ p : UPoly K, (divOne p).1.length = p.length
  | [] => rfl
  | _ :: p => by simp [divOne, divOne_length p]

theorem uev_axis (f : Septic K) (x : K) : uev f.axis x = f.poly x 1 1 := by
  simp only [Septic.axis, uev, Septic.poly]
  ring

theorem uev_sosPoly (L : Sos K) (x : K) : uev (sosPoly L) x = sosVal L x := by
  induction L with
  | nil => rfl
  | cons t L ih =>
    have e : sosPoly (t :: L) = padd (psmul t.1 (pmul t.2 t.2)) (sosPoly L) := rfl
    rw [e, uev_padd, uev_psmul, uev_pmul, ih]
    simp only [sosVal, List.map_cons, List.sum_cons]
    ring

/-- Degree bound through `coeff`. -/
def DegLe (n : ℕ) (p : UPoly K) : Prop := ∀ D, n < D → (toPoly p).coeff D = 0

theorem degLe_of_length {n : ℕ} {p : UPoly K} (h : p.length ≤ n + 1) : DegLe n p := by
  intro D hD
  rw [coeff_toPoly, List.getD_eq_getElem?_getD, List.getElem?_eq_none (by omega)]
  rfl

/-- The squares of a sound proof have at most half the degree. -/
theorem prover_degree {prover : UPoly K → Except PyErr (Option (Sos K × Sos K))} (hp : ProverSound prover) {g : UPoly K} {P : Sos K × Sos K} (h : prover g = .ok (some P)) {n : ℕ}
    (hg : DegLe n g) : (∀ t ∈ P.1, t.1 ≠ 0 → 2 * (toPoly t.2).natDegree ≤ n) ∧ ∀ t ∈ P.2, t.1 ≠ 0 → toPoly t.2 ≠ 0 → 2 * (toPoly t.2).natDegree + 1 ≤ n := by
  obtain ⟨h1, n1, n2⟩ := hp g P h
  classical
  let L1 := P.1.filter fun t => t.1 ≠ 0 ∧ toPoly t.2 ≠ 0
  let L2 := P.2.filter fun t => t.1 ≠ 0 ∧ toPoly t.2 ≠ 0
  let T : List (K × Polynomial K × ℕ) := (L1.map fun cp => (cp.1, toPoly cp.2, 0)) ++ (L2.map fun cp => (cp.1, toPoly cp.2, 1))
  have hTp : ∀ t ∈ T, 0 < t.1 ∧ t.2.1 ≠ 0 ∧ t.2.2 ≤ 1 := by
    intro t ht
    rcases List.mem_append.1 ht with ht | ht
    · obtain ⟨cp, hcp, rfl⟩ := List.mem_map.1 ht
      obtain ⟨hm, hc⟩ := List.mem_filter.1 hcp
      have hc := of_decide_eq_true hc
      exact ⟨lt_of_le_of_ne (n1 cp hm) (Ne.symm hc.1), hc.2, by simp⟩
    · obtain ⟨cp, hcp, rfl⟩ := List.mem_map.1 ht
      obtain ⟨hm, hc⟩ := List.mem_filter.1 hcp
      have hc := of_decide_eq_true hc
      exact ⟨lt_of_le_of_ne (n2 cp hm) (Ne.symm hc.1), hc.2, by simp⟩
  have key : ∀ (L : Sos K) (ε : ℕ) (x : K), (((L.filter fun t => decide (t.1 ≠ 0 ∧ toPoly t.2 ≠ 0)).map fun cp : K × UPoly K =>
      ((cp.1, toPoly cp.2, ε) : K × Polynomial K × ℕ)).map termPoly).sum.eval x = x ^ ε * sosVal L x := by
    intro L ε x
    induction L with
    | nil => simp [sosVal]
    | cons cp L ih =>
      by_cases hc : cp.1 ≠ 0 ∧ toPoly cp.2 ≠ 0
      · rw [List.filter_cons_of_pos (by simpa using hc), List.map_cons, List.map_cons, List.sum_cons, Polynomial.eval_add, ih]
        simp only [termPoly, sosVal, List.map_cons, List.sum_cons, Polynomial.eval_mul, Polynomial.eval_C, Polynomial.eval_pow,
          Polynomial.eval_X, eval_toPoly]
        ring
      · rw [List.filter_cons_of_neg (by simpa using hc), ih]
        have h0 : cp.1 * uev cp.2 x ^ 2 = 0 := by
          by_cases h0 : cp.1 = 0
          · rw [h0, zero_mul]
          · have : toPoly cp.2 = 0 := by
              by_contra hne
              exact hc ⟨h0, hne⟩
            rw [← eval_toPoly, this]
            simp
        simp only [sosVal, List.map_cons, List.sum_cons, h0, zero_add]
  have hTG : (T.map termPoly).sum = toPoly g := by
    have hinf : Infinite K := inferInstance
    apply Polynomial.funext
    intro x
    rw [eval_toPoly, ← h1 x, List.map_append, List.sum_append, Polynomial.eval_add, key, key]
    ring
  have hbound := no_cancel T hTp n (by
    intro D hD
    rw [hTG]
    exact hg D hD)
  constructor
  · intro t ht h0
    by_cases hz : toPoly t.2 = 0
    · rw [hz]
      simp
    · exact hbound (t.1, toPoly t.2, 0) (List.mem_append_left _ (List.mem_map.2 ⟨t, List.mem_filter.2 ⟨ht, decide_eq_true ⟨h0, hz⟩⟩, rfl⟩))
  · intro t ht h0 hz
    exact hbound (t.1, toPoly t.2, 1) (List.mem_append_right _ (List.mem_map.2 ⟨t, List.mem_filter.2 ⟨ht, decide_eq_true ⟨h0, hz⟩⟩, rfl⟩))

theorem toPoly_sosPoly_cons (t : K × UPoly K) (L : Sos K) : toPoly (sosPoly (t :: L)) = Polynomial.C t.1 * (toPoly t.2 * toPoly t.2) + toPoly (sosPoly L) := by
  have e : sosPoly (t :: L) = padd (psmul t.1 (pmul t.2 t.2)) (sosPoly L) := rfl
  rw [e, toPoly_padd, toPoly_psmul, toPoly_pmul]

theorem degLe_sosPoly {d : ℕ} : ∀ {L : Sos K}, (∀ t ∈ L, t.1 ≠ 0 → (toPoly t.2).natDegree ≤ d) → DegLe (2 * d) (sosPoly L)
  | [], _ => fun D _ => by simp [sosPoly, toPoly]
  | t :: L, h => by
    intro D hD
    rw [toPoly_sosPoly_cons, Polynomial.coeff_add, degLe_sosPoly (fun s hs => h s (List.mem_cons_of_mem _ hs)) D hD, add_zero, Polynomial.coeff_C_mul]
    by_cases h0 : t.1 = 0
    · rw [h0, zero_mul]
    · have h1 := h t (List.mem_cons_self ..) h0
      rw [Polynomial.coeff_eq_zero_of_natDegree_lt, mul_zero]
      refine lt_of_le_of_lt Polynomial.natDegree_mul_le ?_
      omega

theorem degLe_psmul {n : ℕ} {p : UPoly K} (c : K) (h : DegLe n p) : DegLe n (psmul c p) := by
  intro D hD
  rw [toPoly_psmul, Polynomial.coeff_C_mul, h D hD, mul_zero]

theorem uev_quadratic {p : UPoly K} (h : (toPoly p).natDegree ≤ 2) (x : K) : uev p x = p.getD 0 0 + p.getD 1 0 * x + p.getD 2 0 * x ^ 2 := by
  rw [← eval_toPoly, Polynomial.eval_eq_sum_range' (n := 3) (by omega)]
  simp only [Finset.sum_range_succ, Finset.sum_range_zero, coeff_toPoly]
  ring

/-- The value of the form of `AxisSums`. -/
def AxisSums.form (A : AxisSums K) (al be ga : K) : K :=
  A.s * al ^ 2 + 2 * A.x * (al * be) + 2 * A.y * (al * ga) + A.m * be ^ 2 + A.p * (be * ga) + A.n * ga ^ 2

theorem axisSums_form (L : Sos K) (al be ga : K) : (axisSums L).form al be ga = (L.map fun t => t.1 *
    ((4 * t.2.getD 2 0 + t.2.getD 1 0 - 2 * t.2.getD 0 0) / 2 * al + (2 * t.2.getD 2 0 + t.2.getD 1 0 - 2 * t.2.getD 0 0) / 2 * be + (2 * t.2.getD 2 0 - t.2.getD 0 0) * ga) ^ 2).sum := by
  induction L with
  | nil => simp [axisSums, AxisSums.form]
  | cons t L ih =>
    rw [List.map_cons, List.sum_cons, ← ih]
    have e : axisSums (t :: L) = ⟨t.1 * ((4 * t.2.getD 2 0 + t.2.getD 1 0 - 2 * t.2.getD 0 0) / 2) ^ 2 + (axisSums L).s,
      t.1 * ((4 * t.2.getD 2 0 + t.2.getD 1 0 - 2 * t.2.getD 0 0) / 2 * ((2 * t.2.getD 2 0 + t.2.getD 1 0 - 2 * t.2.getD 0 0) / 2)) + (axisSums L).x,
      t.1 * ((4 * t.2.getD 2 0 + t.2.getD 1 0 - 2 * t.2.getD 0 0) / 2 * (2 * t.2.getD 2 0 - t.2.getD 0 0)) + (axisSums L).y,
      t.1 * ((2 * t.2.getD 2 0 + t.2.getD 1 0 - 2 * t.2.getD 0 0) / 2) ^ 2 + (axisSums L).m,
      t.1 * (2 * ((2 * t.2.getD 2 0 + t.2.getD 1 0 - 2 * t.2.getD 0 0) / 2) * (2 * t.2.getD 2 0 - t.2.getD 0 0)) + (axisSums L).p,
      t.1 * (2 * t.2.getD 2 0 - t.2.getD 0 0) ^ 2 + (axisSums L).n⟩ := rfl
    rw [e]
    unfold AxisSums.form
    dsimp only
    ring

theorem axisSums_nonneg {L : Sos K} (hL : SosNonneg L) (al be ga : K) : 0 ≤ (axisSums L).form al be ga := by
  rw [axisSums_form]
  refine List.sum_nonneg ?_
  intro x hx
  obtain ⟨t, ht, rfl⟩ := List.mem_map.1 hx
  exact mul_nonneg (hL t ht) (sq_nonneg _)

theorem axisSums_val {L : Sos K} (hd : ∀ t ∈ L, t.1 ≠ 0 → (toPoly t.2).natDegree ≤ 2) (z : K) : (axisSums L).form (-z ^ 2 - 2 * z - 2) (z ^ 2 + 2) (2 * z + 1) = sosVal L z := by
  rw [axisSums_form]
  unfold sosVal
  congr 1
  apply List.map_congr_left
  intro t ht
  by_cases h0 : t.1 = 0
  · rw [h0]
    ring
  · rw [uev_quadratic (hd t ht h0)]
    ring

/-- The value `t*(z-1)^4 + s*((x-1)*z^2 - (2-2*y)*z + (2*x+y-2))^2 + rem*(z^2+2*r*z+r+2)^2` (sextic_symmetric.py 43). -/
def axisVal (t s x y rem : K) (r : Option K) (z : K) : K :=
  t * (z - 1) ^ 4 + s * ((x - 1) * z ^ 2 - (2 - 2 * y) * z + (2 * x + y - 2)) ^ 2 + rem * (match r with | some r => z ^ 2 + 2 * r * z + r + 2 | none => 2 * z + 1) ^ 2

theorem axisFinish_ok {A : AxisSums K} (hA : ∀ al be ga, 0 ≤ A.form al be ga) : ∃ r, axisFinish A = .ok (some r) ∧
    ∀ t s x y rem q, r = .ok t s x y rem q → 0 ≤ t ∧ 0 ≤ s ∧ 0 ≤ rem ∧ ∀ z, A.form (-z ^ 2 - 2 * z - 2) (z ^ 2 + 2) (2 * z + 1) = axisVal t s x y rem q z := by
  unfold axisFinish
  split
  · exact ⟨_, rfl, fun t s x y rem q h => by simp at h⟩
  rename_i hs
  have hs0 : 0 ≤ A.s := by
    have := hA 1 0 0
    unfold AxisSums.form at this
    linarith
  have hpos : 0 < A.s := lt_of_le_of_ne hs0 (Ne.symm hs)
  -- the form after completing the square
  have hform : ∀ be ga, 0 ≤ (A.m - A.x ^ 2 / A.s) * be ^ 2 + (A.p - 2 * A.x * A.y / A.s) * (be * ga) + (A.n - A.y ^ 2 / A.s) * ga ^ 2 := by
    intro be ga
    have := hA (-(A.x * be + A.y * ga) / A.s) be ga
    unfold AxisSums.form at this
    have e : A.s * (-(A.x * be + A.y * ga) / A.s) ^ 2 + 2 * A.x * (-(A.x * be + A.y * ga) / A.s * be) + 2 * A.y * (-(A.x * be + A.y * ga) / A.s * ga) + A.m * be ^ 2 + A.p * (be * ga) +
        A.n * ga ^ 2 = (A.m - A.x ^ 2 / A.s) * be ^ 2 + (A.p - 2 * A.x * A.y / A.s) * (be * ga) + (A.n - A.y ^ 2 / A.s) * ga ^ 2 := by
      field_simp
      ring
    rwa [e] at this
  have hval : ∀ al be ga, A.form al be ga = A.s * (al + A.x / A.s * be + A.y / A.s * ga) ^ 2 +
      ((A.m - A.x ^ 2 / A.s) * be ^ 2 + (A.p - 2 * A.x * A.y / A.s) * (be * ga) + (A.n - A.y ^ 2 / A.s) * ga ^ 2) := by
    intro al be ga
    unfold AxisSums.form
    field_simp
    ring
  have hn : 2 * A.m + A.n - (2 * A.x ^ 2 + A.y ^ 2) / A.s = 2 * (A.m - A.x ^ 2 / A.s) + (A.n - A.y ^ 2 / A.s) := by ring
  dsimp only
  rw [hn]
  generalize A.m - A.x ^ 2 / A.s = m at hform hval ⊢
  generalize A.p - 2 * A.x * A.y / A.s = p at hform hval ⊢
  generalize A.n - A.y ^ 2 / A.s = n at hform hval ⊢
  have hm : 0 ≤ m := by
    have := hform 1 0
    linarith
  have hn0 : 0 ≤ n := by
    have := hform 0 1
    linarith
  have hsum : 0 ≤ m + p + n := by
    have := hform 1 1
    linarith
  have hdisc : p ^ 2 ≤ 4 * m * n := by
    by_cases h0 : m = 0
    · subst h0
      have hp : p = 0 := by
        by_contra hp
        have := hform (-(n + 1) / p) 1
        have e : -(n + 1) / p * p = -(n + 1) := div_mul_cancel₀ _ hp
        nlinarith
      rw [hp]
      simp
    · have hmpos := lt_of_le_of_ne hm (Ne.symm h0)
      have := hform (-p) (2 * m)
      nlinarith
  have hzero : m + p + n = 0 → p = -2 * m ∧ n = m := by
    intro h0
    have h1 : (2 * m + p) ^ 2 ≤ 0 := by nlinarith
    have h2 : 2 * m + p = 0 := pow_eq_zero_iff two_ne_zero |>.1 (le_antisymm h1 (sq_nonneg _))
    exact ⟨by linarith, by linarith⟩
  split
  · rename_i h
    obtain ⟨h3, hp⟩ := h
    refine ⟨_, rfl, ?_⟩
    intro t s x y rem q hr
    obtain ⟨rfl, rfl, rfl, rfl, rfl, rfl⟩ := Axis.ok.inj hr
    refine ⟨hm, hs0, le_refl _, ?_⟩
    intro z
    rw [hval]
    have hnm : n = m := by linarith
    subst hnm hp
    unfold axisVal
    dsimp only
    ring
  · rename_i hne
    have hden : 2 * m + n + p - m ≠ 0 := by
      intro h0
      obtain ⟨h1, h2⟩ := hzero (by linarith)
      exact hne ⟨by linarith, h1⟩
    have hdenpos : 0 < 2 * m + n + p - m := lt_of_le_of_ne (by linarith) (Ne.symm hden)
    rw [if_neg hden]
    have ht : 0 ≤ (-2 * m ^ 2 + m * (2 * m + n) - p ^ 2 / 4) / (2 * m + n + p - m) := div_nonneg (by nlinarith) hdenpos.le
    have htd := div_mul_cancel₀ (-2 * m ^ 2 + m * (2 * m + n) - p ^ 2 / 4) hden
    rw [if_neg (not_lt.2 ht)]
    generalize (-2 * m ^ 2 + m * (2 * m + n) - p ^ 2 / 4) / (2 * m + n + p - m) = t at ht htd ⊢
    have hmt : (m - t) * (2 * m + n + p - m) = (m + p / 2) ^ 2 := by linear_combination -htd
    have hmt0 : 0 ≤ m - t := by
      by_contra hc
      push Not at hc
      nlinarith [sq_nonneg (m + p / 2)]
    split
    · rename_i hmne
      refine ⟨_, rfl, ?_⟩
      intro t' s x y rem q hr
      obtain ⟨rfl, rfl, rfl, rfl, rfl, rfl⟩ := Axis.ok.inj hr
      refine ⟨ht, hs0, hmt0, ?_⟩
      intro z
      rw [hval]
      unfold axisVal
      dsimp only
      have hd : m - t ≠ 0 := sub_ne_zero.2 hmne
      have hr1 : (m - t) * ((p + 2 * t) / (m - t) / 2) = (p + 2 * t) / 2 := by
        field_simp
      have hr2 : (m - t) * ((p + 2 * t) / (m - t) / 2) ^ 2 = n - t := by
        have : (p + 2 * t) ^ 2 = 4 * (m - t) * (n - t) := by linear_combination 4 * htd
        field_simp
        linear_combination this
      generalize (p + 2 * t) / (m - t) / 2 = r at hr1 hr2 ⊢
      linear_combination -2 * (z ^ 2 + 2) * (2 * z + 1) * hr1 - (2 * z + 1) ^ 2 * hr2
    · rename_i hmeq
      have hmeq : m = t := by
        by_contra hc
        exact hmeq hc
      subst hmeq
      have hp : p = -2 * m := by
        have : (m + p / 2) ^ 2 = 0 := by rw [← hmt]; ring
        have := pow_eq_zero_iff two_ne_zero |>.1 this
        linarith
      rw [if_neg (by linarith)]
      refine ⟨_, rfl, ?_⟩
      intro t' s x y rem q hr
      obtain ⟨rfl, rfl, rfl, rfl, rfl, rfl⟩ := Axis.ok.inj hr
      refine ⟨ht, hs0, by linarith, ?_⟩
      intro z
      rw [hval, hp]
      unfold axisVal
      dsimp only
      ring

/-- What `_restructure_quartic_polynomial` guarantees: on a polynomial of degree at most four it returns the documented decomposition with nonnegative weights, and it raises
only what the univariate prover raises.  In particular the tests "this will not happen" (sextic_symmetric.py 80-89) never fail and no number is divided by zero. -/
theorem restructure_spec {prover : UPoly K → Except PyErr (Option (Sos K × Sos K))} (hp : ProverSound prover) {p : UPoly K} (hd : DegLe 4 p) :
    (∀ e, restructure prover p = .error e → prover p = .error e) ∧
    ∀ t s x y rem r, restructure prover p = .ok (some (.ok t s x y rem r)) → 0 ≤ t ∧ 0 ≤ s ∧ 0 ≤ rem ∧ ∀ z, uev p z = axisVal t s x y rem r z := by
  unfold restructure
  split
  · rename_i h0
    refine ⟨fun e h => by simp at h, ?_⟩
    intro t s x y rem r h
    obtain ⟨rfl, rfl, rfl, rfl, rfl, rfl⟩ := Axis.ok.inj (Option.some.inj (Except.ok.inj h))
    refine ⟨le_refl _, le_refl _, le_refl _, ?_⟩
    intro z
    rw [← uev_pstrip, h0]
    simp [uev, axisVal]
  · cases hpr : prover p with
    | error e => exact ⟨fun e' h => by simpa using h, fun t s x y rem r h => by simp at h⟩
    | ok o =>
      cases o with
      | none => exact ⟨fun e' h => by simp at h, fun t s x y rem r h => by simp at h⟩
      | some P =>
        dsimp only
        obtain ⟨h1, n1, n2⟩ := hp p P hpr
        obtain ⟨d1, -⟩ := prover_degree hp hpr hd
        split
        · exact ⟨fun e' h => by simp at h, fun t s x y rem r h => by simp at h⟩
        · rename_i hP
          have hP : P.2 = [] := by
            by_contra hc
            exact hP hc
          obtain ⟨r, hr, hspec⟩ := axisFinish_ok (axisSums_nonneg n1)
          rw [hr]
          refine ⟨fun e' h => by simp at h, ?_⟩
          intro t s x y rem q h
          obtain ⟨a1, a2, a3, a4⟩ := hspec t s x y rem q (Option.some.inj (Except.ok.inj h))
          refine ⟨a1, a2, a3, ?_⟩
          intro z
          rw [← a4, axisSums_val fun t ht h0 => by have := d1 t ht h0; omega, ← h1 z, hP]
          simp [sosVal]

/-! ### The search -/

theorem kSep_nonneg (a b c : K) (ho : Octant a b c) : 0 ≤ sumA a b c * discV3 a b c := mul_nonneg (sumA_nonneg ho) (discV3_nonneg a b c)

/-- The combination that `_septic_sym_axis.solve` proves. -/
def axisTarget (fc fx fy gc gx gy ker : K) : Val3 K := fun a b c => fc * (fSep fx fy).poly a b c + gc * (gSep gx gy).poly a b c + ker * kSep.poly a b c

theorem axisInner_ok {fc gc ker fx fy gx gy : K} (hf : 0 ≤ fc) (hg : 0 ≤ gc) {pf : Cert K × K} (hpf : AxisOk (fSep fx fy) pf) : ∀ {gs : List (Option (Cert K × K))},
    (∀ pg, some pg ∈ gs → AxisOk (gSep gx gy) pg) → ∀ {C}, axisInner fc gc ker pf gs = some C → Holds (axisTarget fc fx fy gc gx gy ker) C
  | [], _, C, h => by simp [axisInner] at h
  | none :: gs, hgs, C, h => axisInner_ok hf hg hpf (fun pg hpg => hgs pg (List.mem_cons_of_mem _ hpg)) (gs := gs) (by simpa [axisInner] using h)
  | some pg :: gs, hgs, C, h => by
    unfold axisInner at h
    dsimp only at h
    split at h
    · rename_i hr
      rw [← Option.some.inj h]
      have h1 := ((hpf.smul hf).plus ((hgs pg (List.mem_cons_self ..)).smul hg)).add hr (e := fun a b c => sumA a b c * discV3 a b c) kSep_nonneg
      refine h1.congr ?_
      intro a b c
      unfold axisTarget
      rw [kSep_poly]
      ring
    · exact axisInner_ok hf hg hpf (fun pg hpg => hgs pg (List.mem_cons_of_mem _ hpg)) h

theorem axisOuter_ok {fc gc ker fx fy gx gy : K} (hf : 0 ≤ fc) (hg : 0 ≤ gc) : ∀ {fs : List (Except PyErr (Option (Cert K × K)))},
    (∀ r ∈ fs, ∃ o, r = .ok o ∧ ∀ p, o = some p → AxisOk (fSep fx fy) p) →
    ∃ r, axisOuter fc gc ker gx gy fs = .ok r ∧ ∀ C, r = some C → Holds (axisTarget fc fx fy gc gx gy ker) C
  | [], _ => ⟨none, rfl, fun C h => by simp at h⟩
  | r :: fs, hfs => by
    obtain ⟨o, rfl, ho⟩ := hfs r (List.mem_cons_self ..)
    have ih := axisOuter_ok hf hg (ker := ker) (gx := gx) (gy := gy) fun r hr => hfs r (List.mem_cons_of_mem _ hr)
    cases o with
    | none => exact ih
    | some pf =>
      unfold axisOuter
      cases hin : axisInner fc gc ker pf [gTrivial gx gy, gBorder gx gy, gSos gx gy] with
      | none => exact ih
      | some C =>
        refine ⟨some C, rfl, ?_⟩
        intro D hD
        rw [← Option.some.inj hD]
        refine axisInner_ok hf hg (ho pf rfl) ?_ hin
        intro pg hpg
        simp only [List.mem_cons, List.not_mem_nil, or_false] at hpg
        rcases hpg with h | h | h
        · exact gTrivial_ok h.symm
        · exact gBorder_ok h.symm
        · exact gSos_ok h.symm

/-- `_septic_sym_axis.solve` never raises, and its answers prove `f_coeff*F + g_coeff*G + ker_coeff*s(a)p(a-b)^2`. -/
theorem axisSolve_ok {fc fx fy gc gx gy ker : K} (hf : 0 ≤ fc) (hg : 0 ≤ gc) :
    ∃ r, axisSolve fc fx fy gc gx gy ker = .ok r ∧ ∀ C, r = some C → Holds (axisTarget fc fx fy gc gx gy ker) C := by
  refine axisOuter_ok hf hg ?_
  intro r hr
  simp only [List.mem_cons, List.not_mem_nil, or_false] at hr
  rcases hr with rfl | rfl | rfl | rfl | rfl
  · exact fSquare_ok fx fy
  · exact fSos_ok false fx fy
  · exact fSos_ok true fx fy
  · exact fBorder_ok fx fy
  · exact fRegular_ok fx fy

/-! ### The decomposition -/

/-- The symmetric axis of each part of the decomposition. -/
theorem axis_parts (t s x y rem t' s' x' y' rem' k : K) (r r' : Option K) (z : K) :
    t * t1Sep.poly z 1 1 + s * (fSep x y).poly z 1 1 + rem * (r1Sep r).poly z 1 1 + t' * t2Sep.poly z 1 1 + s' * (gSep x' y').poly z 1 1 + rem' * (r2Sep r').poly z 1 1 +
      k * kSep.poly z 1 1 = (z - 1) ^ 2 * (z * axisVal t s x y rem r z + 2 * axisVal t' s' x' y' rem' r' z) := by
  have e1 : (t1Sep : Septic K).poly z 1 1 = (z - 1) ^ 2 * (z * (z - 1) ^ 4) := by
    simp only [t1Sep, symS, Septic.poly]
    ring
  have e2 : (fSep x y).poly z 1 1 = (z - 1) ^ 2 * (z * ((x - 1) * z ^ 2 - (2 - 2 * y) * z + (2 * x + y - 2)) ^ 2) := by
    simp only [fSep, symS, Septic.poly]
    ring
  have e3 : (t2Sep : Septic K).poly z 1 1 = (z - 1) ^ 2 * (2 * (z - 1) ^ 4) := by
    simp only [t2Sep, symS, Septic.poly]
    ring
  have e4 : (gSep x' y').poly z 1 1 = (z - 1) ^ 2 * (2 * ((x' - 1) * z ^ 2 - (2 - 2 * y') * z + (2 * x' + y' - 2)) ^ 2) := by
    simp only [gSep, symS, Septic.poly]
    ring
  have e5 : (kSep : Septic K).poly z 1 1 = 0 := by
    simp only [kSep, symS, Septic.poly]
    ring
  have e6 : (r1Sep r).poly z 1 1 = (z - 1) ^ 2 * (z * (match r with | some r => z ^ 2 + 2 * r * z + r + 2 | none => 2 * z + 1) ^ 2) := by
    cases r <;> simp only [r1Sep, symS, Septic.poly] <;> ring
  have e7 : (r2Sep r').poly z 1 1 = (z - 1) ^ 2 * (2 * (match r' with | some r => z ^ 2 + 2 * r * z + r + 2 | none => 2 * z + 1) ^ 2) := by
    cases r' <;> simp only [r2Sep, symS, Septic.poly] <;> ring
  rw [e1, e2, e3, e4, e5, e6, e7]
  unfold axisVal
  ring

/-- A symmetric septic is determined by its symmetric axis and the coefficient of `a^5 b^2`. -/
theorem symS_ext {p q : Fin 8 → K} (h : ∀ z : K, (symS (p 0) (p 1) (p 2) (p 3) (p 4) (p 5) (p 6) (p 7)).poly z 1 1 = (symS (q 0) (q 1) (q 2) (q 3) (q 4) (q 5) (q 6) (q 7)).poly z 1 1)
    (h0 : p 2 = q 2) (a b c : K) :
    (symS (p 0) (p 1) (p 2) (p 3) (p 4) (p 5) (p 6) (p 7)).poly a b c = (symS (q 0) (q 1) (q 2) (q 3) (q 4) (q 5) (q 6) (q 7)).poly a b c := by
  obtain ⟨h1, h2, h3, h4, h5, h6, h7⟩ := symS_eq_zero (c700 := p 0 - q 0) (c610 := p 1 - q 1) (c520 := p 2 - q 2) (c511 := p 3 - q 3) (c430 := p 4 - q 4) (c421 := p 5 - q 5)
    (c331 := p 6 - q 6) (c322 := p 7 - q 7) (by
      intro z
      have := h z
      simp only [symS, Septic.poly] at this ⊢
      linear_combination this) (sub_eq_zero.2 h0)
  rw [sub_eq_zero.1 h1, sub_eq_zero.1 h2, h0, sub_eq_zero.1 h3, sub_eq_zero.1 h4, sub_eq_zero.1 h5, sub_eq_zero.1 h6, sub_eq_zero.1 h7]

/-- The eight numbers of a symmetric septic. -/
def Septic.eight (f : Septic K) : Fin 8 → K := ![f.c700, f.c610, f.c520, f.c511, f.c430, f.c421, f.c331, f.c322]

/-- `f` is symmetric: the tests of septic_symmetric.py 15-16. -/
def Septic.IsSym (f : Septic K) : Prop := f.c610 = f.c601 ∧ f.c520 = f.c502 ∧ f.c430 = f.c403 ∧ f.c421 = f.c412

theorem Septic.eight_poly {f : Septic K} (hf : f.IsSym) (a b c : K) :
    (symS (f.eight 0) (f.eight 1) (f.eight 2) (f.eight 3) (f.eight 4) (f.eight 5) (f.eight 6) (f.eight 7)).poly a b c = f.poly a b c := by
  obtain ⟨h1, h2, h3, h4⟩ := hf
  change (symS f.c700 f.c610 f.c520 f.c511 f.c430 f.c421 f.c331 f.c322).poly a b c = _
  simp only [symS, Septic.poly, ← h1, ← h2, ← h3, ← h4]

theorem sym_fSep (x y : K) : (fSep x y).IsSym := ⟨rfl, rfl, rfl, rfl⟩

theorem sym_gSep (x y : K) : (gSep x y).IsSym := ⟨rfl, rfl, rfl, rfl⟩

theorem sym_r1Sep (r : Option K) : (r1Sep r).IsSym := by
  cases r <;> exact ⟨rfl, rfl, rfl, rfl⟩

theorem sym_r2Sep (r : Option K) : (r2Sep r).IsSym := by
  cases r <;> exact ⟨rfl, rfl, rfl, rfl⟩

/-- The decomposition of septic_symmetric.py 33-50: the symmetric axis gives everything but `ker_coeff`. -/
theorem decomp {f : Septic K} (hf : f.IsSym) {t s x y rem t' s' x' y' rem' : K} {r r' : Option K}
    (h : ∀ z, f.poly z 1 1 = (z - 1) ^ 2 * (z * axisVal t s x y rem r z + 2 * axisVal t' s' x' y' rem' r' z)) (a b c : K) :
    f.poly a b c = t * t1Sep.poly a b c + s * (fSep x y).poly a b c + rem * (r1Sep r).poly a b c + t' * t2Sep.poly a b c + s' * (gSep x' y').poly a b c +
      rem' * (r2Sep r').poly a b c +
      (f.c520 - s * (x - y) ^ 2 - s' * (x' ^ 2 + 2 * x' * y' - 2 * x' - 2 * y' + 1) - (13 / 4 * t - 4 * t') - kerF rem r - kerG rem' r') * kSep.poly a b c := by
  set k := f.c520 - s * (x - y) ^ 2 - s' * (x' ^ 2 + 2 * x' * y' - 2 * x' - 2 * y' + 1) - (13 / 4 * t - 4 * t') - kerF rem r - kerG rem' r' with hk
  let q : Fin 8 → K := fun i => t * t1Sep.eight i + s * (fSep x y).eight i + rem * (r1Sep r).eight i + t' * t2Sep.eight i + s' * (gSep x' y').eight i +
    rem' * (r2Sep r').eight i + k * kSep.eight i
  have hq : ∀ a b c, (symS (q 0) (q 1) (q 2) (q 3) (q 4) (q 5) (q 6) (q 7)).poly a b c = t * t1Sep.poly a b c + s * (fSep x y).poly a b c + rem * (r1Sep r).poly a b c +
      t' * t2Sep.poly a b c + s' * (gSep x' y').poly a b c + rem' * (r2Sep r').poly a b c + k * kSep.poly a b c := by
    intro a b c
    rw [← Septic.eight_poly (f := t1Sep) ⟨rfl, rfl, rfl, rfl⟩, ← Septic.eight_poly (sym_fSep x y), ← Septic.eight_poly (sym_r1Sep r),
      ← Septic.eight_poly (f := t2Sep) ⟨rfl, rfl, rfl, rfl⟩, ← Septic.eight_poly (sym_gSep x' y'), ← Septic.eight_poly (sym_r2Sep r'),
      ← Septic.eight_poly (f := kSep) ⟨rfl, rfl, rfl, rfl⟩]
    simp only [q]
    generalize (t1Sep : Septic K).eight = u1
    generalize (fSep x y).eight = u2
    generalize (r1Sep r).eight = u3
    generalize (t2Sep : Septic K).eight = u4
    generalize (gSep x' y').eight = u5
    generalize (r2Sep r').eight = u6
    generalize (kSep : Septic K).eight = u7
    simp only [symS, Septic.poly]
    ring
  rw [← hq, ← Septic.eight_poly hf]
  refine symS_ext ?_ ?_ a b c
  · intro z
    rw [Septic.eight_poly hf, hq, h, axis_parts]
  · change f.c520 = t * (13 / 4) + s * (x ^ 2 - 2 * x * y + y ^ 2) + rem * (r1Sep r).c520 + t' * (-4) + s' * (x' ^ 2 + 2 * x' * y' - 2 * x' - 2 * y' + 1) +
      rem' * (r2Sep r').c520 + k * 1
    rw [hk]
    cases r <;> cases r' <;> simp only [r1Sep, r2Sep, symS, kerF, kerG] <;> ring

theorem remV_nonneg (r : Option K) (a b c : K) (_ : Octant a b c) : 0 ≤ remV r a b c := by
  cases r <;> exact sq_nonneg _

theorem quadFinish_ok {f : Septic K} (hf : f.IsSym) {A B : Axis K} {S T : K → K} (hA : ∀ t s x y rem r, A = .ok t s x y rem r → 0 ≤ t ∧ 0 ≤ s ∧ 0 ≤ rem ∧ ∀ z, S z = axisVal t s x y rem r z)
    (hB : ∀ t s x y rem r, B = .ok t s x y rem r → 0 ≤ t ∧ 0 ≤ s ∧ 0 ≤ rem ∧ ∀ z, T z = axisVal t s x y rem r z)
    (hax : ∀ z, f.poly z 1 1 = (z - 1) ^ 2 * (z * S z + 2 * T z)) : ∃ r, quadFinish f A B = .ok r ∧ ∀ C, r = some C → Holds f.poly C := by
  unfold quadFinish
  split
  · rename_i ft fc fx fy frem fr gt gc gx gy grem gr
    obtain ⟨a1, a2, a3, a4⟩ := hA _ _ _ _ _ _ rfl
    obtain ⟨b1, b2, b3, b4⟩ := hB _ _ _ _ _ _ rfl
    dsimp only
    generalize hk : f.c520 - fc * (fx - fy) ^ 2 - gc * (gx ^ 2 + 2 * gx * gy - 2 * gx - 2 * gy + 1) - (13 / 4 * ft - 4 * gt) - kerF frem fr - kerG grem gr = ker
    obtain ⟨r, hr, hsol⟩ := axisSolve_ok (fx := fx) (fy := fy) (gx := gx) (gy := gy) (ker := ker) a2 b2
    rw [hr]
    cases r with
    | none => exact ⟨none, rfl, fun C h => by simp at h⟩
    | some C =>
      dsimp only
      obtain ⟨S3, hS3⟩ : ∃ S3 : Cert K, schur 3 = some S3 := ⟨_, rfl⟩
      rw [hS3]
      refine ⟨_, rfl, ?_⟩
      intro D hD
      rw [← Option.some.inj hD]
      have h1 := (((hsol C rfl).add (w := 1) zero_le_one (e := cyc3 fun a b c => a * (2 * a - b - c) ^ 2 * (ft / 4 * (a - b) ^ 2 * (a - c) ^ 2 + gt * (b - c) ^ 4)) (by
          intro a b c ho
          oct_pos)).plus (((schur3_holds hS3).times (remV_nonneg fr)).smul a3)).add b3 (e := fun a b c => remV gr a b c * cyc3 (fun a b c => a * (b - c) ^ 2) a b c) (by
          intro a b c ho
          exact mul_nonneg (remV_nonneg gr a b c ho) (by oct_pos))
      refine h1.congr ?_
      intro a b c
      rw [decomp hf (fun z => by rw [hax, a4, b4]) a b c, hk, t_poly, ← r1_poly, ← r2_poly]
      unfold axisTarget
      ring
  · exact ⟨none, rfl, fun C h => by simp at h⟩

theorem toPoly_divOne (p : UPoly K) : toPoly p = (Polynomial.X - Polynomial.C 1) * toPoly (divOne p).1 + Polynomial.C (divOne p).2 := by
  apply Polynomial.funext
  intro x
  rw [eval_toPoly, divOne_spec]
  simp [eval_toPoly]

theorem degLe_divOne {n : ℕ} {p : UPoly K} (h : DegLe (n + 1) p) : DegLe n (divOne p).1 := by
  by_contra hcon
  unfold DegLe at hcon
  push Not at hcon
  obtain ⟨D, hD, hne⟩ := hcon
  have hq : toPoly (divOne p).1 ≠ 0 := fun h0 => hne (by rw [h0]; simp)
  have hle := Polynomial.le_natDegree_of_ne_zero hne
  set N := (toPoly (divOne p).1).natDegree with hN
  have h1 := h (N + 1) (by omega)
  rw [toPoly_divOne, Polynomial.coeff_add, sub_mul, Polynomial.coeff_sub, Polynomial.coeff_X_mul, Polynomial.coeff_C_mul, Polynomial.coeff_C_succ,
    Polynomial.coeff_eq_zero_of_natDegree_lt (n := N + 1) (by omega)] at h1
  have : (toPoly (divOne p).1).coeff N ≠ 0 := by
    rw [hN]
    exact Polynomial.leadingCoeff_ne_zero.2 hq
  apply this
  linear_combination h1

/-- The calls of the quadratic form: which polynomials the prover is asked to prove. -/
theorem septicQuad_ok {prover : UPoly K → Except PyErr (Option (Sos K × Sos K))} (hp : ProverSound prover) {f : Septic K} (hf : f.IsSym) :
    (∀ C, septicQuad prover f = .ok (some C) → Holds f.poly C) ∧
    ∀ e, septicQuad prover f = .error e → (∃ g, prover g = .error e) ∨
      (e = .typeError ∧ ∃ (L : Sos K), SosNonneg L ∧ (restructure prover (sosPoly L) = .ok none ∨ restructure prover (psmul (1 / 2) (sosPoly L)) = .ok none)) := by
  unfold septicQuad
  dsimp only
  split
  swap
  · exact ⟨fun C h => by simp at h, fun e h => by simp at h⟩
  rename_i h0
  obtain ⟨h1, h2⟩ := h0
  cases hpr : prover (divOne (divOne f.axis).1).1 with
  | error e => exact ⟨fun C h => by simp at h, fun e' h => Or.inl ⟨_, by rw [hpr]; simpa using h⟩⟩
  | ok o =>
    cases o with
    | none => exact ⟨fun C h => by simp at h, fun e h => by simp at h⟩
    | some P =>
      dsimp only
      obtain ⟨hid, n1, n2⟩ := hp _ P hpr
      have hdeg : DegLe 5 (divOne (divOne f.axis).1).1 := degLe_divOne (degLe_divOne (degLe_of_length (n := 7) (by simp [Septic.axis])))
      obtain ⟨d1, d2⟩ := prover_degree hp hpr hdeg
      have g1 : DegLe 4 (psmul (1 / 2) (sosPoly P.1)) := degLe_psmul _ (degLe_sosPoly (d := 2) fun t ht h0 => by have := d1 t ht h0; omega)
      have g2 : DegLe 4 (sosPoly P.2) := degLe_sosPoly (d := 2) fun t ht h0 => by
        by_cases hz : toPoly t.2 = 0
        · rw [hz]
          simp
        · have := d2 t ht h0 hz
          omega
      obtain ⟨e1, s1⟩ := restructure_spec hp g1
      obtain ⟨e2, s2⟩ := restructure_spec hp g2
      have hax : ∀ z, f.poly z 1 1 = (z - 1) ^ 2 * (z * uev (sosPoly P.2) z + 2 * uev (psmul (1 / 2) (sosPoly P.1)) z) := by
        intro z
        rw [← uev_axis, divOne_spec, divOne_spec z (divOne f.axis).1, h1, h2, ← hid z, uev_psmul, uev_sosPoly, uev_sosPoly]
        ring
      cases hA : restructure prover (sosPoly P.2) with
      | error e => exact ⟨fun C h => by simp at h, fun e' h => Or.inl ⟨_, by rw [e2 e hA]; simpa using h⟩⟩
      | ok o =>
        cases o with
        | none => exact ⟨fun C h => by simp at h, fun e h => Or.inr ⟨by simpa using h.symm, P.2, n2, Or.inl hA⟩⟩
        | some A =>
          dsimp only
          cases hB : restructure prover (psmul (1 / 2) (sosPoly P.1)) with
          | error e => exact ⟨fun C h => by simp at h, fun e' h => Or.inl ⟨_, by rw [e1 e hB]; simpa using h⟩⟩
          | ok o =>
            cases o with
            | none => exact ⟨fun C h => by simp at h, fun e h => Or.inr ⟨by simpa using h.symm, P.1, n1, Or.inr hB⟩⟩
            | some B =>
              obtain ⟨r, hr, hC⟩ := quadFinish_ok hf (A := A) (B := B) (S := uev (sosPoly P.2)) (T := uev (psmul (1 / 2) (sosPoly P.1)))
                (fun t s x y rem r h => s2 t s x y rem r (by rw [hA, h])) (fun t s x y rem r h => s1 t s x y rem r (by rw [hB, h])) hax
              dsimp only
              rw [hr]
              exact ⟨fun C h => hC C (Except.ok.inj h), fun e h => by simp at h⟩

/-! ### The solver -/

theorem septic_arity_poly (f : Septic K) (x : Fin 3 → K) : Coeff.evalDict f.terms (List.ofFn x) = f.poly (x 0) (x 1) (x 2) := by
  rw [← polyVal_septic]
  rfl

/-- A complete proof of a septic shows that it is nonnegative on the whole octant, also where the denominator vanishes. -/
theorem nonneg_of_pos {f : Septic K} {C : Cert K} (h : Holds f.poly C) {a b c : K} (ho : Octant a b c) : 0 ≤ f.poly a b c := by
  obtain ⟨ha, hb, hc⟩ := ho
  -- move along a direction with three different coordinates
  have key : ∀ d1 d2 d3 : K, 0 < d1 → 0 < d2 → 0 < d3 → (∀ t, 0 < t → ¬ (a + t * d1 = b + t * d2 ∧ b + t * d2 = c + t * d3)) → 0 ≤ f.poly a b c := by
    intro d1 d2 d3 p1 p2 p3 hne
    have := nonneg_of_ray f.terms (arity_septic f) ![a, b, c] ![d1, d2, d3] (by
      intro t ht
      rw [septic_arity_poly]
      have q1 := mul_pos ht p1
      have q2 := mul_pos ht p2
      have q3 := mul_pos ht p3
      exact h.nonneg (show 0 < a + t * d1 by linarith) (show 0 < b + t * d2 by linarith) (show 0 < c + t * d3 by linarith) (hne t ht))
    rw [septic_arity_poly] at this
    exact this
  by_cases hab : a ≤ b
  · exact key 1 2 1 one_pos two_pos one_pos fun t ht hh => by nlinarith [hh.1]
  · exact key 2 1 1 two_pos one_pos one_pos fun t ht hh => by nlinarith [hh.1]

/-- **C77.** Every answer of the symmetric septic solver is a complete proof; the polynomial is nonnegative on the whole octant. -/
theorem septicSymmetric_sound {six : Septic K → Except PyErr (Option (Cert K))} {prover : UPoly K → Except PyErr (Option (Sos K × Sos K))} {rational : Bool} {f : Septic K}
    (h6 : ∀ f C, six f = .ok (some C) → Holds f.poly C) (hp : ProverSound prover) {C : Cert K} (h : septicSymmetric six prover rational f = .ok (some C)) :
    Holds f.poly C ∧ ∀ a b c, Octant a b c → 0 ≤ f.poly a b c := by
  have key : Holds f.poly C := by
    unfold septicSymmetric at h
    split at h
    · rename_i hs
      cases h6' : six f with
      | error e => rw [h6'] at h; simp at h
      | ok o =>
        rw [h6'] at h
        cases o with
        | some D =>
          rw [← Option.some.inj (Except.ok.inj h)]
          exact h6 f D h6'
        | none =>
          dsimp only at h
          split at h
          · exact (septicQuad_ok hp hs).1 C h
          · simp at h
    · simp at h
  exact ⟨key, fun a b c ho => nonneg_of_pos key ho⟩

/-- **C77 (errors).** The symmetric septic solver raises only what its calls raise, except a `TypeError` when the univariate prover, asked to prove again a sum of squares
that it returned, finds no proof without the factor `x`. -/
theorem septicSymmetric_error {six : Septic K → Except PyErr (Option (Cert K))} {prover : UPoly K → Except PyErr (Option (Sos K × Sos K))} {rational : Bool} {f : Septic K}
    (hp : ProverSound prover) {e : PyErr} (h : septicSymmetric six prover rational f = .error e) :
    six f = .error e ∨ (∃ g, prover g = .error e) ∨ (e = .typeError ∧ ∃ g, (∃ L : Sos K, SosNonneg L ∧ ∀ z, uev g z = sosVal L z) ∧ ∀ P, prover g = .ok (some P) → P.2 ≠ []) := by
  unfold septicSymmetric at h
  split at h
  · rename_i hs
    cases h6' : six f with
    | error e' =>
      rw [h6'] at h
      exact Or.inl (by simpa using h)
    | ok o =>
      rw [h6'] at h
      cases o with
      | some D => simp at h
      | none =>
        dsimp only at h
        split at h
        · have hnone : ∀ g, restructure prover g = .ok none → ∀ P, prover g = .ok (some P) → P.2 ≠ [] := by
            intro g hg P hP
            unfold restructure at hg
            split at hg
            · simp at hg
            · rw [hP] at hg
              dsimp only at hg
              split at hg
              · rename_i h2
                exact h2
              · obtain ⟨r, hr, -⟩ := axisFinish_ok (axisSums_nonneg (hp g P hP).2.1)
                rw [hr] at hg
                simp at hg
          rcases (septicQuad_ok hp hs).2 e h with h1 | ⟨rfl, L, hL, h1 | h1⟩
          · exact Or.inr (Or.inl h1)
          · exact Or.inr (Or.inr ⟨rfl, _, ⟨L, hL, fun z => uev_sosPoly L z⟩, hnone _ h1⟩)
          · refine Or.inr (Or.inr ⟨rfl, _, ⟨L.map fun t => (t.1 / 2, t.2), ?_, ?_⟩, hnone _ h1⟩)
            · intro t ht
              obtain ⟨s, hs', rfl⟩ := List.mem_map.1 ht
              exact div_nonneg (hL s hs') zero_le_two
            · intro z
              rw [uev_psmul, uev_sosPoly]
              unfold sosVal
              rw [List.map_map, ← List.sum_map_mul_left]
              congr 1
              apply List.map_congr_left
              intro t _
              simp only [Function.comp]
              ring
        · simp at h
  · simp at h

/-- The contract that the septic solver places on this function holds. -/
theorem septicSymmetric_contract {six : Septic K → Except PyErr (Option (Cert K))} {prover : UPoly K → Except PyErr (Option (Sos K × Sos K))} (rational : Bool)
    (h6 : ∀ f C, six f = .ok (some C) → Holds f.poly C) (hp : ProverSound prover) : ∀ f C, (∀ a b c, f.poly b a c = f.poly a b c) →
    septicSymmetric six prover rational f = .ok (some C) → Holds f.poly C := fun _ _ _ h => (septicSymmetric_sound h6 hp h).1

/-! ### Example -/

/-- The squares `c_i (x^(i/2))^2` of the even coefficients; `k` is the exponent of the first square root. -/
def exEven : ℕ → UPoly ℚ → Sos ℚ × Sos ℚ
  | _, [] => ([], [])
  | k, [c] => if c = 0 then ([], []) else ([(c, List.replicate k 0 ++ [1])], [])
  | k, c :: d :: p =>
    let r := exEven (k + 1) p
    ((if c = 0 then r.1 else (c, List.replicate k 0 ++ [1]) :: r.1), (if d = 0 then r.2 else (d, List.replicate k 0 ++ [1]) :: r.2))

/-- A prover for polynomials with nonnegative coefficients. -/
def exMono (p : UPoly ℚ) : Except PyErr (Option (Sos ℚ × Sos ℚ)) := if p.all fun c => decide (0 ≤ c) then .ok (some (exEven 0 p)) else .ok none

theorem uev_mono (k : ℕ) (x : ℚ) : uev (List.replicate k 0 ++ [1]) x = x ^ k := by
  induction k with
  | zero => simp [uev]
  | succ k ih =>
    rw [List.replicate_succ, List.cons_append, uev, ih]
    ring

theorem exEven_val (x : ℚ) : ∀ (k : ℕ) (p : UPoly ℚ), sosVal (exEven k p).1 x + x * sosVal (exEven k p).2 x = x ^ (2 * k) * uev p x
  | k, [] => by simp [exEven, sosVal, uev]
  | k, [c] => by
    unfold exEven
    split
    · rename_i h
      simp [sosVal, uev, h]
    · simp only [sosVal, List.map_cons, List.map_nil, List.sum_cons, List.sum_nil, uev_mono, uev]
      ring
  | k, c :: d :: p => by
    have ih := exEven_val x (k + 1) p
    unfold exEven
    dsimp only
    have h1 : sosVal (if c = 0 then (exEven (k + 1) p).1 else (c, List.replicate k 0 ++ [1]) :: (exEven (k + 1) p).1) x = c * x ^ (2 * k) + sosVal (exEven (k + 1) p).1 x := by
      split
      · rename_i h
        rw [h]
        ring
      · simp only [sosVal, List.map_cons, List.sum_cons, uev_mono]
        ring
    have h2 : sosVal (if d = 0 then (exEven (k + 1) p).2 else (d, List.replicate k 0 ++ [1]) :: (exEven (k + 1) p).2) x = d * x ^ (2 * k) + sosVal (exEven (k + 1) p).2 x := by
      split
      · rename_i h
        rw [h]
        ring
      · simp only [sosVal, List.map_cons, List.sum_cons, uev_mono]
        ring
    rw [h1, h2]
    simp only [uev]
    have e : x ^ (2 * (k + 1)) = x ^ (2 * k) * x ^ 2 := by ring
    rw [e] at ih
    linear_combination ih

theorem exEven_nonneg : ∀ (k : ℕ) (p : UPoly ℚ), (∀ c ∈ p, 0 ≤ c) → SosNonneg (exEven k p).1 ∧ SosNonneg (exEven k p).2
  | k, [], _ => by simp [exEven, SosNonneg]
  | k, [c], h => by
    unfold exEven
    split <;> simp [SosNonneg, h c]
  | k, c :: d :: p, h => by
    obtain ⟨h1, h2⟩ := exEven_nonneg (k + 1) p fun x hx => h x (by simp [hx])
    have hc := h c (by simp)
    have hd := h d (by simp)
    unfold exEven
    dsimp only
    constructor
    · split
      · exact h1
      · intro t ht
        rcases List.mem_cons.1 ht with rfl | ht
        · exact hc
        · exact h1 t ht
    · split
      · exact h2
      · intro t ht
        rcases List.mem_cons.1 ht with rfl | ht
        · exact hd
        · exact h2 t ht

theorem exMono_sound : ProverSound exMono := by
  intro g p h
  unfold exMono at h
  split at h
  · rename_i hall
    rw [← Option.some.inj (Except.ok.inj h)]
    have hnn : ∀ c ∈ g, 0 ≤ c := fun c hc => of_decide_eq_true (List.all_eq_true.1 hall c hc)
    refine ⟨?_, exEven_nonneg 0 g hnn⟩
    intro x
    rw [exEven_val]
    simp
  · simp at h

/-- The solver answers `s(a7 + 12(a5b2 + a5c2) - 23a5bc - 9(a4b3 + a4c3) + 10(a4b2c + a4bc2) + 14a3b3c - 18a3b2c2)`. -/
theorem exSepticSym_answered : ∃ C, septicSymmetric (fun _ => .ok none) exMono true (symS 1 0 12 (-23) (-9) 10 14 (-18)) = .ok (some C) ∧
    Holds (symS 1 0 12 (-23) (-9) 10 14 (-18) : Septic ℚ).poly C := by
  obtain ⟨C, hC⟩ := answered_iff (septicSymmetric (fun _ => .ok none) exMono true (symS 1 0 12 (-23) (-9) 10 14 (-18))) (by decide +kernel)
  exact ⟨C, hC, (septicSymmetric_sound (by intro f C h; simp at h) exMono_sound hC).1⟩

end Verif.Ternary
