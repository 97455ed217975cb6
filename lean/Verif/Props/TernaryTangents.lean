import Verif.Props.TernaryRoots

/-!
# The tangents vanish at the roots they are made for
-/

set_option linter.unusedSectionVars false
set_option linter.unusedVariables false

namespace Verif.Roots

open Verif Verif.Ternary

variable {K : Type*} [Field K] [LinearOrder K] [IsStrictOrderedRing K]

/-- At least two of the three rotations. -/
def TwoRot (f : Val3 K) (a b c : K) : Prop := (f a b c = 0 ∧ f b c a = 0) ∨ (f b c a = 0 ∧ f c a b = 0) ∨ (f a b c = 0 ∧ f c a b = 0)

theorem AllRot.two {f : Val3 K} {a b c : K} (h : AllRot f a b c) : TwoRot f a b c := Or.inl ⟨h.1, h.2.1⟩

theorem TwoRot.some {f : Val3 K} {a b c : K} (h : TwoRot f a b c) : SomeRot f a b c := by
  rcases h with h | h | h
  exacts [Or.inl h.1, Or.inr (Or.inl h.1), Or.inl h.1]

theorem someRot_rot {f : Val3 K} {a b c : K} : SomeRot f b c a ↔ SomeRot f a b c := by unfold SomeRot; tauto

theorem twoRot_rot {f : Val3 K} {a b c : K} : TwoRot f b c a ↔ TwoRot f a b c := by unfold TwoRot; tauto

theorem allRot_rot {f : Val3 K} {a b c : K} : AllRot f b c a ↔ AllRot f a b c := by unfold AllRot; tauto

/-! ### One interior root -/

theorem diamond_vanishes {a b c u v : K} (h : uv a b c = some (u, v)) (hc : isCentered a b c = false) : AllRot (diamond u v) a b c := by
  obtain ⟨hd, rfl, rfl⟩ := uv_some h hc
  unfold AllRot diamond
  refine ⟨?_, ?_, ?_⟩ <;> · field_simp; unfold den; ring

theorem AllRot.comb {f g : Val3 K} {a b c : K} (x y : K) (hf : AllRot f a b c) (hg : AllRot g a b c) : AllRot (fun a b c => x * f a b c + y * g b c a) a b c := by
  obtain ⟨f1, f2, f3⟩ := hf
  obtain ⟨g1, g2, g3⟩ := hg
  exact ⟨by dsimp only; rw [f1, g2]; ring, by dsimp only; rw [f2, g3]; ring, by dsimp only; rw [f3, g1]; ring⟩

/-- **Quadratic tangents of an interior root** vanish at the root and its rotations. -/
theorem tanQuadratic_vanishes (strict : Bool) {a b c u v : K} (h : uv a b c = some (u, v)) : ∀ f ∈ tanQuadratic (isCentered a b c) strict u v, AllRot f a b c := by
  intro f hf
  unfold tanQuadratic at hf
  rcases List.mem_append.1 hf with hf | hf
  · rw [List.mem_singleton.1 hf]; exact quad_vanishes h
  · split at hf
    · rename_i hcs
      rw [Bool.and_eq_true, Bool.not_eq_true'] at hcs
      have hd := diamond_vanishes h hcs.1
      simp only [List.mem_cons, List.not_mem_nil, or_false] at hf
      rcases hf with rfl | rfl | rfl
      · exact hd
      · exact hd.comb _ _ hd
      · exact hd.comb _ _ hd
    · exact absurd hf List.not_mem_nil

example : ∀ f ∈ tanQuadratic (isCentered (2 : ℚ) 3 7) true (635 / 169) (395 / 169), AllRot f (2 : ℚ) 3 7 :=
  tanQuadratic_vanishes true (by unfold uv den isCentered isCorner; norm_num)

theorem centered_uv {a b c u v : K} (h : uv a b c = some (u, v)) (hc : isCentered a b c = true) : u = 2 ∧ v = 2 ∧ a = b ∧ a = c := by
  have e : uv a b c = some (2, 2) := by unfold uv; rw [hc]; rfl
  rw [e] at h
  have := Option.some.inj h
  exact ⟨(Prod.mk.inj this).1.symm, (Prod.mk.inj this).2.symm, of_decide_eq_true hc⟩

theorem inverseQuad_vanishes {a b c u v : K} (h : uv a b c = some (u, v)) (h1 : u * v ≠ 1) : AllRot (inverseQuad ((u * u + v) / (u * v - 1)) ((v * v + u) / (u * v - 1))) a b c := by
  have hw : u * v - 1 ≠ 0 := sub_ne_zero.2 h1
  have key : ∀ x y z : K, inverseQuad ((u * u + v) / (u * v - 1)) ((v * v + u) / (u * v - 1)) x y z * (u * v - 1) =
      (u * v - 1) * (x ^ 2 * z - y ^ 2 * z) - (u * u + v) * (x ^ 2 * y - x * y * z) + (v * v + u) * (x * y ^ 2 - x * y * z) := by
    intro x y z
    unfold inverseQuad
    field_simp
  have fin : ∀ x y z : K, (u * v - 1) * (x ^ 2 * z - y ^ 2 * z) - (u * u + v) * (x ^ 2 * y - x * y * z) + (v * v + u) * (x * y ^ 2 - x * y * z) = 0 →
      inverseQuad ((u * u + v) / (u * v - 1)) ((v * v + u) / (u * v - 1)) x y z = 0 := by
    intro x y z hz
    rw [← key] at hz
    exact (mul_eq_zero.1 hz).resolve_right hw
  clear key
  refine ⟨fin _ _ _ ?_, fin _ _ _ ?_, fin _ _ _ ?_⟩
  all_goals
    clear fin
    by_cases hc : isCentered a b c = true
    · obtain ⟨rfl, rfl, rfl, rfl⟩ := centered_uv h hc
      ring
    · rw [Bool.not_eq_true] at hc
      obtain ⟨hd, rfl, rfl⟩ := uv_some h hc
      clear hw h1
      field_simp
      unfold den
      ring

theorem umbrella_vanishes {a b c u v : K} (h : uv a b c = some (u, v)) : AllRot (umbrella u v) a b c := by
  by_cases hc : isCentered a b c = true
  · obtain ⟨rfl, rfl, rfl, rfl⟩ := centered_uv h hc
    unfold AllRot umbrella
    refine ⟨?_, ?_, ?_⟩ <;> ring
  · rw [Bool.not_eq_true] at hc
    obtain ⟨hd, rfl, rfl⟩ := uv_some h hc
    unfold AllRot umbrella
    refine ⟨?_, ?_, ?_⟩ <;> · field_simp; unfold den; ring

theorem scythe_vanishes {a b c u v : K} (h : uv a b c = some (u, v)) : AllRot (scythe u v) a b c := by
  by_cases hc : isCentered a b c = true
  · obtain ⟨rfl, rfl, rfl, rfl⟩ := centered_uv h hc
    unfold AllRot scythe
    refine ⟨?_, ?_, ?_⟩ <;> ring
  · rw [Bool.not_eq_true] at hc
    obtain ⟨hd, rfl, rfl⟩ := uv_some h hc
    unfold AllRot scythe
    refine ⟨?_, ?_, ?_⟩ <;> · field_simp; unfold den; ring

/-- **Cubic tangents of an interior root** vanish at the root and its rotations. -/
theorem tanCubic_vanishes {a b c u v : K} (h : uv a b c = some (u, v)) : ∀ f ∈ tanCubic (isCentered a b c) u v, AllRot f a b c := by
  intro f hf
  unfold tanCubic at hf
  split at hf
  · exact absurd hf List.not_mem_nil
  · rename_i h1
    rcases List.mem_append.1 hf with hf | hf
    · simp only [List.mem_cons, List.not_mem_nil, or_false] at hf
      rcases hf with rfl | rfl | rfl
      · exact inverseQuad_vanishes h h1
      · exact umbrella_vanishes h
      · exact scythe_vanishes h
    · split at hf
      · rename_i hc
        simp only [List.mem_cons, List.not_mem_nil, or_false] at hf
        have hcu := centered_uv h hc
        rcases hf with rfl | rfl
        · obtain ⟨rfl, rfl, rfl, rfl⟩ := hcu
          unfold AllRot knife
          refine ⟨?_, ?_, ?_⟩ <;> ring
        · obtain ⟨rfl, rfl, rfl, rfl⟩ := hcu
          unfold AllRot trapezoid
          refine ⟨?_, ?_, ?_⟩ <;> ring
      · rename_i hc
        rw [Bool.not_eq_true] at hc
        simp only [List.mem_cons, List.not_mem_nil, or_false] at hf
        clear h1
        have hcu := uv_some h hc
        rcases hf with rfl | rfl
        · obtain ⟨hd, rfl, rfl⟩ := hcu
          unfold AllRot cyc3
          refine ⟨?_, ?_, ?_⟩ <;> · field_simp; unfold den; ring
        · obtain ⟨hd, rfl, rfl⟩ := hcu
          unfold AllRot cyc3
          refine ⟨?_, ?_, ?_⟩ <;> · field_simp; unfold den; ring

example : ∀ f ∈ tanCubic (isCentered (2 : ℚ) 3 7) (635 / 169) (395 / 169), AllRot f (2 : ℚ) 3 7 := tanCubic_vanishes (by unfold uv den isCentered isCorner; norm_num)

/-- The cubic tangents are not empty unless a variable, the sum, or all differences are zero. -/
theorem tanCubic_ne_nil {a b c u v : K} (h : uv a b c = some (u, v)) (h0 : a * b * c * (a + b + c) ≠ 0) : tanCubic (isCentered a b c) u v ≠ [] := by
  have hs : a + b + c ≠ 0 := right_ne_zero_of_mul h0
  have f := facts h hs
  have hr : u * v - 1 ≠ 0 := by
    intro e
    have hr := f.r
    rw [e, zero_div] at hr
    exact div_ne_zero (left_ne_zero_of_mul h0) (pow_ne_zero 3 hs) hr.symm
  unfold tanCubic
  rw [if_neg (sub_ne_zero.1 hr)]
  simp

/-! ### One border root -/

/-- **The border parameter**: the root is a rotation of a multiple of `(x, 1, 0)`. -/
theorem borderX_spec {a b c x : K} (h : borderX a b c = some x) (hx : x ≠ 0) : ∃ l, l ≠ 0 ∧ ((a, b, c) = (l * x, l, 0) ∨ (a, b, c) = (l, 0, l * x) ∨ (a, b, c) = (0, l * x, l)) := by
  unfold borderX at h
  split at h
  · rename_i ha
    have e := Option.some.inj h
    have hc : c ≠ 0 := by rintro rfl; rw [div_zero] at e; exact hx e.symm
    exact ⟨c, hc, Or.inr (Or.inr (by rw [← e, ha]; congr 2; field_simp))⟩
  · split at h
    · rename_i ha hb
      have e := Option.some.inj h
      exact ⟨a, ha, Or.inr (Or.inl (by rw [← e, hb]; congr 2; field_simp))⟩
    · split at h
      · rename_i ha hb hc
        have e := Option.some.inj h
        exact ⟨b, hb, Or.inl (by rw [← e, hc]; congr 2; field_simp)⟩
      · exact absurd h (by simp)

theorem borderX_two {a b c x : K} {f : Val3 K} (h : borderX a b c = some x) (hx : x ≠ 0) (hf : ∀ l, TwoRot f (l * x) l 0) : TwoRot f a b c := by
  obtain ⟨l, -, e | e | e⟩ := borderX_spec h hx
  all_goals
    obtain ⟨rfl, e2⟩ := Prod.mk.inj e
    obtain ⟨rfl, rfl⟩ := Prod.mk.inj e2
  · exact hf _
  · exact twoRot_rot.2 (hf _)
  · exact twoRot_rot.1 (hf _)

theorem borderX_some' {a b c x : K} {f : Val3 K} (h : borderX a b c = some x) (hx : x ≠ 0) (hf : ∀ l, SomeRot f (l * x) l 0) : SomeRot f a b c := by
  obtain ⟨l, -, e | e | e⟩ := borderX_spec h hx
  all_goals
    obtain ⟨rfl, e2⟩ := Prod.mk.inj e
    obtain ⟨rfl, rfl⟩ := Prod.mk.inj e2
  · exact hf _
  · exact someRot_rot.2 (hf _)
  · exact someRot_rot.1 (hf _)

/-- **Tangents of a border root** vanish at two of the three rotations of the root. -/
theorem tanBorder_vanishes {a b c x : K} (h : borderX a b c = some x) : ∀ f ∈ tanBorder x, TwoRot f a b c := by
  intro f hf
  unfold tanBorder at hf
  split at hf
  · exact absurd hf List.not_mem_nil
  · rename_i hx
    refine borderX_two h hx fun l => ?_
    split at hf
    · rename_i h1
      subst h1
      rw [List.mem_singleton.1 hf]
      exact Or.inr (Or.inl ⟨by dsimp only; ring, by dsimp only; ring⟩)
    · simp only [List.mem_cons, List.not_mem_nil, or_false] at hf
      rcases hf with rfl | rfl
      · exact Or.inl ⟨by dsimp only; ring, by dsimp only; ring⟩
      · exact Or.inl ⟨by dsimp only; field_simp; ring, by dsimp only; field_simp; ring⟩

example : ∀ f ∈ tanBorder (2 : ℚ), TwoRot f 0 6 3 := tanBorder_vanishes (by unfold borderX; norm_num)

/-- The tangent for a quadratic irrational border root. -/
theorem tanBorderQuad_vanishes {a b c x u v w : K} (h : borderX a b c = some x) (hx : x ≠ 0) (hr : u * x ^ 2 + v * x + w = 0) : TwoRot (tanBorderQuad u v w) a b c := by
  refine borderX_two h hx fun l => Or.inl ⟨?_, ?_⟩
  · unfold tanBorderQuad
    linear_combination l ^ 2 * w * hr
  · unfold tanBorderQuad
    linear_combination l ^ 2 * u * hr

/-- **Symmetric tangents of a border root** vanish at some rotation of the root and of its mirror image. -/
theorem tanSymBorder_vanishes (strict : Bool) {a b c x : K} (h : borderX a b c = some x) : ∀ f ∈ tanSymBorder strict x, SomeRot f a b c ∧ SomeRot f b a c := by
  intro f hf
  unfold tanSymBorder at hf
  split at hf
  · exact absurd hf List.not_mem_nil
  · rename_i hx
    suffices H : ∀ l, SomeRot f (l * x) l 0 ∧ SomeRot f l (l * x) 0 by
      refine ⟨borderX_some' h hx fun l => (H l).1, ?_⟩
      obtain ⟨l, -, e | e | e⟩ := borderX_spec h hx
      all_goals
        obtain ⟨rfl, e2⟩ := Prod.mk.inj e
        obtain ⟨rfl, rfl⟩ := Prod.mk.inj e2
      · exact (H _).2
      · exact someRot_rot.1 (H _).2
      · exact someRot_rot.2 (H _).2
    intro l
    split at hf
    · rename_i h1
      subst h1
      rw [List.mem_singleton.1 hf]
      exact ⟨Or.inr (Or.inl (by dsimp only; ring)), Or.inr (Or.inl (by dsimp only; ring))⟩
    · split at hf
      · exact absurd hf List.not_mem_nil
      · dsimp only at hf
        split at hf
        · simp only [List.mem_cons, List.not_mem_nil, or_false] at hf
          rcases hf with rfl | rfl
          · exact ⟨Or.inr (Or.inl (by dsimp only; field_simp; ring)), Or.inr (Or.inl (by dsimp only; field_simp; ring))⟩
          · exact ⟨Or.inl (by dsimp only; field_simp; ring), Or.inl (by dsimp only; field_simp; ring)⟩
        · exact absurd hf List.not_mem_nil

example : ∀ f ∈ tanSymBorder true (1 / 2 : ℚ), SomeRot f 3 6 0 ∧ SomeRot f 6 3 0 := tanSymBorder_vanishes true (by unfold borderX; norm_num)

/-! ### One symmetric root -/

/-- **The symmetric parameter**: the root is a rotation of a multiple of `(x, 1, 1)`. -/
theorem symX_spec {a b c x : K} (h : symX a b c = some x) (hc : isCorner a b c = false) : ∃ l, l ≠ 0 ∧ ((a, b, c) = (l * x, l, l) ∨ (a, b, c) = (l, l, l * x) ∨ (a, b, c) = (l, l * x, l)) := by
  have hcor : ¬ isCorner a b c = true := by simp [hc]
  rw [isCorner_iff] at hcor
  unfold symX at h
  split at h
  · rename_i ha
    have e := Option.some.inj h
    have hb : b ≠ 0 := fun hb => hcor (Or.inl ⟨ha.trans hb, hb⟩)
    exact ⟨b, hb, Or.inr (Or.inl (by rw [← e, ha]; congr 2; field_simp))⟩
  · split at h
    · rename_i ha hbc
      have e := Option.some.inj h
      have hb : c ≠ 0 := fun hb => hcor (Or.inr (Or.inl ⟨hbc.trans hb, hb⟩))
      exact ⟨c, hb, Or.inl (by rw [← e, hbc]; congr 1; field_simp)⟩
    · split at h
      · rename_i ha hbc hca
        have e := Option.some.inj h
        have hb : a ≠ 0 := fun hb => hcor (Or.inr (Or.inr ⟨hca.trans hb, hb⟩))
        exact ⟨a, hb, Or.inr (Or.inr (by rw [← e, hca]; congr 2; field_simp))⟩
      · exact absurd h (by simp)

theorem symX_two {a b c x : K} {f : Val3 K} (h : symX a b c = some x) (hc : isCorner a b c = false) (hf : ∀ l, TwoRot f (l * x) l l) : TwoRot f a b c := by
  obtain ⟨l, -, e | e | e⟩ := symX_spec h hc
  all_goals
    obtain ⟨rfl, e2⟩ := Prod.mk.inj e
    obtain ⟨rfl, rfl⟩ := Prod.mk.inj e2
  · exact hf _
  · exact twoRot_rot.2 (hf _)
  · exact twoRot_rot.1 (hf _)

/-- **Tangents of a symmetric root** vanish at two of the three rotations of the root. -/
theorem tanSym_vanishes {a b c x : K} (h : symX a b c = some x) (hc : isCorner a b c = false) : ∀ f ∈ tanSym x, TwoRot f a b c := by
  intro f hf
  refine symX_two h hc fun l => ?_
  unfold tanSym at hf
  split at hf
  · rename_i hx
    subst hx
    rw [List.mem_singleton.1 hf]
    exact Or.inr (Or.inr ⟨by dsimp only; ring, by dsimp only; ring⟩)
  · simp only [List.mem_cons, List.not_mem_nil, or_false] at hf
    rcases hf with rfl | rfl | rfl
    · exact Or.inr (Or.inr ⟨by dsimp only; ring, by dsimp only; ring⟩)
    · exact Or.inr (Or.inl ⟨by dsimp only; ring, by dsimp only; ring⟩)
    · exact Or.inl ⟨by dsimp only; ring, by dsimp only; ring⟩

example : ∀ f ∈ tanSym (3 : ℚ), TwoRot f 2 6 2 := tanSym_vanishes (by unfold symX; norm_num) (by unfold isCorner; norm_num)

/-- The tangents for a quadratic irrational symmetric root. -/
theorem tanSymQuad_vanishes {a b c x u v w : K} (h : symX a b c = some x) (hc : isCorner a b c = false) (hr : u * x ^ 2 + v * x + w = 0) : ∀ f ∈ tanSymQuad u v w, TwoRot f a b c := by
  intro f hf
  refine symX_two h hc fun l => ?_
  obtain ⟨t, -, rfl⟩ := List.mem_map.1 hf
  refine Or.inr (Or.inl ⟨?_, ?_⟩)
  · dsimp only
    linear_combination l ^ 2 * hr
  · dsimp only
    linear_combination l ^ 2 * hr

/-! ### An interior and a border root -/

theorem quad_border (u v x l : K) : quad u v (l * x) l 0 = l ^ 2 * (x ^ 2 - 1 + u * x - v * x) := by unfold quad; ring

theorem quad_border2 (u v x l : K) : quad u v l 0 (l * x) = l ^ 2 * (1 - u * x) := by unfold quad; ring

theorem quad_border3 (u v x l : K) : quad u v 0 (l * x) l = l ^ 2 * (v * x - x ^ 2) := by unfold quad; ring

theorem mixT_interior {a b c u v x : K} {t : Option K} {f : Val3 K} (h : AllRot (quad u v) a b c) (hf : mixT u v x t = some f) : AllRot f a b c := by
  obtain ⟨h1, h2, h3⟩ := h
  unfold mixT at hf
  dsimp only at hf
  split at hf
  · rw [← Option.some.inj hf]
    exact ⟨by dsimp only; rw [h1, h2]; ring, by dsimp only; rw [h2, h3]; ring, by dsimp only; rw [h3, h1]; ring⟩
  · split at hf
    · exact absurd hf (by simp)
    · split at hf
      · rw [← Option.some.inj hf]
        exact ⟨by dsimp only; rw [h1, h2]; ring, by dsimp only; rw [h2, h3]; ring, by dsimp only; rw [h3, h1]; ring⟩
      · rw [← Option.some.inj hf]
        exact ⟨by dsimp only; rw [h1, h2]; ring, by dsimp only; rw [h2, h3]; ring, by dsimp only; rw [h3, h1]; ring⟩

theorem mixT_border {u v x : K} {t : Option K} {f : Val3 K} (hf : mixT u v x t = some f) (l : K) : f 0 (l * x) l = 0 := by
  unfold mixT at hf
  dsimp only at hf
  split at hf
  · rw [← Option.some.inj hf]
    dsimp only; unfold quad; ring
  · split at hf
    · exact absurd hf (by simp)
    · split at hf
      · rw [← Option.some.inj hf]
        dsimp only; unfold quad; ring
      · rw [← Option.some.inj hf]
        dsimp only; unfold quad; ring

theorem mixT2_interior {a b c u v x : K} {t : Option K} {f : Val3 K} (h : AllRot (quad u v) a b c) (hf : mixT2 u v x t = some f) : AllRot f a b c := by
  obtain ⟨h1, h2, h3⟩ := h
  unfold mixT2 at hf
  dsimp only at hf
  split at hf
  · rw [← Option.some.inj hf]
    exact ⟨by dsimp only; rw [h1, h2]; ring, by dsimp only; rw [h2, h3]; ring, by dsimp only; rw [h3, h1]; ring⟩
  · split at hf
    · exact absurd hf (by simp)
    · rw [← Option.some.inj hf]
      exact ⟨by dsimp only; rw [h1, h2]; ring, by dsimp only; rw [h2, h3]; ring, by dsimp only; rw [h3, h1]; ring⟩

theorem mixT2_border {u v x : K} {t : Option K} {f : Val3 K} (hf : mixT2 u v x t = some f) (l : K) : f (l * x) l 0 = 0 := by
  unfold mixT2 at hf
  dsimp only at hf
  split at hf
  · rw [← Option.some.inj hf]
    dsimp only; unfold quad; ring
  · split at hf
    · exact absurd hf (by simp)
    · rw [← Option.some.inj hf]
      dsimp only; unfold quad; ring

/-- **Mixed tangents** of an interior and a border root vanish at the interior root with its rotations and at a rotation of the border root. -/
theorem mix11_vanishes {a b c u v a' b' c' x : K} {l : List (Val3 K)} (h : uv a b c = some (u, v)) (hb : borderX a' b' c' = some x) (hl : mix11 u v x = some l) :
    ∀ f ∈ l, AllRot f a b c ∧ SomeRot f a' b' c' := by
  intro f hf
  have hq := quad_vanishes h
  unfold mix11 at hl
  split at hl
  · rw [← Option.some.inj hl] at hf
    exact absurd hf List.not_mem_nil
  · rename_i hx
    dsimp only at hl
    split at hl
    · exact absurd hl (by simp)
    · rw [← Option.some.inj hl] at hf
      obtain ⟨g, hg, hgf⟩ := List.mem_filterMap.1 hf
      have hgf : g = some f := hgf
      subst hgf
      have hT : ∀ t, mixT u v x t = some f → AllRot f a b c ∧ SomeRot f a' b' c' := fun t ht =>
        ⟨mixT_interior hq ht, borderX_some' hb hx fun l => Or.inr (Or.inr (mixT_border ht l))⟩
      have hT2 : ∀ t, mixT2 u v x t = some f → AllRot f a b c ∧ SomeRot f a' b' c' := fun t ht =>
        ⟨mixT2_interior hq ht, borderX_some' hb hx fun l => Or.inl (mixT2_border ht l)⟩
      simp only [List.mem_append, List.mem_cons, List.not_mem_nil, or_false] at hg
      rcases hg with (hg | hg | hg | hg) | hg | hg
      · exact hT _ hg.symm
      · exact hT _ hg.symm
      · split at hg
        · exact hT _ hg.symm
        · exact absurd hg (by simp)
      · split at hg
        · exact hT _ hg.symm
        · exact absurd hg (by simp)
      · exact hT2 _ hg.symm
      · split at hg
        · exact hT2 _ hg.symm
        · exact absurd hg (by simp)

example : (mix11 (635 / 169 : ℚ) (395 / 169) 2).isSome = true := by decide +kernel

/-- **Fault**: the mixed tangents raise `NameError` if the parameters are equal. -/
theorem mix11_raises {u v x : K} (hx : x ≠ 0) : mix11 u v x = none ↔ u = v := by
  unfold mix11
  rw [if_neg hx]
  dsimp only
  split
  · rename_i h; exact ⟨fun _ => h, fun _ => rfl⟩
  · rename_i h; exact ⟨fun h => absurd h (by simp), fun h' => absurd h' h⟩

/-- **No exact interior root with nonzero sum raises.** -/
theorem mix11_total {a b c u v x : K} (h : uv a b c = some (u, v)) (hn : isNontrivial a b c = true) (hs : a + b + c ≠ 0) : (mix11 u v x).isSome = true := by
  by_cases hx : x = 0
  · unfold mix11; rw [if_pos hx]; rfl
  · rw [Option.isSome_iff_ne_none]
    intro e
    rw [mix11_raises hx, uv_eq_iff h] at e
    have hsym : isSymmetric a b c = false := by
      unfold isNontrivial at hn
      revert hn
      cases isSymmetric a b c <;> simp
    have hns := not_sym (by simp [hsym] : ¬ isSymmetric a b c = true)
    rcases e with e | e | e | e
    exacts [hns.1 e, hns.2.1 e, hns.2.2 e, hs e]

theorem mixV_interior {a b c u v : K} (c2 c1 c0 t : K) (h : AllRot (quad u v) a b c) : AllRot (mixV u v c2 c1 c0 t) a b c := by
  obtain ⟨h1, h2, h3⟩ := h
  unfold mixV
  exact ⟨by dsimp only; rw [h1, h2]; ring, by dsimp only; rw [h2, h3]; ring, by dsimp only; rw [h3, h1]; ring⟩

theorem mixV_border {u v x c2 c1 c0 : K} (t : K) (hr : c2 * x ^ 2 + c1 * x + c0 = 0) (l : K) : TwoRot (mixV u v c2 c1 c0 t) (l * x) l 0 := by
  refine Or.inl ⟨?_, ?_⟩
  · unfold mixV vertex1 vertex2
    simp only [List.zipWith_cons_cons, List.getD_cons_zero, List.getD_cons_succ, quad_border, quad_border2]
    have hc : c0 = -(c2 * x ^ 2) - c1 * x := by linear_combination hr
    subst hc
    ring
  · unfold mixV vertex1 vertex2
    simp only [List.zipWith_cons_cons, List.getD_cons_zero, List.getD_cons_succ, quad_border3, quad_border2]
    have hc : c0 = -(c2 * x ^ 2) - c1 * x := by linear_combination hr
    subst hc
    ring

/-- **Mixed tangents of an interior and two border roots**, given by the relation they satisfy. -/
theorem mix12_vanishes {a b c u v a' b' c' x c2 c1 c0 : K} (h : uv a b c = some (u, v)) (hb : borderX a' b' c' = some x) (hx : x ≠ 0) (hr : c2 * x ^ 2 + c1 * x + c0 = 0) :
    ∀ f ∈ mix12 u v c2 c1 c0, AllRot f a b c ∧ (f = quad u v ∨ TwoRot f a' b' c') := by
  intro f hf
  have hq := quad_vanishes h
  have hV : ∀ t, f = mixV u v c2 c1 c0 t → AllRot f a b c ∧ (f = quad u v ∨ TwoRot f a' b' c') := by
    rintro t rfl
    exact ⟨mixV_interior _ _ _ _ hq, Or.inr (borderX_two hb hx (mixV_border t hr))⟩
  unfold mix12 at hf
  dsimp only at hf
  simp only [List.mem_append] at hf
  rcases hf with (hf | hf) | hf
  · simp only [List.mem_cons, List.not_mem_nil, or_false] at hf
    rcases hf with rfl | hf
    · exact ⟨hq, Or.inl rfl⟩
    · exact hV _ hf
  · split at hf
    · exact hV _ (List.mem_singleton.1 hf)
    · exact absurd hf List.not_mem_nil
  · split at hf
    · rcases List.mem_append.1 hf with hf | hf
      · exact hV _ (List.mem_singleton.1 hf)
      · split at hf
        · exact hV _ (List.mem_singleton.1 hf)
        · exact absurd hf List.not_mem_nil
    · exact absurd hf List.not_mem_nil

/-- **Mixed tangents of a symmetric and a border root**: all vanish at two rotations of the symmetric root, the first also at two rotations of the border root. -/
theorem mixSym_vanishes {a b c x a' b' c' y : K} (h : symX a b c = some x) (hc : isCorner a b c = false) (hx : x ≠ 0) (hb : borderX a' b' c' = some y) (hy : y ≠ 0) :
    (∀ f ∈ mixSym (y + 1 / y) x, TwoRot f a b c) ∧ ∀ f ∈ (mixSym (y + 1 / y) x).head?, TwoRot f a' b' c' := by
  constructor
  · intro f hf
    refine symX_two h hc fun l => ?_
    unfold mixSym at hf
    dsimp only at hf
    simp only [List.mem_cons, List.not_mem_nil, or_false] at hf
    rcases hf with rfl | rfl | rfl
    · exact Or.inr (Or.inl ⟨by dsimp only; field_simp; ring, by dsimp only; field_simp; ring⟩)
    · exact Or.inr (Or.inr ⟨by dsimp only; ring, by dsimp only; ring⟩)
    · exact Or.inr (Or.inl ⟨by dsimp only; ring, by dsimp only; ring⟩)
  · intro f hf
    refine borderX_two hb hy fun l => ?_
    unfold mixSym at hf
    dsimp only at hf
    rw [List.head?_cons, Option.mem_some_iff] at hf
    subst hf
    exact Or.inl ⟨by dsimp only; field_simp; ring, by dsimp only; field_simp; ring⟩

example : ∃ f, f ∈ mixSym (5 / 2 : ℚ) 3 := ⟨_, List.mem_cons_self ..⟩

/-! ### Polynomials without symmetry -/

theorem lineT_self (x y z : K) : lineT x y z x y z = 0 := by unfold lineT; ring

theorem perpLine_self (x y z : K) : perpLine x y z x y z = 0 := by unfold perpLine; ring

/-- **Tangents of a root of a polynomial without symmetry** vanish at the root. -/
theorem tanRational_vanishes (x y z : K) : ∀ f ∈ tanRational x y z, f x y z = 0 := by
  intro f hf
  unfold tanRational at hf
  split at hf
  · rw [List.mem_singleton.1 hf]; exact perpLine_self x y z
  · simp only [List.mem_cons, List.not_mem_nil, or_false] at hf
    rcases hf with rfl | rfl | rfl | rfl
    · exact lineT_self x y z
    · exact perpLine_self x y z
    · ring
    · ring

theorem tanAcBorder_vanishes (x y z : K) : ∀ f ∈ tanAcBorder x y z, f x y z = 0 := by
  intro f hf
  unfold tanAcBorder at hf
  split at hf
  · exact absurd hf List.not_mem_nil
  · simp only [List.mem_cons, List.not_mem_nil, or_false] at hf
    rcases hf with rfl | rfl
    · exact lineT_self x y z
    · exact perpLine_self x y z

theorem lineThrough_vanishes (r1 r2 : K × K × K) : lineThrough r1 r2 r1.1 r1.2.1 r1.2.2 = 0 ∧ lineThrough r1 r2 r2.1 r2.2.1 r2.2.2 = 0 := by
  unfold lineThrough
  exact ⟨by ring, by ring⟩

/-- **Tangents of several border roots**: each vanishes at a root of the list, and each pair of roots has a tangent that vanishes at both. -/
theorem tanMulti_vanishes (l : List (K × K × K)) : (∀ f ∈ tanMulti l, ∃ r ∈ l, f r.1 r.2.1 r.2.2 = 0) ∧
    l.Pairwise fun r s => ∃ f ∈ tanMulti l, f r.1 r.2.1 r.2.2 = 0 ∧ f s.1 s.2.1 s.2.2 = 0 := by
  induction l with
  | nil => exact ⟨fun f hf => absurd hf List.not_mem_nil, List.Pairwise.nil⟩
  | cons r l ih =>
    constructor
    · intro f hf
      rw [tanMulti] at hf
      simp only [List.mem_append, List.mem_cons, List.cons_append] at hf
      rcases hf with hf | hf | hf
      · exact ⟨r, List.mem_cons_self .., by rw [hf]; exact lineT_self _ _ _⟩
      · obtain ⟨s, hs, rfl⟩ := List.mem_map.1 hf
        exact ⟨r, List.mem_cons_self .., (lineThrough_vanishes r s).1⟩
      · obtain ⟨s, hs, h⟩ := ih.1 f hf
        exact ⟨s, List.mem_cons_of_mem _ hs, h⟩
    · rw [List.pairwise_cons]
      constructor
      · intro s hs
        refine ⟨lineThrough r s, ?_, lineThrough_vanishes r s⟩
        rw [tanMulti]
        simp only [List.mem_append, List.mem_cons, List.cons_append]
        exact Or.inr (Or.inl (List.mem_map.2 ⟨s, hs, rfl⟩))
      · refine ih.2.imp ?_
        rintro p q ⟨f, hf, h⟩
        refine ⟨f, ?_, h⟩
        rw [tanMulti]
        simp only [List.mem_append, List.mem_cons, List.cons_append]
        exact Or.inr (Or.inr hf)

end Verif.Roots
