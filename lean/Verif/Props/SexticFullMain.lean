import Verif.Props.SexticFull
import Verif.Props.TernaryQuinticMain

/-!
# What the solver of symmetric sextics guarantees: roots on the border and on the axis
-/

set_option linter.unusedSectionVars false

namespace Verif.Ternary

open Verif Verif.Acute Verif.Dense

variable {K : Type*} [Field K] [LinearOrder K] [IsStrictOrderedRing K]

/-- An answer for the polynomial or, because of one of the recorded faults of `_sos_struct_sextic_iran96`, for the polynomial minus a nonnegative multiple of one of two expressions. -/
def UpTo (f : Val3 K) (C : Cert K) : Prop :=
  ∃ k e, 0 ≤ k ∧ (e = hx2 ∨ e = fun a b c => sab3 a b c * cyc3 (fun a b c => a ^ 2 * (b - c) ^ 2) a b c) ∧ Holds (fun a b c => f a b c - k * e a b c) C

theorem Holds.upTo {f : Val3 K} {C : Cert K} (h : Holds f C) : UpTo f C := ⟨0, hx2, le_rfl, .inl rfl, h.congr fun a b c => by ring⟩

theorem UpTo.map {f g : Val3 K} {C D : Cert K} (h : UpTo f C) (hm : ∀ v : Val3 K, Holds (fun a b c => f a b c - v a b c) C → Holds (fun a b c => g a b c - v a b c) D) : UpTo g D := by
  obtain ⟨k, e, hk, he, h⟩ := h
  exact ⟨k, e, hk, he, hm (fun a b c => k * e a b c) h⟩

theorem UpTo.nonneg {f : Val3 K} {C : Cert K} (h : UpTo f C) {a b c : K} (ha : 0 < a) (hb : 0 < b) (hc : 0 < c) (hn : ¬ (a = b ∧ b = c)) : 0 ≤ f a b c := by
  obtain ⟨k, e, hk, he, h⟩ := h
  have h1 := h.nonneg ha hb hc hn
  have ho : Octant a b c := ⟨ha.le, hb.le, hc.le⟩
  have h2 : 0 ≤ e a b c := by
    rcases he with rfl | rfl
    · exact hx2_nonneg ho
    · exact mul_nonneg (by unfold sab3; oct_pos) (by oct_pos)
  nlinarith [mul_nonneg hk h2]

theorem sxIran_upTo {X : IranExt K} (hX : X.Sound) {real : Bool} {f : Sextic K} (h0 : f.poly 1 1 1 = 0) {C : Cert K} (h : sxIran X real f = .ok (some C)) : UpTo f.poly C := by
  rcases sxIran_sound hX h with h | ⟨h1, -⟩ | ⟨k, hk, h⟩ | ⟨k, hk, h⟩
  · exact h.upTo
  · exact absurd h0 h1.ne'
  · exact ⟨k, _, hk.le, .inl rfl, h⟩
  · exact ⟨k, _, hk.le, .inr rfl, h⟩

/-! ### The border -/

theorem minus_poly (f g : Sextic K) (k a b c : K) : (f.minus k g).poly a b c = f.poly a b c - k * g.poly a b c := by
  simp only [Sextic.minus, Sextic.poly]; ring

theorem borderPoly_poly (x a b c : K) : (borderPoly x).poly a b c = borderSq x a b c := by
  simp only [borderPoly, Sextic.sym, Sextic.poly, borderSq, cyc3]; ring

theorem borderTerm_eq (x a b c : K) : borderTerm x a b c = borderSq x a b c := by
  unfold borderTerm
  split_ifs with h1 h2
  · rw [h1]; simp only [borderSq, cyc3, cycp3]; ring
  · rw [h2]; simp only [borderSq, cyc3]; ring
  · rfl

theorem borderSq_nonneg (x a b c : K) : 0 ≤ borderSq x a b c := sq_nonneg _

theorem borderSq_one (x : K) : borderSq x 1 1 1 = 0 := by simp only [borderSq, cyc3]; ring

theorem ultBorder_sound {X : UltExt K} (hX : X.iran.Sound) {real : Bool} {f : Sextic K} (h6 : 0 ≤ f.c600) (h0 : f.poly 1 1 1 = 0) {r : K} {C : Cert K}
    (h : ultBorder X real f r = .ok (some C)) : UpTo f.poly C := by
  unfold ultBorder at h
  dsimp only at h
  split at h
  swap
  · simp at h
  cases hi : sxIran X.iran real (f.minus f.c600 (borderPoly (r - 1))) with
  | error e => rw [hi] at h; simp [Except.map] at h
  | ok o =>
    cases o with
    | none => rw [hi] at h; simp [Except.map] at h
    | some D =>
      rw [hi] at h
      simp only [Except.map, Option.map_some, Except.ok.injEq, Option.some.injEq] at h
      rw [← h]
      refine (sxIran_upTo hX (by rw [minus_poly, h0, borderPoly_poly, borderSq_one]; ring) hi).map fun v hv => ?_
      refine (hv.add h6 (e := borderTerm (r - 1)) fun a b c _ => by rw [borderTerm_eq]; exact borderSq_nonneg _ _ _ _).congr fun a b c => ?_
      rw [minus_poly, borderPoly_poly, borderTerm_eq]; ring

/-! ### The axis -/

/-- `r` is a double root of the quotient of `f(a,1,1)` by `(a-1)^2`. -/
structure DoubleAxis (f : Sextic K) (r : K) : Prop where
  root : f.c600 * (r - 1) ^ 4 + f.a3 * (r - 1) ^ 3 + f.a2 * (r - 1) ^ 2 + f.a1 * (r - 1) + f.a0 = 0
  diff : 4 * f.c600 * (r - 1) ^ 3 + 3 * f.a3 * (r - 1) ^ 2 + 2 * f.a2 * (r - 1) + f.a1 = 0

theorem axis_identity {f : Sextic K} (hf : f.Symm) (hr : f.fullRem = 0) {r : K} (h1 : r ≠ 0) (h2 : r + 2 ≠ 0) (hd : DoubleAxis f r) (a b c : K) :
    f.poly a b c = cyc3 (fun a b c => axisS (axisZ f (r + 1)) a b c * (a - b) ^ 2 * (a + b - (r + 1) * c) ^ 2) a b c := by
  obtain ⟨E1, E2⟩ := hd
  unfold Sextic.a3 Sextic.a2 Sextic.a1 Sextic.a0 at E1
  unfold Sextic.a3 Sextic.a2 Sextic.a1 at E2
  unfold Sextic.fullRem at hr
  rw [symm_poly hf]
  unfold symV symHexV axisS axisZ
  dsimp only
  have hden : 2 * (r + 1) ^ 4 - 4 * (r + 1) ^ 2 + 2 = 2 * (r * (r + 2)) ^ 2 := by ring
  rw [hden]
  generalize f.c600 = c6, f.c510 = c5, f.c420 = c4, f.c330 = c3, f.c411 = w, f.c321 = z, f.c222 = q at *
  have hw : w = (c6 * (r - 1) ^ 4 + (2 * c5 + 6 * c6) * (r - 1) ^ 3 + (2 * c4 + 10 * c5 + 15 * c6) * (r - 1) ^ 2 + (2 * c3 + 8 * c4 + 20 * c5 + 20 * c6) * (r - 1) +
      (3 * c3 + 8 * c4 + 14 * c5 + 12 * c6) - 2 * r * (2 * c6 * (r - 1) ^ 3 + 3 * (c5 + 3 * c6) * (r - 1) ^ 2 + (2 * c4 + 10 * c5 + 15 * c6) * (r - 1) + c3 + 4 * c4 + 10 * c5 + 10 * c6)) / r ^ 2 := by
    field_simp
    linear_combination (-1) * E1 + r * E2
  have hz : z = -(2 * c6 * (r - 1) ^ 3 + 3 * (c5 + 3 * c6) * (r - 1) ^ 2 + (w + 2 * c4 + 10 * c5 + 15 * c6) * (r - 1) + c3 + 2 * w + 4 * c4 + 10 * c5 + 10 * c6) := by
    linear_combination E2 / 2
  have hq : q = -(6 * z + 3 * c3 + 3 * w + 6 * c4 + 6 * c5 + 3 * c6) := by linear_combination hr
  rw [hq, hz, hw]
  simp only [cyc3]
  field_simp
  ring

theorem axisP_spec {z : K × K × K × K} (h0 : 0 ≤ z.1) {p : Val3 K} (h : axisP z = some p) :
    (∀ a b c, p a b c = axisS z a b c) ∧ ∀ a b c, Octant a b c → 0 ≤ p a b c := by
  obtain ⟨z0, z1, z2, z3⟩ := z
  unfold axisP at h
  dsimp only at h h0
  by_cases h3 : 0 < z3
  · rw [if_pos (.inl h3)] at h
    simp only [if_pos h3] at h
    split at h
    swap
    · simp at h
    rename_i hr
    have hp := Option.some.inj h
    constructor
    · intro a b c
      rw [← hp]
      dsimp only
      unfold axisS
      split_ifs
      · field_simp; ring
      · field_simp; ring
    · rintro a b c ⟨ha, hb, hc⟩
      rw [← hp]
      dsimp only
      generalize z0 - z2 ^ 2 / 4 / z3 = r1 at *
      generalize z1 + 2 * r1 - 2 * (z0 - r1) = r2 at *
      obtain ⟨hr1, hr2⟩ := hr
      split_ifs with h4
      · positivity
      · have : 0 ≤ r1 - r2 / 4 := by linarith [not_lt.1 h4]
        positivity
  · by_cases h2 : z2 = 0 ∧ z3 = 0
    · rw [if_pos (.inr h2)] at h
      simp only [if_neg h3] at h
      split at h
      swap
      · simp at h
      rename_i hr
      have hp := Option.some.inj h
      obtain ⟨hr1, hr2⟩ := hr
      constructor
      · intro a b c
        rw [← hp]
        dsimp only
        unfold axisS
        dsimp only
        rw [h2.1, h2.2]
        split_ifs <;> ring
      · rintro a b c ⟨ha, hb, hc⟩
        rw [← hp]
        dsimp only
        generalize z1 + 2 * z0 = r2 at *
        split_ifs with h4
        · positivity
        · have : 0 ≤ z0 - r2 / 4 := by linarith [not_lt.1 h4]
          positivity
    · rw [if_neg (by push Not; exact ⟨not_lt.1 h3, fun e => fun e' => h2 ⟨e, e'⟩⟩)] at h
      split at h
      swap
      · simp at h
      rename_i hr
      obtain ⟨g1, g2, g3⟩ := hr
      have hp := Option.some.inj h
      constructor
      · intro a b c
        rw [← hp]
        dsimp only
        unfold axisS
        ring
      · rintro a b c ⟨ha, hb, hc⟩
        rw [← hp]
        dsimp only
        positivity

/-- The identity of the method. -/
theorem axisQuartic_identity (z : K × K × K × K) (x a b c : K) :
    cyc3 (fun a b c => (a - b) ^ 2 * (a + b - x * c) ^ 2) a b c * (axisQuartic z).poly a b c +
      cyc3 (fun a b c => (axisS z b c a * (b - c) * (b + c - x * a) - axisS z c a b * (c - a) * (c + a - x * b)) ^ 2) a b c =
      (2 * (2 * z.1 + z.2.2.2) * (a ^ 2 + b ^ 2 + c ^ 2) + 2 * (z.2.1 + 2 * z.2.2.1) * (a * b + b * c + c * a)) *
        cyc3 (fun a b c => axisS z a b c * (a - b) ^ 2 * (a + b - x * c) ^ 2) a b c := by
  obtain ⟨z0, z1, z2, z3⟩ := z
  simp only [cyc3, axisS, axisQuartic, Quartic.poly]
  ring

theorem quadratic_holds {x y : K} {C : Cert K} (h : quadratic x y = some C) : Holds (fun a b c => x * (a ^ 2 + b ^ 2 + c ^ 2) + y * (a * b + b * c + c * a)) C := by
  have h3 := quadratic_sound h
  exact ⟨shows_of_proves h3, fun a b c ha hb hc _ => h3.pos a b c ⟨ha.le, hb.le, hc.le⟩ fun h0 => ha.ne' h0.1⟩

theorem quadratic_pos {x y : K} (hx : 0 ≤ x) (hxy : 0 ≤ x + y) (h : 0 < x ∨ 0 < x + y) {a b c : K} (ha : 0 < a) (hb : 0 < b) (hc : 0 < c) (hn : ¬ (a = b ∧ b = c)) :
    0 < x * (a ^ 2 + b ^ 2 + c ^ 2) + y * (a * b + b * c + c * a) := by
  have h1 : 0 < (a - b) ^ 2 + (b - c) ^ 2 + (c - a) ^ 2 := by
    by_cases hab : a = b
    · have : b - c ≠ 0 := fun e => hn ⟨hab, sub_eq_zero.1 e⟩
      have := sq_pos_of_ne_zero this
      nlinarith [sq_nonneg (a - b), sq_nonneg (c - a)]
    · have := sq_pos_of_ne_zero (sub_ne_zero.2 hab)
      nlinarith [sq_nonneg (b - c), sq_nonneg (c - a)]
  have h2 : 0 < a * b + b * c + c * a := by positivity
  have e : x * (a ^ 2 + b ^ 2 + c ^ 2) + y * (a * b + b * c + c * a) = x * ((a - b) ^ 2 + (b - c) ^ 2 + (c - a) ^ 2) / 2 + (x + y) * (a * b + b * c + c * a) := by ring
  rw [e]
  rcases h with h | h
  · have := mul_pos h h1
    have := mul_nonneg hxy h2.le
    linarith
  · have := mul_nonneg hx h1.le
    have := mul_pos h h2
    linarith

/-- If the multiplier is zero then the quartic is not nonnegative. -/
theorem axis_degenerate {z : K × K × K × K} (h0 : 0 < z.1) (h1 : 2 * z.1 + z.2.2.2 = 0) (h2 : z.2.1 + 2 * z.2.2.1 = 0)
    (h : ∀ a b c, 0 < a → 0 < b → 0 < c → ¬ (a = b ∧ b = c) → 0 ≤ (axisQuartic z).poly a b c) : False := by
  obtain ⟨z0, z1, z2, z3⟩ := z
  dsimp only at h0 h1 h2
  obtain rfl : z3 = -2 * z0 := by linear_combination h1
  obtain rfl : z1 = -2 * z2 := by linear_combination h2
  have key : ∀ a b c, (axisQuartic (z0, -2 * z2, z2, -2 * z0)).poly a b c = -(axisS (z0, -2 * z2, z2, -2 * z0) a b c ^ 2 + axisS (z0, -2 * z2, z2, -2 * z0) b c a ^ 2 +
      axisS (z0, -2 * z2, z2, -2 * z0) c a b ^ 2) / 2 := by
    intro a b c
    simp only [axisS, axisQuartic, Quartic.poly]
    ring
  have hz : ∀ a b c, 0 < a → 0 < b → 0 < c → ¬ (a = b ∧ b = c) → axisS (z0, -2 * z2, z2, -2 * z0) a b c = 0 := by
    intro a b c ha hb hc hn
    have := h a b c ha hb hc hn
    rw [key] at this
    have e : axisS (z0, -2 * z2, z2, -2 * z0) a b c ^ 2 ≤ 0 := by
      nlinarith [sq_nonneg (axisS (z0, -2 * z2, z2, -2 * z0) b c a), sq_nonneg (axisS (z0, -2 * z2, z2, -2 * z0) c a b)]
    exact pow_eq_zero_iff (two_ne_zero) |>.1 (le_antisymm e (sq_nonneg _))
  have e1 := hz 1 1 2 one_pos one_pos two_pos (by norm_num)
  have e2 := hz 1 1 3 one_pos one_pos three_pos (by norm_num)
  simp only [axisS] at e1 e2
  linarith

theorem ultAxis_sound {X : UltExt K} (hQ : ∀ g C, X.quart g = .ok (some C) → Holds g.poly C) {f : Sextic K} (hf : f.Symm) (h6 : 0 < f.c600) (h0 : f.fullRem = 0) {r : K} (hr : 0 ≤ r)
    (hd : DoubleAxis f r) {C : Cert K} (h : ultAxis X f r = .ok (some C)) : Holds f.poly C := by
  unfold ultAxis at h
  dsimp only at h
  split at h
  · simp at h
  rename_i hr0
  split at h
  · simp at h
  have hid := axis_identity hf h0 hr0 (by positivity) hd
  have hz0 : 0 < (axisZ f (r + 1)).1 := by simp only [axisZ]; positivity
  split at h
  · rename_i p hp
    rw [← Option.some.inj (Except.ok.inj h)]
    obtain ⟨p1, p2⟩ := axisP_spec hz0.le hp
    refine holds_plain ?_ ?_ ?_
    · intro a b c
      rw [hid]
      simp [cyc3, p1]
    · simp
    · intro t ht a b c ho
      rw [List.mem_singleton.1 ht]
      obtain ⟨ha, hb, hc⟩ := ho
      have q1 := p2 a b c ⟨ha, hb, hc⟩
      have q2 := p2 b c a ⟨hb, hc, ha⟩
      have q3 := p2 c a b ⟨hc, ha, hb⟩
      simp only [cyc3]
      positivity
  · generalize hz : axisZ f (r + 1) = z at *
    obtain ⟨z0, z1, z2, z3⟩ := z
    dsimp only at h hz0
    split at h
    swap
    · simp at h
    rename_i hc
    split at h
    · simp at h
    · simp at h
    rename_i Q hQ'
    have hH := hQ _ _ hQ'
    split at h
    · simp at h
    rename_i M hM
    rw [← Option.some.inj (Except.ok.inj h)]
    refine Holds.quot (g := fun a b c => 2 * (2 * z0 + z3) * (a ^ 2 + b ^ 2 + c ^ 2) + 2 * (z1 + 2 * z2) * (a * b + b * c + c * a)) ?_ (quadratic_holds hM) ?_
    · refine ((hH.times (e := cyc3 fun a b c => (a - b) ^ 2 * (a + b - (r + 1) * c) ^ 2) fun a b c _ => by simp only [cyc3]; positivity).add zero_le_one
        (e := cyc3 fun a b c => (axisS (z0, z1, z2, z3) b c a * (b - c) * (b + c - (r + 1) * a) - axisS (z0, z1, z2, z3) c a b * (c - a) * (c + a - (r + 1) * b)) ^ 2)
        fun a b c _ => by simp only [cyc3]; positivity).congr fun a b c => ?_
      rw [hid, ← axisQuartic_identity (z0, z1, z2, z3) (r + 1)]
      ring
    · intro a b c ha hb hc' hn
      refine quadratic_pos (by linarith [hc.1]) (by linarith [hc.2]) ?_ ha hb hc' hn
      by_contra hcon
      push Not at hcon
      have e1 : 2 * z0 + z3 = 0 := le_antisymm (by linarith [hcon.1]) hc.1
      have e2 : z1 + 2 * z2 = 0 := by linarith [hcon.2, hc.2]
      exact axis_degenerate (z := (z0, z1, z2, z3)) hz0 e1 e2 fun a b c ha hb hc hn => hH.nonneg ha hb hc hn

/-! ### Both -/

theorem diffPoly_form (x a b c : K) : (diffPoly x).poly a b c =
    cyc3 (fun a b c => a ^ 2 * (a - b) * (a - c) * (a - x * b) * (a - x * c)) a b c + (3 * x - 5) * discV a b c := by
  simp only [diffPoly, Sextic.sym, Sextic.poly, cyc3, discV, cycp3]; ring

/-- **The subtracted polynomial has the returned solution**, except for the factor in two cases. -/
theorem twoDiff_sound {m x : K} (hm : 0 < m) (hx : 0 ≤ x) (hx4 : x ≤ 4) : ∃ C g, twoDiff m x = some (C, g) ∧ Holds (fun a b c => m * (diffPoly x).poly a b c) C ∧
    ∀ a b c, g.poly a b c = (if x = 4 ∨ x = 1 then m else 1) * (diffPoly x).poly a b c := by
  unfold twoDiff
  by_cases h1 : x = 4
  · rw [if_pos h1, if_pos (.inl h1)]
    refine ⟨_, _, rfl, holds_plain ?_ ?_ ?_, ?_⟩
    · intro a b c
      rw [h1]
      simp only [List.map_cons, List.map_nil, List.sum_cons, List.sum_nil, sd3, cyc3, diffPoly, Sextic.sym, Sextic.poly]
      ring
    · simp; positivity
    · intro t ht a b c _
      rw [List.mem_singleton.1 ht]
      exact mul_nonneg (sd3_nonneg a b c) (sq_nonneg _)
    · intro a b c
      rw [minus_poly, h1]
      simp [Sextic.sym, Sextic.poly]
  rw [if_neg h1]
  by_cases h2 : x = 1
  · rw [if_pos h2, if_pos (.inr h2)]
    refine ⟨_, _, rfl, holds_plain ?_ ?_ ?_, ?_⟩
    · intro a b c
      rw [h2]
      simp only [List.map_cons, List.map_nil, List.sum_cons, List.sum_nil, cyc3, diffPoly, Sextic.sym, Sextic.poly]
      ring
    · simp; positivity
    · intro t ht a b c _
      rw [List.mem_singleton.1 ht]
      exact sq_nonneg _
    · intro a b c
      rw [minus_poly, h2]
      simp [Sextic.sym, Sextic.poly]
  have hfac : (if x = 4 ∨ x = 1 then m else 1) = 1 := if_neg (by push Not; exact ⟨h1, h2⟩)
  rw [if_neg h2, hfac]
  by_cases h3 : 1 < x
  · rw [if_pos h3]
    have hq : quadratic 1 (x - 2) ≠ none := by
      rw [Ne, quadratic, if_neg (by push Not; constructor <;> linarith)]
      split_ifs <;> simp
    obtain ⟨M, hM⟩ := Option.ne_none_iff_exists'.1 hq
    rw [hM]
    refine ⟨_, _, rfl, ?_, fun a b c => by rw [one_mul]⟩
    refine Holds.quot (g := fun a b c => 1 * (a ^ 2 + b ^ 2 + c ^ 2) + (x - 2) * (a * b + b * c + c * a)) (holds_plain ?_ ?_ ?_) (quadratic_holds hM) ?_
    · intro a b c
      simp only [List.map_cons, List.map_nil, List.sum_cons, List.sum_nil, cyc3, cycp3, diffPoly, Sextic.sym, Sextic.poly]
      ring
    · intro t ht
      simp only [List.mem_cons, List.not_mem_nil, or_false] at ht
      rcases ht with rfl | rfl
      · exact mul_nonneg (div_nonneg (mul_nonneg (by linarith) (by linarith)) zero_le_two) hm.le
      · dsimp only; positivity
    · intro t ht a b c _
      simp only [List.mem_cons, List.not_mem_nil, or_false] at ht
      rcases ht with rfl | rfl
      · simp only [cyc3]; positivity
      · simp only [cyc3]; positivity
    · intro a b c ha hb hc hn
      exact quadratic_pos zero_le_one (by linarith) (.inl one_pos) ha hb hc hn
  · rw [if_neg h3]
    have hlt : x < 1 := lt_of_le_of_ne (not_lt.1 h3) h2
    have e : (if x ≤ 0 then 0 else x) = x := by
      split_ifs with h
      · exact le_antisymm hx h
      · rfl
    dsimp only
    rw [e]
    obtain ⟨S, hS⟩ : ∃ S : Cert K, schur 3 = some S := ⟨_, rfl⟩
    rw [hS]
    refine ⟨_, _, rfl, ?_, fun a b c => by rw [one_mul]⟩
    have hpos1 : ∀ a b c : K, Octant a b c → 0 ≤ prodA a b c * cyc3 (fun a b c => (b - c) ^ 2 * (b + c - (x + 1) * a) ^ 2) a b c := by
      rintro a b c ⟨ha, hb, hc⟩
      simp only [prodA, cycp3, cyc3]; positivity
    have hpos2 : ∀ a b c : K, Octant a b c → 0 ≤ discV a b c *
        (m * cyc3 (fun a b c => (a - b) ^ 2 * (a + b - c) ^ 2) a b c + 2 * (2 - x) * m * cyc3 (fun a b _ => a * b * (a - b) ^ 2) a b c +
          12 * (1 - x) * m * cyc3 (fun a b c => a ^ 2 * b * c) a b c) := by
      rintro a b c ⟨ha, hb, hc⟩
      have g1 : 0 ≤ 2 - x := by linarith
      have g2 : 0 ≤ 1 - x := by linarith
      refine mul_nonneg (discV_nonneg a b c) ?_
      simp only [cyc3]; positivity
    refine Holds.over ((((schur3_holds hS).times hpos1).smul hm.le).add zero_le_one hpos2) ?_ ?_ ?_
    · intro a b c
      simp only [prodA, discV, cyc3, cycp3, diffPoly, Sextic.sym, Sextic.poly]
      ring
    · rintro a b c -
      simp only [cyc3]; positivity
    · intro a b c ha hb hc hn
      simp only [cyc3]
      by_cases hab : a = b
      · have : b - c ≠ 0 := fun e => hn ⟨hab, sub_eq_zero.1 e⟩
        have := sq_pos_of_ne_zero this
        have : 0 < a ^ 2 * (b - c) ^ 2 := by positivity
        positivity
      · have := sq_pos_of_ne_zero (sub_ne_zero.2 hab)
        have : 0 < c ^ 2 * (a - b) ^ 2 := by positivity
        positivity

theorem twoDiff_c600 {m x : K} (hx : x = 4 ∨ x = 1) {C : Cert K} {g : Sextic K} (h : twoDiff m x = some (C, g)) : g.c600 = m := by
  unfold twoDiff at h
  by_cases h4 : x = 4
  · rw [if_pos h4] at h
    have hg := (Prod.ext_iff.1 (Option.some.inj h)).2
    dsimp only at hg
    rw [← hg]
    simp [Sextic.minus, Sextic.sym, diffPoly]
  · rw [if_neg h4, if_pos (hx.resolve_left h4)] at h
    have hg := (Prod.ext_iff.1 (Option.some.inj h)).2
    dsimp only at hg
    rw [← hg]
    simp [Sextic.minus, Sextic.sym, diffPoly]

theorem diffPoly_one (x : K) : (diffPoly x).poly 1 1 1 = 0 := by simp only [diffPoly, Sextic.sym, Sextic.poly]; ring

theorem iran_zero {X : IranExt K} {real : Bool} {f : Sextic K} {C : Cert K} (h : sxIran X real f = .ok (some C)) : f.c600 = 0 := by
  unfold sxIran at h
  split at h
  · simp at h
  · rename_i h0
    exact (not_not.1 h0).1

/-- The contracts of the calls: roots on the axis are double roots, the other solvers answer with proofs.  `quart` is discharged by `quartic_contract`. -/
structure UltExt.Sound (X : UltExt K) : Prop where
  iran : X.iran.Sound
  quart : ∀ g C, X.quart g = .ok (some C) → Holds g.poly C
  quadForm : ∀ f C, f.Symm → X.quadForm f = some C → Holds f.poly C
  axis : ∀ f, ∀ r ∈ X.axis f, 0 ≤ r ∧ DoubleAxis f r

theorem ultTwo_sound {X : UltExt K} (hX : X.Sound) {f : Sextic K} (h6 : 0 < f.c600) (h0 : f.poly 1 1 1 = 0) {C : Cert K} (h : ultTwo X f = .ok (some C)) : UpTo f.poly C := by
  have fin : ∀ {D : Cert K} {g : Sextic K}, Holds (fun a b c => f.c600 * g.poly a b c) D → g.poly 1 1 1 = 0 →
      (sxIran X.iran true (f.minus f.c600 g)).map (fun o => o.map fun C => D.plus C) = .ok (some C) → UpTo f.poly C := by
    intro D g hD hg h
    cases hi : sxIran X.iran true (f.minus f.c600 g) with
    | error e => rw [hi] at h; simp [Except.map] at h
    | ok o =>
      cases o with
      | none => rw [hi] at h; simp [Except.map] at h
      | some E =>
        rw [hi] at h
        simp only [Except.map, Option.map_some, Except.ok.injEq, Option.some.injEq] at h
        rw [← h]
        refine (sxIran_upTo hX.iran (by rw [minus_poly, h0, hg]; ring) hi).map fun v hv => (hD.plus hv).congr fun a b c => ?_
        rw [minus_poly]; ring
  unfold ultTwo at h
  dsimp only at h
  split at h
  · split at h
    · simp at h
    · rename_i r _ _
      split at h
      · simp at h
      · refine fin (g := borderPoly (r - 1)) ?_ (by rw [borderPoly_poly, borderSq_one]) h
        refine holds_plain ?_ ?_ ?_
        · intro a b c
          rw [borderPoly_poly]; simp
        · simp; exact h6.le
        · intro t ht a b c _
          rw [List.mem_singleton.1 ht]
          exact borderSq_nonneg _ _ _ _
  · split at h
    swap
    · simp at h
    split at h
    · simp at h
    · rename_i x hx
      split at h
      · simp at h
      rename_i hx4
      have hx0 : 0 ≤ x := by
        have ha := hX.axis f
        generalize X.axis f = l at *
        unfold twoX at hx
        split at hx
        · rw [← Option.some.inj hx]; exact (ha _ (by simp)).1
        · split_ifs at hx
          rw [← Option.some.inj hx]; exact add_nonneg (ha _ (by simp)).1 (ha _ (by simp)).1
        · simp at hx
      obtain ⟨D, g, e1, e2, e3⟩ := twoDiff_sound h6 hx0 (not_lt.1 hx4)
      rw [e1] at h
      have hg1 : g.poly 1 1 1 = 0 := by rw [e3, diffPoly_one, mul_zero]
      by_cases hc : x = 4 ∨ x = 1
      · -- an answer is only possible for `coeff6 = 1`
        have hm : f.c600 = 1 := by
          have hc6 := twoDiff_c600 hc e1
          cases hi : sxIran X.iran true (f.minus f.c600 g) with
          | error e => simp [hi, Except.map] at h
          | ok o =>
            cases o with
            | none => simp [hi, Except.map] at h
            | some E =>
              have := iran_zero hi
              simp only [Sextic.minus, hc6] at this
              have e4 : f.c600 * (1 - f.c600) = 0 := by linear_combination this
              rcases mul_eq_zero.1 e4 with e5 | e5
              · exact absurd e5 h6.ne'
              · linear_combination -e5
        refine fin (g := g) (e2.congr fun a b c => ?_) hg1 h
        rw [e3, if_pos hc, hm]; ring
      · refine fin (g := g) (e2.congr fun a b c => ?_) hg1 h
        rw [e3, if_neg hc, one_mul]

/-- **With a root `(4,1,1)` or `(1,1,1)` on the axis there is no answer unless the coefficient of `a^6` is one**: the routine subtracts it twice. -/
theorem ultTwo_scale {X : UltExt K} {f : Sextic K} (h6 : 0 < f.c600) (h1 : f.c600 ≠ 1) (hb : X.border f = [2]) {x : K} (ha : twoX (X.axis f) = some x) (hx : x = 4 ∨ x = 1) :
    ∀ C, ultTwo X f ≠ .ok (some C) := by
  intro C h
  unfold ultTwo at h
  dsimp only at h
  rw [if_neg (by simp [hb])] at h
  split at h
  swap
  · simp at h
  rw [ha] at h
  dsimp only at h
  split at h
  · simp at h
  split at h
  · simp at h
  rename_i d hd
  have hc6 : d.2.c600 = f.c600 := twoDiff_c600 hx (C := d.1) (g := d.2) hd
  cases hi : sxIran X.iran true (f.minus f.c600 d.2) with
  | error e => simp [hi, Except.map] at h
  | ok o =>
    cases o with
    | none => simp [hi, Except.map] at h
    | some E =>
      have := iran_zero hi
      simp only [Sextic.minus, hc6] at this
      have e4 : f.c600 * (1 - f.c600) = 0 := by linear_combination this
      rcases mul_eq_zero.1 e4 with e5 | e5
      · exact h6.ne' e5
      · exact h1 (by linear_combination -e5)

/-! ### The solver -/

theorem tryNext_some {r n : Except PyErr (Option (Cert K))} {C : Cert K} (h : tryNext r n = .ok (some C)) : r = .ok (some C) ∨ n = .ok (some C) := by
  unfold tryNext at h
  split at h
  · simp at h
  · exact .inl h
  · exact .inr h

theorem tryNext_error {r n : Except PyErr (Option (Cert K))} {e : PyErr} (h : tryNext r n = .error e) : r = .error e ∨ n = .error e := by
  unfold tryNext at h
  split at h
  · exact .inl h
  · simp at h
  · exact .inr h

theorem map_some {r : Except PyErr (Option (Cert K))} {g : Cert K → Cert K} {C : Cert K} (h : (r.map fun o => o.map g) = .ok (some C)) : ∃ D, r = .ok (some D) ∧ g D = C := by
  cases r with
  | error e => simp [Except.map] at h
  | ok o =>
    cases o with
    | none => simp [Except.map] at h
    | some D => exact ⟨D, rfl, by simpa [Except.map] using h⟩

theorem map_error {r : Except PyErr (Option (Cert K))} {g : Cert K → Cert K} {e : PyErr} (h : (r.map fun o => o.map g) = .error e) : r = .error e := by
  cases r with
  | error e' => simpa [Except.map] using h
  | ok o => simp [Except.map] at h

theorem ultMain_sound {X : UltExt K} (hX : X.Sound) {real : Bool} {f : Sextic K} (hf : f.Symm) (h6 : 0 < f.c600) {C : Cert K} (h : ultMain X real f = .ok (some C)) : UpTo f.poly C := by
  unfold ultMain at h
  dsimp only at h
  split at h
  · simp at h
  rename_i h0
  have h0 := not_not.1 h0
  have h111 : f.poly 1 1 1 = 0 := by rw [symm_111 hf, h0]
  split at h
  · simp at h
  split at h
  · rename_i hvw
    obtain ⟨hv, hw⟩ := hvw
    obtain ⟨D, hD, rfl⟩ := map_some h
    refine Holds.upTo ((((hX.quart _ _ hD).times fun a b c _ => sd3_nonneg a b c).smul (by positivity)).congr fun a b c => ?_)
    rw [symm_poly hf]
    unfold Sextic.fullRem at h0
    simp only [Quartic.poly, sd3, cyc3, symV, symHexV]
    linear_combination -(a ^ 2 * b ^ 2 * c ^ 2) * h0 - (a * b * c * (a * (b - c) ^ 2 + b * (c - a) ^ 2 + c * (a - b) ^ 2)) * hv - ((a - b) ^ 2 * (b - c) ^ 2 * (c - a) ^ 2) * hw
  rcases tryNext_some h with h | h
  · obtain ⟨r, h1, h2⟩ := sxFullSdp_sound X hf
    rw [h1] at h
    exact (h2 C (Except.ok.inj h)).holds.upTo
  rcases tryNext_some h with h | h
  · split_ifs at h
    · exact (hX.quadForm f C hf (Except.ok.inj h)).upTo
    · simp at h
  rcases tryNext_some h with h | h
  · rcases schurSplit_sound hX.iran.lift hf h with h | h
    · exact h.upTo
    · refine (h.congr fun a b c => ?_).upTo
      rw [h111]; ring
  have hax := hX.axis f
  split at h
  · simp at h
  · exact ultTwo_sound hX h6 h111 h
  · unfold ultOne at h
    split at h
    · exact ultBorder_sound hX.iran h6.le h111 h
    · simp at h
    · rename_i r _ e
      rw [e] at hax
      exact (ultAxis_sound hX.quart hf h6 h0 (hax r (by simp)).1 (hax r (by simp)).2 h).upTo
    · simp at h

/-- **Every answer of the solver of symmetric sextics is a proof of the polynomial, up to the recorded faults of the solver for sextics without `a^6`.** -/
theorem sxUltimate_sound {X : UltExt K} (hX : X.Sound) {real : Bool} {f : Sextic K} {C : Cert K} (h : sxUltimate X real f = .ok (some C)) :
    UpTo f.poly C ∨ (f.c600 = 0 ∧ 0 < f.poly 1 1 1 ∧ Holds (fun a b c => f.poly a b c - f.poly 1 1 1 * (a * b * c) ^ 2) C) := by
  unfold sxUltimate at h
  split at h
  · simp at h
  rename_i hs
  obtain ⟨s1, s2, s3⟩ := not_not.1 hs
  have hf : f.Symm := ⟨s1.symm, s2.symm, s3.symm⟩
  split at h
  · rename_i h0
    rcases sxIran_sound hX.iran h with h | ⟨h1, h⟩ | ⟨k, hk, h⟩ | ⟨k, hk, h⟩
    · exact .inl h.upTo
    · exact .inr ⟨h0, h1, h⟩
    · exact .inl ⟨k, _, hk.le, .inl rfl, h⟩
    · exact .inl ⟨k, _, hk.le, .inr rfl, h⟩
  rename_i h0
  split at h
  · simp at h
  rename_i h1
  split at h
  · rename_i ht
    exact .inl ((sexticTree_sound hX.iran.nd ⟨ht.1, s1 ▸ ht.1, ht.2.1, s2 ▸ ht.2.1, ht.2.2, s3 ▸ ht.2.2⟩).1 C h).upTo
  · exact .inl (ultMain_sound hX hf (lt_of_le_of_ne (not_lt.1 h1) (Ne.symm h0)) h)

/-- **If the solver answers, the polynomial is nonnegative** for positive numbers that are not all equal. -/
theorem sxUltimate_nonneg {X : UltExt K} (hX : X.Sound) {real : Bool} {f : Sextic K} {C : Cert K} (h : sxUltimate X real f = .ok (some C)) {a b c : K} (ha : 0 < a) (hb : 0 < b) (hc : 0 < c)
    (hn : ¬ (a = b ∧ b = c)) : 0 ≤ f.poly a b c := by
  rcases sxUltimate_sound hX h with h | ⟨-, h1, h⟩
  · exact h.nonneg ha hb hc hn
  · have := h.nonneg ha hb hc hn
    nlinarith [mul_nonneg h1.le (sq_nonneg (a * b * c))]

/-! ### Exceptions -/

/-- What SymPy guarantees about the roots: the border root `2` is the zero at `(0,1,1)`, there are at most two double roots on the axis, and if two numbers are listed they are all the roots. -/
structure UltExt.Roots (X : UltExt K) : Prop where
  border : ∀ f : Sextic K, X.border f = [2] → f.poly 0 1 1 = 0
  pair : ∀ (f : Sextic K) r s, X.axis f = [r, s] → ∀ n, f.c600 * n ^ 4 + f.a3 * n ^ 3 + f.a2 * n ^ 2 + f.a1 * n + f.a0 = f.c600 * (n - (r - 1)) ^ 2 * (n - (s - 1)) ^ 2

/-- **The variable that may be unassigned is assigned** whenever it is read. -/
theorem twoX_assigned {X : UltExt K} (hR : X.Roots) {f : Sextic K} (hf : f.Symm) (h6 : f.c600 ≠ 0) (h0 : f.fullRem = 0) (hb : X.border f = [2])
    (hl : 1 ≤ (X.axis f).length ∧ (X.axis f).length ≤ 2) : twoX (X.axis f) ≠ none := by
  have hp := hR.pair f
  generalize X.axis f = l at *
  match l, hl with
  | [r], _ => simp [twoX]
  | [r, s], _ =>
    have e := hp r s rfl (-1)
    have e0 := hR.border f hb
    have e1 := axis_form hf (-1)
    rw [e, h0] at e1
    simp only [neg_add_cancel] at e1
    rw [e0] at e1
    have e2 : f.c600 * (r ^ 2 * s ^ 2) = 0 := by linear_combination -e1
    rcases mul_eq_zero.1 e2 with h | h
    · exact absurd h h6
    · have : r = 0 ∨ s = 0 := by
        rcases mul_eq_zero.1 h with h | h
        · exact .inl (pow_eq_zero_iff two_ne_zero |>.1 h)
        · exact .inr (pow_eq_zero_iff two_ne_zero |>.1 h)
      simp [twoX, this]

/-- **Every exception comes from the solver of hexagons, from the lifted polynomial, from the quartic solver or from the solver of sextics without `a^5 b` and `a^4 b^2`.** -/
theorem sxUltimate_error {X : UltExt K} (hX : X.Sound) (hR : X.Roots) {real : Bool} {f : Sextic K} {e : PyErr} (h : sxUltimate X real f = .error e) :
    (∃ g b, sxHexagon X.iran.hex b g = .error e) ∨ (∃ g, X.iran.lift g = .error e) ∨ (∃ g, X.quart g = .error e) ∨ sexticTree X.iran.hex.nd f = .error e := by
  have hi : ∀ {b : Bool} {g : Sextic K}, sxIran X.iran b g = .error e →
      (∃ g b, sxHexagon X.iran.hex b g = .error e) ∨ (∃ g, X.iran.lift g = .error e) ∨ (∃ g, X.quart g = .error e) ∨ sexticTree X.iran.hex.nd f = .error e := by
    intro b g h
    rcases sxIran_error h with ⟨-, h⟩ | h
    · exact .inl ⟨g, b, h⟩
    · exact .inr (.inl ⟨g, h⟩)
  unfold sxUltimate at h
  split at h
  · simp at h
  rename_i hs
  obtain ⟨s1, s2, s3⟩ := not_not.1 hs
  have hf : f.Symm := ⟨s1.symm, s2.symm, s3.symm⟩
  split at h
  · exact hi h
  rename_i h0
  split at h
  · simp at h
  rename_i h1
  have h6 : 0 < f.c600 := lt_of_le_of_ne (not_lt.1 h1) (Ne.symm h0)
  split at h
  · exact .inr (.inr (.inr h))
  unfold ultMain at h
  dsimp only at h
  split at h
  · simp at h
  rename_i hr
  have hr := not_not.1 hr
  split at h
  · simp at h
  split at h
  · exact .inr (.inr (.inl ⟨_, map_error h⟩))
  rcases tryNext_error h with h | h
  · obtain ⟨r, h1, -⟩ := sxFullSdp_sound X hf
    rw [h1] at h; simp at h
  rcases tryNext_error h with h | h
  · simp at h
  rcases tryNext_error h with h | h
  · unfold schurSplit at h
    split at h
    · simp at h
    · right; left
      cases hl : X.iran.lift f with
      | error e' => rw [hl] at h; exact ⟨f, by rw [hl]; simpa [Except.map] using h⟩
      | ok r => rw [hl] at h; simp [Except.map] at h
  have hax := hX.axis f
  have hta := twoX_assigned hR hf h0 hr
  split at h
  · simp at h
  · unfold ultTwo at h
    dsimp only at h
    split at h
    · split at h
      · simp at h
      · split at h
        · simp at h
        · exact hi (map_error h)
    · rename_i hb
      split at h
      swap
      · simp at h
      rename_i hl
      split at h
      · rename_i ht
        exact absurd ht (hta (not_not.1 hb) hl)
      · rename_i x hx
        split at h
        · simp at h
        rename_i hx4
        have hx0 : 0 ≤ x := by
          generalize X.axis f = l at *
          unfold twoX at hx
          split at hx
          · rw [← Option.some.inj hx]; exact (hax _ (by simp)).1
          · split_ifs at hx
            rw [← Option.some.inj hx]; exact add_nonneg (hax _ (by simp)).1 (hax _ (by simp)).1
          · simp at hx
        obtain ⟨D, g, e1, -, -⟩ := twoDiff_sound h6 hx0 (not_lt.1 hx4)
        rw [e1] at h
        exact hi (map_error h)
  · unfold ultOne at h
    split at h
    · unfold ultBorder at h
      dsimp only at h
      split at h
      · exact hi (map_error h)
      · simp at h
    · simp at h
    · unfold ultAxis at h
      dsimp only at h
      split at h
      · simp at h
      split at h
      · simp at h
      split at h
      · simp at h
      · generalize axisZ f _ = z at h
        obtain ⟨z0, z1, z2, z3⟩ := z
        dsimp only at h
        split at h
        swap
        · simp at h
        rename_i hc
        split at h
        · rename_i e' he
          exact .inr (.inr (.inl ⟨_, he.trans h⟩))
        · simp at h
        · split at h
          · rename_i hq
            unfold quadratic at hq
            rw [if_neg (by push Not; constructor <;> linarith [hc.1, hc.2])] at hq
            split_ifs at hq
          · simp at h
    · simp at h

end Verif.Ternary
