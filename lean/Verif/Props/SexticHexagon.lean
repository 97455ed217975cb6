import Verif.Model.SexticHexagon
import Verif.Props.SexticSmall
import Verif.Props.QuinticSymmetric
import Verif.Props.Nonic
import Verif.Props.StructUtils

/-!
# What the solver of symmetric hexagons guarantees
-/

set_option linter.unusedSectionVars false

namespace Verif.Ternary

open Verif Verif.Acute Verif.Dense

variable {K : Type*} [Field K] [LinearOrder K] [IsStrictOrderedRing K]

/-- A complete proof that `f` is nonnegative everywhere. -/
structure EveryHolds (f : Val3 K) (C : Cert K) : Prop where
  shows_ : Shows (fun _ _ _ => True) f C
  pos : ∀ a b c, ¬ (a = b ∧ b = c) → 0 < C.den a b c

theorem EveryHolds.holds {f : Val3 K} {C : Cert K} (h : EveryHolds f C) : Holds f C :=
  ⟨h.1.mono fun _ _ _ _ => trivial, fun a b c _ _ _ hn => h.2 a b c hn⟩

theorem EveryHolds.nonneg {f : Val3 K} {C : Cert K} (h : EveryHolds f C) {a b c : K} (hn : ¬ (a = b ∧ b = c)) : 0 ≤ f a b c :=
  h.1.nonneg trivial (h.2 a b c hn).ne'

/-- The polynomials the solver is called for. -/
structure Sextic.SymHex (f : Sextic K) : Prop where
  c600 : f.c600 = 0
  c510 : f.c510 = 0
  c501 : f.c501 = 0
  c402 : f.c402 = f.c420
  c312 : f.c312 = f.c321

/-- The polynomial with the coefficients of `a^4 b^2`, `a^4 bc`, `a^3 b^3`, `a^3 b^2 c`, `a^2 b^2 c^2`. -/
def symHexV (p w q z r : K) : Val3 K := fun a b c =>
  p * (a ^ 4 * (b ^ 2 + c ^ 2) + b ^ 4 * (c ^ 2 + a ^ 2) + c ^ 4 * (a ^ 2 + b ^ 2)) + w * (a * b * c * (a ^ 3 + b ^ 3 + c ^ 3)) + q * (a ^ 3 * b ^ 3 + b ^ 3 * c ^ 3 + c ^ 3 * a ^ 3) +
    z * (a * b * c * (a ^ 2 * (b + c) + b ^ 2 * (c + a) + c ^ 2 * (a + b))) + r * (a ^ 2 * b ^ 2 * c ^ 2)

theorem symHex_poly {f : Sextic K} (hf : f.SymHex) (a b c : K) : f.poly a b c = symHexV f.c420 f.c411 f.c330 f.c321 f.c222 a b c := by
  unfold Sextic.poly symHexV
  rw [hf.c600, hf.c510, hf.c501, hf.c402, hf.c312]
  ring

/-! ### Without a denominator -/

theorem hexMapping_eq (x y a b c : K) : hexMapping x y a b c = (x * s1V a b c + y * prodA a b c) ^ 2 := by
  unfold hexMapping
  split_ifs with h1 h2
  · rw [h1.1, h1.2]; ring
  · rw [h2.1, h2.2]; simp only [a2V, prodA, cycp3]; ring
  · simp only [s1V, prodA, cyc3, cycp3]; ring

/-- The identity of the method. -/
theorem hexForm_identity {f : Sextic K} {u : K} (h0 : u ≠ 0) (h2 : u + 2 ≠ 0) (a b c : K) :
    -(f.c330 - f.c411) / (6 * u * (u + 2)) * cyc3 (fun a b c => (a - b) ^ 2 * (c ^ 2 + (u + 2) * (a * b + b * c + c * a) - a * b) ^ 2) a b c +
      (((hexForm f u).1 - (hexForm f u).2.1) / 2 * discV a b c + (((hexForm f u).1 + (hexForm f u).2.1) / 2 * s1V a b c ^ 2 + (hexForm f u).2.2 * 2 * s1V a b c * prodA a b c +
        f.symRem * prodA a b c ^ 2)) = symHexV f.c420 f.c411 f.c330 f.c321 f.c222 a b c := by
  simp only [hexForm, Sextic.symRem, cyc3, discV, s1V, prodA, cycp3, symHexV]
  field_simp
  ring

theorem hexSol_sound {f : Sextic K} (hf : f.SymHex) {u : Option K} {C : Cert K} (h : hexSol f u = some C) : EveryHolds f.poly C := by
  unfold hexSol at h
  split at h
  · simp at h
  rename_i u
  split at h
  · simp at h
  rename_i hu
  push Not at hu
  have h2 : u + 2 ≠ 0 := fun e => hu.2 (by linear_combination e)
  dsimp only at h
  split at h
  swap
  · simp at h
  rename_i l hl
  split at h
  swap
  · simp at h
  rename_i hr
  rw [← Option.some.inj h]
  unfold hexFormSol at hl
  split at hl
  · simp at hl
  rename_i hM
  obtain ⟨ws, hws, rfl⟩ := Option.map_eq_some_iff.1 hl
  obtain ⟨hn, hs⟩ := quadraticWeighting_sound _ _ _ _ hws
  refine ⟨plain_shows ?_ ?_ ?_, fun _ _ _ _ => zero_lt_one⟩
  · intro a b c
    rw [symHex_poly hf, ← hexForm_identity hu.1 h2, List.map_cons, List.sum_cons, List.map_cons, List.sum_cons, ← hs, List.map_map]
    congr 3
    apply List.map_congr_left
    intro w _
    simp only [Function.comp, hexMapping_eq]
  · intro t ht
    simp only [List.mem_cons, List.mem_map] at ht
    rcases ht with rfl | rfl | ⟨w, hw, rfl⟩
    · exact hr
    · exact div_nonneg (sub_nonneg.2 (not_lt.1 hM)) zero_le_two
    · exact hn w hw
  · intro t ht a b c _
    simp only [List.mem_cons, List.mem_map] at ht
    rcases ht with rfl | rfl | ⟨w, hw, rfl⟩
    · simp only [cyc3]; positivity
    · exact discV_nonneg a b c
    · dsimp only
      rw [hexMapping_eq]; positivity

/-- **The answers without a denominator hold for all real numbers.** -/
theorem sxHexSdp_sound {X : SxHexExt K} {f : Sextic K} (hf : f.SymHex) {C : Cert K} (h : sxHexSdp X f = .ok (some C)) : EveryHolds f.poly C := by
  unfold sxHexSdp at h
  by_cases h0 : f.c420 ≤ 0
  · rw [if_pos h0] at h
    split_ifs at h with h1
    · obtain ⟨g1, g2, g3, g4, g5⟩ := h1
      rw [← Option.some.inj (Except.ok.inj h)]
      refine ⟨plain_shows ?_ ?_ ?_, fun _ _ _ _ => zero_lt_one⟩
      · intro a b c
        rw [symHex_poly hf, symHexV, g1, g2, g3, g4]
        simp [prodA, cycp3]; left; ring
      · simpa using g5
      · intro t ht a b c _
        rw [List.mem_singleton.1 ht]; positivity
    · simp at h
  rw [if_neg h0] at h
  split at h
  · simp at h
  split at h
  · exact hexSol_sound hf (Except.ok.inj h)
  dsimp only at h
  split at h
  · split_ifs at h <;> simp at h
  split at h
  · generalize rationalizeFunc (fun _ => 0) 0 (fun u => .ok (hexValid f u)) (X.us f) = r at h
    rcases r with e | u
    · simp [Except.map] at h
    · exact hexSol_sound hf (Except.ok.inj h)
  · exact hexSol_sound hf (Except.ok.inj h)

/-! ### With a denominator -/

/-- The polynomial `s(a^2b^2(a+b)^2 + x a^4bc + y a^3bc(b+c) - ... a^2b^2c^2)`. -/
def hexG (x y : K) : Val3 K := symHexV 1 x 2 y (-(12 + 6 * y + 3 * x))

/-- The polynomial with `a^4bc` and `b^3c^3` exchanged. -/
def hexH (x y : K) : Val3 K := symHexV 1 2 x y (-(12 + 6 * y + 3 * x))

/-- A list of squares with the value `g * CyclicSum((a-b)**2)`. -/
structure Lifts (g : Val3 K) (l : List (K × Val3 K)) : Prop where
  sum : ∀ a b c, (l.map fun t => t.1 * t.2 a b c).sum = sd3 a b c * g a b c
  weights : ∀ t ∈ l, 0 ≤ t.1
  exprs : ∀ t ∈ l, ∀ a b c, 0 ≤ t.2 a b c

theorem lifts_one {g e : Val3 K} {w : K} (hw : 0 ≤ w) (he : ∀ a b c, 0 ≤ e a b c) (hs : ∀ a b c, w * e a b c = sd3 a b c * g a b c) : Lifts g [(w, e)] :=
  ⟨fun a b c => by simpa using hs a b c, by simpa using hw, by simpa using he⟩

theorem lifts_two {g e e' : Val3 K} {w w' : K} (hw : 0 ≤ w) (hw' : 0 ≤ w') (he : ∀ a b c, 0 ≤ e a b c) (he' : ∀ a b c, 0 ≤ e' a b c)
    (hs : ∀ a b c, w * e a b c + w' * e' a b c = sd3 a b c * g a b c) : Lifts g [(w, e), (w', e')] :=
  ⟨fun a b c => by simpa using hs a b c, by simpa using ⟨hw, hw'⟩, by simpa using ⟨he, he'⟩⟩

/-- The square root is exact. -/
def SqrtSound (sq : K → K) : Prop := ∀ x, 0 ≤ x → sq x ^ 2 = x

/-- The identity with a square root, without quotients. -/
theorem hexReal_root (t k a b c : K) (hk : k ^ 2 = t ^ 2 + t - 2) :
    cyc3 (fun a b c => (a - b) ^ 2 * ((4 - t + 2 * k) * (a * b * c * (2 * t + 4) + a * b * (a + b) * (t - 2) - c ^ 2 * t * (a + b + c) - c * t * (a ^ 2 + b ^ 2 - c ^ 2)) +
      2 * (t - 1 + k) * (a * b * c * (-3 * t - 2) + c ^ 2 * t * (a + b + c) + 2 * c * (a ^ 2 + b ^ 2 - c ^ 2))) ^ 2) a b c =
    9 * (t - 2) ^ 2 * (sd3 a b c * symHexV (t ^ 2) (4 - 2 * t ^ 2) (2 * t ^ 2) (-4 - 4 * t - 2 * t ^ 2) (6 * t ^ 2 + 24 * t + 12) a b c) := by
  simp only [cyc3, sd3, symHexV]
  linear_combination (4 * ((a - b) ^ 2 * ((a * b * c * (2 * t + 4) + a * b * (a + b) * (t - 2) - c ^ 2 * t * (a + b + c) - c * t * (a ^ 2 + b ^ 2 - c ^ 2)) +
      (a * b * c * (-3 * t - 2) + c ^ 2 * t * (a + b + c) + 2 * c * (a ^ 2 + b ^ 2 - c ^ 2))) ^ 2 +
    (b - c) ^ 2 * ((b * c * a * (2 * t + 4) + b * c * (b + c) * (t - 2) - a ^ 2 * t * (b + c + a) - a * t * (b ^ 2 + c ^ 2 - a ^ 2)) +
      (b * c * a * (-3 * t - 2) + a ^ 2 * t * (b + c + a) + 2 * a * (b ^ 2 + c ^ 2 - a ^ 2))) ^ 2 +
    (c - a) ^ 2 * ((c * a * b * (2 * t + 4) + c * a * (c + a) * (t - 2) - b ^ 2 * t * (c + a + b) - b * t * (c ^ 2 + a ^ 2 - b ^ 2)) +
      (c * a * b * (-3 * t - 2) + b ^ 2 * t * (c + a + b) + 2 * b * (c ^ 2 + a ^ 2 - b ^ 2))) ^ 2)) * hk

theorem hexG_scale {t : K} (ht : t ≠ 0) (a b c : K) :
    t ^ 2 * hexG (4 / t ^ 2 - 2) (-4 / t ^ 2 - 4 / t - 2) a b c = symHexV (t ^ 2) (4 - 2 * t ^ 2) (2 * t ^ 2) (-4 - 4 * t - 2 * t ^ 2) (6 * t ^ 2 + 24 * t + 12) a b c := by
  simp only [hexG, symHexV]
  field_simp
  ring

theorem hexG_of_scale {t : K} (ht : t ≠ 0) {v : K} {a b c : K}
    (h : t ^ 2 * v = sd3 a b c * symHexV (t ^ 2) (4 - 2 * t ^ 2) (2 * t ^ 2) (-4 - 4 * t - 2 * t ^ 2) (6 * t ^ 2 + 24 * t + 12) a b c) :
    v = sd3 a b c * hexG (4 / t ^ 2 - 2) (-4 / t ^ 2 - 4 / t - 2) a b c := by
  rw [← hexG_scale ht] at h
  have : t ^ 2 * v = t ^ 2 * (sd3 a b c * hexG (4 / t ^ 2 - 2) (-4 / t ^ 2 - 4 / t - 2) a b c) := by rw [h]; ring
  exact mul_left_cancel₀ (pow_ne_zero 2 ht) this

/-- The answers for a number outside the interval from `-2` to `1`. -/
theorem hexRealMain_out {X : SxHexExt K} (hX : SqrtSound X.sq) {t : K} (ht : t ≤ -2 ∨ 1 ≤ t) (h2 : t ≠ 2) :
    ∃ l, hexRealMain X t = some l ∧ Lifts (hexG (4 / t ^ 2 - 2) (-4 / t ^ 2 - 4 / t - 2)) l := by
  have h0 : t ≠ 0 := by rintro rfl; rcases ht with h | h <;> linarith
  have hd : 0 ≤ t ^ 2 + t - 2 := by rcases ht with h | h <;> nlinarith
  have hk := hX _ hd
  unfold hexRealMain
  rw [if_pos ht]
  dsimp only
  generalize X.sq (t ^ 2 + t - 2) = k at hk
  by_cases c1 : t ^ 2 + 4 * t - 8 ≠ 0 ∧ X.isRat k = true
  · rw [if_pos c1]
    obtain ⟨hw, -⟩ := c1
    have hee : (4 - t - 2 * k) * (4 - t + 2 * k) = -3 * (t ^ 2 + 4 * t - 8) := by linear_combination (-4) * hk
    have he : 4 - t - 2 * k ≠ 0 := fun e => by rw [e, zero_mul] at hee; apply hw; linarith
    have hD : 5 * t ^ 2 - 4 * t + k * (4 * t - 16) + 8 = (4 - t - 2 * k) ^ 2 := by linear_combination (-4) * hk
    have h2' : t - 2 ≠ 0 := sub_ne_zero.2 h2
    have hl : (t ^ 2 + 4 * t - 8) ^ 2 / (4 * (t - 2) ^ 2 * (5 * t ^ 2 - 4 * t + k * (4 * t - 16) + 8)) * 4 / t ^ 2 = (4 - t + 2 * k) ^ 2 / (9 * (t - 2) ^ 2 * t ^ 2) := by
      rw [hD]
      have : t ^ 2 + 4 * t - 8 = -((4 - t - 2 * k) * (4 - t + 2 * k)) / 3 := by rw [hee]; ring
      rw [this]
      generalize 4 - t - 2 * k = e at *
      generalize 4 - t + 2 * k = e' at *
      generalize t - 2 = s at *
      field_simp
      norm_num
    have hz : (4 - t + 2 * k) * ((2 * t ^ 2 - 2 * t + k * (2 * t - 4)) / (t ^ 2 + 4 * t - 8)) = 2 * (t - 1 + k) := by
      rw [mul_div_assoc', div_eq_iff hw]
      linear_combination (4 * t - 8) * hk
    refine ⟨_, rfl, lifts_one (by rw [hl]; positivity) (fun a b c => by simp only [cyc3]; positivity) fun a b c => hexG_of_scale h0 ?_⟩
    rw [hl]
    generalize (2 * t ^ 2 - 2 * t + k * (2 * t - 4)) / (t ^ 2 + 4 * t - 8) = z at hz
    have hr := hexReal_root t k a b c hk
    rw [← hz] at hr
    have : t ^ 2 * ((4 - t + 2 * k) ^ 2 / (9 * (t - 2) ^ 2 * t ^ 2) * cyc3 (fun a b c => (a - b) ^ 2 * (a * b * c * (-3 * t * z + 2 * t - 2 * z + 4) + a * b * (a + b) * (t - 2) -
        c ^ 2 * t * (1 - z) * (a + b + c) - c * (t - 2 * z) * (a ^ 2 + b ^ 2 - c ^ 2)) ^ 2) a b c) = ((4 - t + 2 * k) ^ 2 * cyc3 (fun a b c => (a - b) ^ 2 *
        (a * b * c * (-3 * t * z + 2 * t - 2 * z + 4) + a * b * (a + b) * (t - 2) - c ^ 2 * t * (1 - z) * (a + b + c) - c * (t - 2 * z) * (a ^ 2 + b ^ 2 - c ^ 2)) ^ 2) a b c) /
        (9 * (t - 2) ^ 2) := by
      generalize cyc3 _ a b c = v
      field_simp
    rw [this, div_eq_iff (by positivity), mul_comm _ (9 * (t - 2) ^ 2), ← hr]
    simp only [cyc3]
    ring
  rw [if_neg c1]
  by_cases c2 : 0 ≤ t ^ 2 + 4 * t - 8
  · rw [if_pos c2]
    refine ⟨_, rfl, lifts_two (by positivity) (by positivity) (fun a b c => by simp only [cyc3]; positivity) (fun a b c => mul_nonneg (sq_nonneg _) (discV_nonneg a b c))
      fun a b c => hexG_of_scale h0 ?_⟩
    simp only [cyc3, discV, sumA, sd3, cycp3, symHexV]
    field_simp
    ring
  · rw [if_neg c2]
    refine ⟨_, rfl, lifts_two (by positivity) ?_ (fun a b c => by simp only [cyc3]; positivity) (fun a b c => mul_nonneg (sq_nonneg _) (discV_nonneg a b c))
      fun a b c => hexG_of_scale h0 ?_⟩
    · rw [show 4 * (t - 1) * (t + 2) = 4 * (t ^ 2 + t - 2) by ring]; positivity
    · simp only [cyc3, discV, sumA, sd3, cycp3, symHexV]
      field_simp
      ring

/-- The answers for a number between `-1/2` and `1`. -/
theorem hexRealMain_in {X : SxHexExt K} {t : K} (h1 : -1 / 2 ≤ t) (h2 : t < 1) : ∃ l, hexRealMain X t = some l ∧ Lifts (hexH (4 * t ^ 2 - 2) (-4 * t ^ 2 - 4 * t - 2)) l := by
  unfold hexRealMain
  rw [if_neg (by rintro (h | h) <;> linarith), if_pos ⟨by linarith, by linarith⟩]
  dsimp only
  by_cases c1 : 2 * t ≤ 1
  · rw [if_pos c1]
    refine ⟨_, rfl, lifts_two (by linarith) (by linarith) (fun a b c => sq_nonneg _) (fun a b c => by simp only [cyc3]; positivity) fun a b c => ?_⟩
    simp only [cyc3, sd3, hexH, symHexV]
    ring
  · rw [if_neg c1]
    refine ⟨_, rfl, lifts_two (by linarith) (by linarith) (fun a b c => sq_nonneg _) (fun a b c => by simp only [cyc3]; positivity) fun a b c => ?_⟩
    simp only [cyc3, sd3, hexH, symHexV]
    ring

theorem hexReal_some (X : SxHexExt K) (t : K) : hexReal X (some t) =
    if t = 1 then some [(1, fun a b c => s1V a b c ^ 2 * sd3 a b c)]
    else if t = 2 then some [(1, cyc3 fun a b c => (a - b) ^ 2 * (a ^ 2 * b + a * b ^ 2 - 5 * a * b * c + a * c ^ 2 + b * c ^ 2 + c ^ 3) ^ 2)]
    else if t = 0 then some [(1, cyc3 fun a b c => (a - b) ^ 4 * (a * b + a * c + b * c - c ^ 2) ^ 2)]
    else if t = -2 then some [(1 / 2, fun a b c => sumA a b c ^ 2 * cyc3 (fun a b c => a ^ 2 * (b - c) ^ 2) a b c * sd3 a b c)]
    else if t = -1 / 2 then some [(1 / 2, fun a b c => cyc3 (fun a b _ => a * b) a b c ^ 2 * sd3 a b c ^ 2)]
    else hexRealMain X t := rfl

theorem hexReal_one {X : SxHexExt K} : ∃ l, hexReal X (some 1) = some l ∧ Lifts (hexG 2 (-10)) l ∧ Lifts (hexH 2 (-10) : Val3 K) l := by
  unfold hexReal
  simp only [if_true]
  refine ⟨_, rfl, lifts_one zero_le_one (fun a b c => mul_nonneg (sq_nonneg _) (sd3_nonneg a b c)) fun a b c => ?_,
    lifts_one zero_le_one (fun a b c => mul_nonneg (sq_nonneg _) (sd3_nonneg a b c)) fun a b c => ?_⟩
  · simp only [hexG, symHexV, sd3, s1V, cyc3]; ring
  · simp only [hexH, symHexV, sd3, s1V, cyc3]; ring

/-- A point `(x2, y2)` of the parabola that belongs to a number or infinity. -/
def OnCurve (x y : K) : Option K → Prop
  | none => x = -2 ∧ y = -2
  | some t => (t ≤ -2 ∨ 1 ≤ t) ∧ x = 4 / t ^ 2 - 2 ∧ y = -4 / t ^ 2 - 4 / t - 2

theorem hexReal_out {X : SxHexExt K} (hX : SqrtSound X.sq) {x y : K} {t : Option K} (h : OnCurve x y t) : ∃ l, hexReal X t = some l ∧ Lifts (hexG x y) l := by
  cases t with
  | none =>
    obtain ⟨rfl, rfl⟩ := h
    refine ⟨_, rfl, lifts_one zero_le_one (fun a b c => by simp only [cyc3]; positivity) fun a b c => ?_⟩
    simp only [hexG, symHexV, sd3, cyc3]; ring
  | some t =>
    obtain ⟨ht, rfl, rfl⟩ := h
    by_cases h1 : t = 1
    · obtain ⟨l, e, hl, -⟩ := hexReal_one (X := X)
      subst h1
      refine ⟨l, e, ?_⟩
      norm_num
      exact hl
    by_cases h2 : t = 2
    · subst h2
      refine ⟨_, (hexReal_some X _).trans ((if_neg h1).trans (if_pos rfl)), lifts_one zero_le_one (fun a b c => by simp only [cyc3]; positivity) fun a b c => ?_⟩
      simp only [hexG, symHexV, sd3, cyc3]; ring
    by_cases h3 : t = 0
    · rw [h3] at ht; rcases ht with h | h <;> linarith
    by_cases h4 : t = -2
    · subst h4
      refine ⟨_, (hexReal_some X _).trans ((if_neg h1).trans ((if_neg h2).trans ((if_neg h3).trans (if_pos rfl)))), lifts_one (by norm_num)
        (fun a b c => mul_nonneg (mul_nonneg (sq_nonneg _) (by simp only [cyc3]; positivity)) (sd3_nonneg a b c)) fun a b c => ?_⟩
      simp only [hexG, symHexV, sd3, cyc3, sumA]; ring
    by_cases h5 : t = -1 / 2
    · rw [h5] at ht; rcases ht with h | h <;> norm_num at h
    obtain ⟨l, e, hl⟩ := hexRealMain_out hX ht h2
    exact ⟨l, by rw [hexReal_some, if_neg h1, if_neg h2, if_neg h3, if_neg h4, if_neg h5, e], hl⟩

theorem hexReal_in {X : SxHexExt K} {t : K} (h : -1 / 2 ≤ t) (h' : t ≤ 1) : ∃ l, hexReal X (some t) = some l ∧ Lifts (hexH (4 * t ^ 2 - 2) (-4 * t ^ 2 - 4 * t - 2)) l := by
  by_cases h1 : t = 1
  · obtain ⟨l, e, -, hl⟩ := hexReal_one (X := X)
    subst h1
    refine ⟨l, e, ?_⟩
    norm_num
    exact hl
  have h2 : t ≠ 2 := by rintro rfl; linarith
  by_cases h3 : t = 0
  · subst h3
    refine ⟨_, (hexReal_some X _).trans ((if_neg h1).trans ((if_neg h2).trans (if_pos rfl))), lifts_one zero_le_one (fun a b c => by simp only [cyc3]; positivity) fun a b c => ?_⟩
    simp only [hexH, symHexV, sd3, cyc3]; ring
  have h4 : t ≠ -2 := by rintro rfl; linarith
  by_cases h5 : t = -1 / 2
  · subst h5
    refine ⟨_, (hexReal_some X _).trans ((if_neg h1).trans ((if_neg h2).trans ((if_neg h3).trans ((if_neg h4).trans (if_pos rfl))))), lifts_one (by norm_num)
      (fun a b c => by positivity) fun a b c => ?_⟩
    simp only [hexH, symHexV, sd3, cyc3]; ring
  obtain ⟨l, e, hl⟩ := hexRealMain_in (X := X) h (lt_of_le_of_ne h' h1)
  exact ⟨l, by rw [hexReal_some, if_neg h1, if_neg h2, if_neg h3, if_neg h4, if_neg h5, e], hl⟩

/-- What `_linear_comb` returns: a weight between zero and one and a point of the curve, away from `(2, -10)`. -/
theorem hexComb_spec {x y : K} {w : K} {t : Option K} (h : hexComb x y = some (w, t)) (hn : ¬ (x = 2 ∧ y = -10)) :
    0 ≤ w ∧ w ≤ 1 ∧ ∃ x2 y2, OnCurve x2 y2 t ∧ x = w * 2 + (1 - w) * x2 ∧ y = w * (-10) + (1 - w) * y2 := by
  unfold hexComb at h
  split at h
  swap
  · simp at h
  rename_i hr
  obtain ⟨r1, r2⟩ := hr
  have hy : y ≠ 10 := by rintro rfl; nlinarith [sq_nonneg (x + 10 + 2)]
  rw [if_neg fun e => hy e.2] at h
  dsimp only at h
  have hT : 0 ≤ 3 * x + 2 * y + 14 := by nlinarith [sq_nonneg (x + y + 2 + 6)]
  have hx2 : x ≠ 2 := by
    rintro rfl
    apply hn
    refine ⟨rfl, ?_⟩
    have : y ≤ -10 := by linarith
    nlinarith
  have hx : x - 2 ≠ 0 := sub_ne_zero.2 hx2
  have hs : x + y + 8 ≠ 0 := by
    intro e
    have : y = -8 - x := by linarith
    subst this
    have h1 : 2 ≤ x := by nlinarith
    have h2 : x ≤ 2 := by linarith
    exact hx2 (le_antisymm h2 h1)
  have hT' : 3 * x + 2 * y + 14 ≠ 0 := by
    intro e
    have : y = -(3 * x + 14) / 2 := by linarith
    subst this
    have : (x - 2) ^ 2 ≤ 0 := by nlinarith
    exact hx (pow_eq_zero_iff two_ne_zero |>.1 (le_antisymm this (sq_nonneg _)))
  have hTp : 0 < 3 * x + 2 * y + 14 := lt_of_le_of_ne hT (Ne.symm hT')
  set r := 4 * (x - 2) * (3 * x + 2 * y + 14) / (x + y + 8) ^ 2 with hrdef
  have hr0 : r ≠ 0 := by rw [hrdef]; positivity
  have e1 : (r + 2 - x) / (r + 2 - 2) = 1 - (x + y + 8) ^ 2 / (4 * (3 * x + 2 * y + 14)) := by
    rw [add_sub_cancel_right, hrdef]
    generalize 3 * x + 2 * y + 14 = T at *
    generalize hS : x + y + 8 = S at *
    generalize hU : x - 2 = U at *
    have : x = U + 2 := by rw [← hU]; ring
    rw [this]
    field_simp
    ring
  have e2 : (-10 + (y + 10) / (x - 2) * r - y) / (-10 + (y + 10) / (x - 2) * r + 10) = (r + 2 - x) / (r + 2 - 2) ∨ y = -10 := by
    by_cases hy' : y = -10
    · exact .inr hy'
    · left
      have h10 : y + 10 ≠ 0 := fun e => hy' (by linear_combination e)
      have hd : -10 + (y + 10) / (x - 2) * r + 10 = (y + 10) / (x - 2) * r := by ring
      have hd' : r + 2 - 2 = r := by ring
      rw [hd, hd', div_eq_div_iff (by positivity) hr0]
      field_simp
      ring
  have hw : w = (r + 2 - x) / (r + 2 - 2) := by
    have h1 := (Prod.mk.inj (Option.some.inj h)).1
    split_ifs at h1 with hc
    · exact h1.symm
    · rcases e2 with e2 | e2
      · rw [← h1, e2]
      · exfalso
        push Not at hc
        have : (x - 8) ^ 2 ≤ 36 := by rw [e2] at r1; nlinarith
        have hx8 : x = 2 := le_antisymm (by linarith) (by nlinarith)
        exact hx2 hx8
  have hw1 : 1 - w = (x + y + 8) ^ 2 / (4 * (3 * x + 2 * y + 14)) := by rw [hw, e1]; ring
  have hwr : (1 - w) * r = x - 2 := by
    rw [hw1, hrdef]
    generalize 3 * x + 2 * y + 14 = T at *
    generalize x + y + 8 = S at *
    field_simp
  refine ⟨?_, ?_, r + 2, -10 + (y + 10) / (x - 2) * r, ?_, ?_, ?_⟩
  · have : (x + y + 8) ^ 2 / (4 * (3 * x + 2 * y + 14)) ≤ 1 := by
      rw [div_le_one (by positivity)]
      nlinarith
    linarith
  · have : 0 ≤ (x + y + 8) ^ 2 / (4 * (3 * x + 2 * y + 14)) := by positivity
    linarith
  · -- the second point of the line on the parabola
    have hq : 3 * (r + 2) + (-10 + (y + 10) / (x - 2) * r) + 4 = 4 * (3 * x + 2 * y + 14) * (3 * x + y + 4) / (x + y + 8) ^ 2 := by
      rw [hrdef]
      generalize x + y + 8 = S at *
      field_simp
      ring
    have hq' : 3 * (r + 2) + (-10 + (y + 10) / (x - 2) * r) + 4 ≤ 0 := by
      rw [hq]
      exact div_nonpos_of_nonpos_of_nonneg (mul_nonpos_of_nonneg_of_nonpos (by linarith) (by linarith)) (sq_nonneg _)
    have hp : ((r + 2) + (-10 + (y + 10) / (x - 2) * r) + 2) ^ 2 + 4 * (-10 + (y + 10) / (x - 2) * r) + 4 = 0 := by
      have hsum : (r + 2) + (-10 + (y + 10) / (x - 2) * r) + 2 = -6 + 4 * (3 * x + 2 * y + 14) / (x + y + 8) := by
        rw [hrdef]; field_simp; ring
      have hyy : -10 + (y + 10) / (x - 2) * r = -10 + 4 * (y + 10) * (3 * x + 2 * y + 14) / (x + y + 8) ^ 2 := by
        rw [hrdef]; field_simp
      rw [hsum, hyy]
      field_simp
      ring
    rw [← (Prod.mk.inj (Option.some.inj h)).2]
    generalize -10 + (y + 10) / (x - 2) * r = y2 at hq' hp
    generalize r + 2 = x2 at hq' hp
    by_cases hc : x2 + y2 + 4 ≠ 0
    · rw [if_pos hc]
      have hτ : (1 / (-4 / (x2 + y2 + 4)) : K) = -(x2 + y2 + 4) / 4 := by field_simp
      have hinv : ∀ k : K, k / (-4 / (x2 + y2 + 4)) = -k * (x2 + y2 + 4) / 4 := by intro k; field_simp
      refine ⟨?_, ?_, ?_⟩
      · have key : 0 ≤ (-4 / (x2 + y2 + 4) + 2) * (-4 / (x2 + y2 + 4) - 1) := by
          have : (-4 / (x2 + y2 + 4) + 2) * (-4 / (x2 + y2 + 4) - 1) = -2 * (x2 + y2 + 2) * (x2 + y2 + 8) / (x2 + y2 + 4) ^ 2 := by field_simp; ring
          rw [this]
          apply div_nonneg _ (sq_nonneg _)
          nlinarith
        by_contra hcon
        push Not at hcon
        nlinarith
      · rw [show (4 : K) / (-4 / (x2 + y2 + 4)) ^ 2 = (x2 + y2 + 4) ^ 2 / 4 by field_simp]
        linear_combination (-1 / 4) * hp
      · rw [show (-4 : K) / (-4 / (x2 + y2 + 4)) ^ 2 = -(x2 + y2 + 4) ^ 2 / 4 by field_simp, hinv]
        linear_combination (1 / 4) * hp
    · rw [if_neg hc]
      push Not at hc
      have : y2 = -2 := by
        have e : x2 = -4 - y2 := by linear_combination hc
        rw [e] at hp
        linear_combination (1 / 4) * hp
      exact ⟨by linear_combination hc - this, this⟩
  · linear_combination -hwr
  · have : (1 - w) * ((y + 10) / (x - 2) * r) = y + 10 := by
      rw [show (1 - w) * ((y + 10) / (x - 2) * r) = (1 - w) * r * ((y + 10) / (x - 2)) by ring, hwr]
      field_simp
    linear_combination -this

end Verif.Ternary
