import Verif.Proofs.SexticBorder
import Verif.Props.SexticFullMain

/-!
# What the solvers on the symmetric axis return

`axisF x y` is `F_{x,y}` of the docstring of `_sextic_sym_axis`.  Every certificate that one of the solvers returns proves the polynomial it was called for.
-/

namespace Verif.Ternary

open Verif Verif.Acute Verif.Univariate

variable {K : Type*} [Field K] [LinearOrder K]

/-- `F_{x,y} = F0 - 2s(a^4-a^2bc)f + s(a^2-ab)f^2` with `f = s(xa^2+yab)`. -/
def axisF (x y : K) : Val3 K := fun a b c =>
  cyc3 (fun a b c => a ^ 6 + a ^ 5 * b + a ^ 5 * c + a ^ 4 * b * c - 2 * a ^ 3 * b ^ 2 * c - 2 * a ^ 3 * b * c ^ 2) a b c
    - 2 * cyc3 (fun a b c => a ^ 4 - a ^ 2 * b * c) a b c * cyc3 (fun a b _ => x * a ^ 2 + y * a * b) a b c
    + cyc3 (fun a b _ => a ^ 2 - a * b) a b c * cyc3 (fun a b _ => x * a ^ 2 + y * a * b) a b c ^ 2

/-- `s(xa^2+yab)`. -/
def quadV (x y : K) : Val3 K := fun a b c => x * (a ^ 2 + b ^ 2 + c ^ 2) + y * (a * b + b * c + c * a)

variable [IsStrictOrderedRing K]

theorem disc3_nonneg (a b c : K) : 0 ≤ discV3 a b c := by
  unfold discV3 cycp3
  positivity

theorem axV3_nonneg (a b c : K) : 0 ≤ axV3 a b c := by
  unfold axV3 cycp3
  positivity

theorem rem3_nonneg (r : Option K) (a b c : K) : 0 ≤ remV r a b c := by
  cases r <;> exact sq_nonneg _

/-- A result of a solver: a certificate in it proves `f`. -/
def QOk (f : Val3 K) (R : QRes K) : Prop := ∀ C flg, R = .ok (some (.cert C, flg)) → Holds f C

theorem qSquare_sound (x y ker : K) : QOk (fun a b c => axisF x y a b c + ker * discV3 a b c) (qSquare x y ker) := by
  intro C flg h
  unfold qSquare at h
  split at h
  · rename_i hxy
    dsimp only at h
    split at h
    · rename_i hk
      obtain ⟨h1, -⟩ := Prod.mk.inj (Option.some.inj (Except.ok.inj h))
      obtain rfl := QSol.cert.inj h1
      have hx : x - 1 ≠ 0 := sub_ne_zero.2 hxy.2
      have hy : y = 5 / 3 - x := by linarith [hxy.1]
      refine holds_plain (fun a b c => ?_) ?_ ?_
      · simp only [List.map_cons, List.map_nil, List.sum_cons, List.sum_nil, hy]
        have e : (x - 1) ^ 2 / 4 * sqP (2 * (3 * x - 2) / 3 / (x - 1)) a b c ^ 2 =
            (1 / 4) * cyc3 (fun a b c => 2 * (x - 1) * a ^ 3 - (3 * x - 7 / 3) * (b * c ^ 2 + b ^ 2 * c) / 1 + 0 * x + 2 * ((x - 1) * (2 * (3 * x - 2) / 3 / (x - 1))) * a * b * c
              + ((3 * x - 7 / 3) - ((x - 1) * (2 * (3 * x - 2) / 3 / (x - 1)) + (x - 1))) * (b * c ^ 2 + b ^ 2 * c)) a b c ^ 2 := by
          simp only [sqP, cyc3]
          ring
        rw [e, mul_div_cancel₀ _ hx]
        simp only [axisF, discV3, cyc3, cycp3]
        ring
      · intro t ht
        simp only [List.mem_cons, List.not_mem_nil, or_false] at ht
        rcases ht with rfl | rfl
        · dsimp only; positivity
        · exact sub_nonneg.2 hk
      · intro t ht a b c _
        simp only [List.mem_cons, List.not_mem_nil, or_false] at ht
        rcases ht with rfl | rfl
        · exact sq_nonneg _
        · exact disc3_nonneg a b c
    · simp at h
  · simp at h

theorem trivP_sq (x y a b c : K) : trivP x y a b c ^ 2 =
    ((3 * x - 3) * a ^ 2 + (3 * y - 4) * a * b + (3 * y - 2) * a * c + (3 * x - 3) * b ^ 2 + (3 * y - 2) * b * c + (3 * x - 1) * c ^ 2) ^ 2 := by
  unfold trivP
  dsimp only
  split <;> ring

theorem qTrivial_sound (x y ker : K) : QOk (fun a b c => axisF x y a b c + ker * discV3 a b c) (qTrivial x y ker) := by
  intro C flg h
  unfold qTrivial at h
  split at h
  · rename_i hk
    obtain ⟨h1, -⟩ := Prod.mk.inj (Option.some.inj (Except.ok.inj h))
    obtain rfl := QSol.cert.inj h1
    refine holds_plain (fun a b c => ?_) ?_ ?_
    · simp only [List.map_cons, List.map_nil, List.sum_cons, List.sum_nil, trivP_sq, axisF, discV3, cyc3, cycp3]
      ring
    · intro t ht
      simp only [List.mem_cons, List.not_mem_nil, or_false] at ht
      rcases ht with rfl | rfl
      · norm_num
      · exact sub_nonneg.2 hk
    · intro t ht a b c _
      simp only [List.mem_cons, List.not_mem_nil, or_false] at ht
      rcases ht with rfl | rfl
      · dsimp only [cyc3]; positivity
      · exact disc3_nonneg a b c
  · simp at h

/-! ### The solvers that lift the degree -/

/-- `p1 + s(c1*a^2+c2*ab)p(a-b)^2` is the product of `g` and the multiplier, `p1` is a sum of nonnegative terms, and the multiplier is positive where it has to be. -/
structure Lifted.Fits (g : Val3 K) (L : Lifted K) : Prop where
  identity : ∀ a b c, quadV L.m0 L.m1 a b c * g a b c = (L.p.map fun t => t.1 * t.2 a b c).sum + quadV L.c1 L.c2 a b c * discV3 a b c
  weights : ∀ t ∈ L.p, 0 ≤ t.1
  exprs : ∀ t ∈ L.p, ∀ a b c, 0 ≤ t.2 a b c
  m0 : 0 < L.m0
  m1 : 0 ≤ L.m0 + L.m1

theorem qRegular_fits (x y : K) : (qRegular x y).Fits (axisF x y) := by
  refine ⟨fun a b c => ?_, ?_, ?_, by norm_num [qRegular], by norm_num [qRegular]⟩
  · simp only [qRegular, List.map_cons, List.map_nil, List.sum_cons, List.sum_nil, quadV, axisF, discV3, cyc3, cycp3]
    ring
  · intro t ht
    rw [List.mem_singleton.1 ht]
    norm_num
  · intro t ht a b c
    rw [List.mem_singleton.1 ht]
    exact sq_nonneg _

/-- The identity of `_F_sos2`, for every `z`. -/
theorem sos2_identity (x y z a b c : K) : quadV 2 (-2) a b c * axisF x y a b c = 1 / 9 * cyc3 (fun a b c => sos2H x y z a b c ^ 2) a b c +
    quadV (2 * (20 * x ^ 2 - x * y - 30 * x - y ^ 2 + 3 * y + z ^ 2 * (-x ^ 2 + 2 * x - 1) + z * (x ^ 2 + 2 * x * y - 4 * x - 2 * y + 3) + 9) / 3)
      (2 * (16 * x ^ 2 + 28 * x * y - 48 * x - 8 * y ^ 2 - 6 * y + z ^ 2 * (x ^ 2 - 2 * x + 1) + z * (8 * x ^ 2 + 7 * x * y - 20 * x - 7 * y + 12) + 21) / 3) a b c * discV3 a b c := by
  simp only [sos2H, quadV, axisF, discV3, cyc3, cycp3]
  ring

theorem qSos2_fits {second : Bool} {x y : K} {L : Lifted K} (h : qSos2 second x y = .ok L) : L.Fits (axisF x y) := by
  unfold qSos2 at h
  split at h
  · simp at h
  · obtain rfl := Except.ok.inj h
    refine ⟨fun a b c => ?_, ?_, ?_, by norm_num, by norm_num⟩
    · simp only [List.map_cons, List.map_nil, List.sum_cons, List.sum_nil, add_zero]
      exact sos2_identity x y _ a b c
    · intro t ht
      rw [List.mem_singleton.1 ht]
      norm_num
    · intro t ht a b c
      rw [List.mem_singleton.1 ht]
      dsimp only [cyc3]
      positivity

/-- The identity of `_F_alternative` without denominators. -/
theorem alt_identity (x y z a b c : K) : ((x + y - 1) ^ 2 * (a ^ 2 + b ^ 2 + c ^ 2) + (2 * x + 2 * y - 4) * (x + y - 1) * (a * b + b * c + c * a)) * axisF x y a b c =
    1 / 18 * (sd3 a b c * cyc3 (fun a b c => a * altH1 x y a b c) a b c ^ 2) + (3 * x + 3 * y - 5) * cyc3 (fun a b c => a ^ 2 * (b - c) ^ 2 * altH2 x y z a b c ^ 2) a b c +
    quadV ((-3 * x - 3 * y + 5) * z ^ 2 + (-6 * x ^ 2 + 4 * x + 6 * y ^ 2 - 16 * y + 10) * z + 6 * x ^ 2 * y - 7 * x ^ 2 + 3 * x * y ^ 2 - 14 * x * y + 10 * x - 3 * y ^ 3 + 11 * y ^ 2 - 12 * y + 5)
      ((-6 * x * y - 6 * y ^ 2 + 10 * y) * z - 2 * x ^ 2 + 6 * x * y ^ 2 - 8 * x * y + 2 * x + 6 * y ^ 3 - 19 * y ^ 2 + 14 * y) a b c * discV3 a b c := by
  simp only [altH1, altH2, quadV, axisF, sd3, discV3, cyc3, cycp3]
  ring

theorem alt_div {w A B k c1 c2 s2 s1 d : K} (hw : w ≠ 0) :
    1 / 18 * A + k * B + (c1 * s2 + c2 * s1) * d = w ^ 2 * (1 / w ^ 2 / 18 * A + (k / w ^ 2 * B + 0) + (c1 / w ^ 2 * s2 + c2 / w ^ 2 * s1) * d) := by
  field_simp
  ring

theorem qAlternative_fits {x y z : K} {L : Lifted K} (h : qAlternative x y z = some L) : L.Fits (axisF x y) := by
  unfold qAlternative at h
  dsimp only at h
  split at h
  · simp at h
  · rename_i hw
    obtain rfl := Option.some.inj h
    have hw' : 2 / 3 ≤ x + y - 1 := not_lt.1 hw
    have hw0 : 0 < x + y - 1 := by linarith
    have hne := hw0.ne'
    refine ⟨fun a b c => ?_, ?_, ?_, zero_lt_one, ?_⟩
    · simp only [List.map_cons, List.map_nil, List.sum_cons, List.sum_nil]
      refine mul_left_cancel₀ (pow_ne_zero 2 hne) ?_
      have e := alt_identity x y z a b c
      have e1 : (x + y - 1) ^ 2 * (quadV 1 ((2 * x + 2 * y - 4) / (x + y - 1)) a b c * axisF x y a b c) =
          ((x + y - 1) ^ 2 * (a ^ 2 + b ^ 2 + c ^ 2) + (2 * x + 2 * y - 4) * (x + y - 1) * (a * b + b * c + c * a)) * axisF x y a b c := by
        have e3 : (x + y - 1) * ((2 * x + 2 * y - 4) / (x + y - 1)) = 2 * x + 2 * y - 4 := mul_div_cancel₀ _ hne
        unfold quadV
        linear_combination (x + y - 1) * (a * b + b * c + c * a) * axisF x y a b c * e3
      rw [e1, e]
      exact alt_div hne
    · intro t ht
      simp only [List.mem_cons, List.not_mem_nil, or_false] at ht
      rcases ht with rfl | rfl
      · dsimp only; positivity
      · exact div_nonneg (by linarith) (by positivity)
    · intro t ht a b c
      simp only [List.mem_cons, List.not_mem_nil, or_false] at ht
      rcases ht with rfl | rfl
      · exact mul_nonneg (sd3_nonneg a b c) (sq_nonneg _)
      · dsimp only [cyc3]; positivity
    · have : 1 + (2 * x + 2 * y - 4) / (x + y - 1) = (3 * (x + y - 1) - 2) / (x + y - 1) := by field_simp; ring
      rw [this]
      exact div_nonneg (by linarith) hw0.le

theorem Lifted.Fits.scale {g : Val3 K} {L : Lifted K} (h : L.Fits g) {w : K} (hw : 0 ≤ w) : (L.scale w).Fits (fun a b c => w * g a b c) := by
  refine ⟨fun a b c => ?_, ?_, ?_, h.m0, h.m1⟩
  · have e := h.identity a b c
    have e2 : ((L.scale w).p.map fun t => t.1 * t.2 a b c).sum = w * (L.p.map fun t => t.1 * t.2 a b c).sum := by
      simp only [Lifted.scale, List.map_map, Function.comp_def, ← List.sum_map_mul_left]
      congr 1
      apply List.map_congr_left
      intro t _
      ring
    rw [e2]
    simp only [Lifted.scale, quadV] at e ⊢
    linear_combination w * e
  · intro t ht
    obtain ⟨u, hu, rfl⟩ := List.mem_map.1 ht
    exact mul_nonneg (h.weights u hu) hw
  · intro t ht a b c
    obtain ⟨u, hu, rfl⟩ := List.mem_map.1 ht
    exact h.exprs u hu a b c

/-! ### The remainder -/

/-- The remainder `t/4*p(a+b-2c)^2 + rem*s(a^2-ab)*s(a^2+r*ab)^2`. -/
def axisRem (t rem : K) (r : Option K) : Val3 K := fun a b c => t / 4 * axV3 a b c + rem * (cyc3 (fun a b _ => a ^ 2 - a * b) a b c * remV r a b c)

theorem remRegular_sound {t rem m0 m1 : K} {r : Option K} (ht : 0 ≤ t) (hrem : 0 ≤ rem) {R : Cert K × K × K} (h : remRegular t rem r m0 m1 = .ok R) :
    R.2 = (0, 0) ∧ Holds (fun a b c => quadV m0 m1 a b c * axisRem t rem r a b c) R.1 := by
  unfold remRegular at h
  split at h
  · rename_i hm
    obtain rfl := Except.ok.inj h
    refine ⟨rfl, holds_plain (fun a b c => ?_) ?_ ?_⟩
    · simp only [List.map_cons, List.map_nil, List.sum_cons, List.sum_nil, hm.1, hm.2, axisRem, quadV, sd3, cyc3]
      ring
    · intro t' h'
      simp only [List.mem_cons, List.not_mem_nil, or_false] at h'
      rcases h' with rfl | rfl <;> · dsimp only; positivity
    · intro t' h' a b c _
      simp only [List.mem_cons, List.not_mem_nil, or_false] at h'
      rcases h' with rfl | rfl
      · exact mul_nonneg (sd3_nonneg a b c) (axV3_nonneg a b c)
      · exact mul_nonneg (sq_nonneg _) (rem3_nonneg r a b c)
  · cases hQ : quadratic m0 m1 with
    | none => simp [hQ] at h
    | some Q =>
      simp only [hQ] at h
      obtain rfl := Except.ok.inj h
      have hQ' := quadratic_holds hQ
      refine ⟨rfl, Holds.congr (((hQ'.times fun a b c _ => axV3_nonneg a b c).smul (by positivity : 0 ≤ t / 4)).plus
        ((hQ'.times (e := fun a b c => sd3 a b c * remV r a b c) fun a b c _ => mul_nonneg (sd3_nonneg a b c) (rem3_nonneg r a b c)).smul (by positivity : 0 ≤ rem / 2))) fun a b c => ?_⟩
      simp only [axisRem, quadV, sd3, cyc3]
      ring

/-- The identity of `_rem_sos`, multiplied by `8u^2`. -/
theorem remSos_identity (rem r a b c : K) :
    16 * rem * (cyc3 (fun a b _ => a ^ 2 - a * b) a b c * (2 * (rem * (cyc3 (fun a b _ => a ^ 2 - a * b) a b c * remV (some r) a b c)))) =
      cyc3 (fun a b c => (a - b) ^ 2 * (a + b - 2 * c) ^ 2 * remH (rem * 2) (rem * r * 2) a b c ^ 2) a b c +
        16 * rem * (quadV (-(3 * (rem * r ^ 2 * 2) - 24 * (rem * 2) + 6 * (rem * r * 2)) / 4)
          (-9 * (4 * (rem * 2) - 4 * (rem * r * 2) + rem * r ^ 2 * 2) / 4 + 2 * (-(3 * (rem * r ^ 2 * 2) - 24 * (rem * 2) + 6 * (rem * r * 2)) / 4)) a b c * discV3 a b c) := by
  simp only [remH, quadV, remV, discV3, cyc3, cycp3]
  ring

theorem remSos_sound {t rem m0 m1 : K} {r : Option K} (ht : 0 ≤ t) (hrem : 0 ≤ rem) {C : Cert K} {c1 c2 : K} (h : remSos t rem r m0 m1 = some (.cert C, c1, c2)) :
    Holds (fun a b c => quadV m0 m1 a b c * axisRem t rem r a b c - quadV c1 c2 a b c * discV3 a b c) C := by
  unfold remSos at h
  split at h
  · rename_i hm
    dsimp only at h
    have h' := Option.some.inj h
    have h1 := congrArg Prod.fst h'
    have h2 : _ = c1 := congrArg (fun t => t.2.1) h'
    have h3 : _ = c2 := congrArg (fun t => t.2.2) h'
    cases r with
    | none => simp [remUV] at h1
    | some r =>
      simp only [remUV] at h1 h2 h3
      by_cases hu : rem * 2 = 0
      · simp [hu] at h1
      · simp only [hu, if_false] at h1
        obtain rfl := QSol.cert.inj h1
        have hr : 0 < rem := lt_of_le_of_ne hrem fun e => hu (by rw [← e]; ring)
        refine holds_plain (fun a b c => ?_) ?_ ?_
        · have e := remSos_identity rem r a b c
          have hne : (16 * rem : K) ≠ 0 := by positivity
          simp only [List.map_cons, List.map_nil, List.sum_cons, List.sum_nil, hm.1, hm.2]
          refine mul_left_cancel₀ hne ?_
          rw [← h2, ← h3]
          have e2 : (16 * rem : K) * (1 / (8 * (rem * 2))) = 1 := by field_simp; norm_num
          have e3 : quadV 2 (-2) a b c = 2 * cyc3 (fun a b _ => a ^ 2 - a * b) a b c := by simp only [quadV, cyc3]; ring
          have e4 : sd3 a b c = 2 * cyc3 (fun a b _ => a ^ 2 - a * b) a b c := by simp only [sd3, cyc3]; ring
          rw [e3, e4]
          unfold axisRem
          linear_combination (cyc3 (fun a b c => (a - b) ^ 2 * (a + b - 2 * c) ^ 2 * remH (rem * 2) (rem * r * 2) a b c ^ 2) a b c) * e2 - e
        · intro t' h'
          simp only [List.mem_cons, List.not_mem_nil, or_false] at h'
          rcases h' with rfl | rfl <;> · dsimp only; positivity
        · intro t' h' a b c _
          simp only [List.mem_cons, List.not_mem_nil, or_false] at h'
          rcases h' with rfl | rfl
          · exact mul_nonneg (sd3_nonneg a b c) (axV3_nonneg a b c)
          · dsimp only [cyc3]; positivity
  · simp at h

theorem mergeRem_sound {g G : Val3 K} {L : Lifted K} (hL : L.Fits g) {p2 : QSol K} {c21 c22 ker : K}
    (hp : ∀ P, p2 = .cert P → Holds (fun a b c => quadV L.m0 L.m1 a b c * G a b c - quadV c21 c22 a b c * discV3 a b c) P) :
    QOk (fun a b c => g a b c + G a b c + ker * discV3 a b c) (mergeRem L p2 c21 c22 ker) := by
  intro C flg h
  unfold mergeRem at h
  split at h
  · simp at h
  · dsimp only at h
    split at h
    · rename_i hc
      split at h
      · simp at h
      · rename_i P Q M hQ hM
        obtain ⟨h1, -⟩ := Prod.mk.inj (Option.some.inj (Except.ok.inj h))
        obtain rfl := QSol.cert.inj h1
        have hP := hp _ rfl
        have h0 : Holds (fun a b c => (L.p.map fun t => t.1 * t.2 a b c).sum) (Cert.plain L.p) := holds_plain (fun _ _ _ => rfl) hL.weights fun t ht a b c _ => hL.exprs t ht a b c
        refine Holds.quot (g := quadV L.m0 L.m1) (Holds.congr ((h0.plus hP).plus ((quadratic_holds hQ).times fun a b c _ => disc3_nonneg a b c)) fun a b c => ?_) (quadratic_holds hM) ?_
        · have e := hL.identity a b c
          simp only [quadV] at e ⊢
          linear_combination -e
        · intro a b c ha hb hc hn
          exact quadratic_pos hL.m0.le hL.m1 (.inl hL.m0) ha hb hc hn
      · simp at h
    · simp at h

theorem wrapLift_sound {g : Val3 K} {L : Lifted K} (hL : L.Fits g) {co ker t rem : K} {r : Option K} (hco : 0 ≤ co) (ht : 0 ≤ t) (hrem : 0 ≤ rem) :
    QOk (fun a b c => co * g a b c + axisRem t rem r a b c + ker * discV3 a b c) (wrapLift L co ker t rem r) := by
  intro C flg h
  unfold wrapLift at h
  dsimp only at h
  have hs := hL.scale hco
  cases hR : remRegular t rem r L.m0 L.m1 with
  | error e => simp [hR] at h
  | ok R =>
    obtain ⟨h0, hR'⟩ := remRegular_sound ht hrem hR
    have hR0 : R.2.1 = 0 ∧ R.2.2 = 0 := by rw [h0]; exact ⟨rfl, rfl⟩
    have first := mergeRem_sound (G := axisRem t rem r) (p2 := .cert R.1) (c21 := R.2.1) (c22 := R.2.2) (ker := ker) hs fun P hP => by
      obtain rfl := QSol.cert.inj hP
      refine hR'.congr fun a b c => ?_
      simp only [hR0.1, hR0.2, quadV, Lifted.scale]
      ring
    simp only [hR] at h
    cases hM : mergeRem (L.scale co) (.cert R.1) R.2.1 R.2.2 ker with
    | error e => simp [hM] at h
    | ok o =>
      rw [hM] at h first
      have key : ∀ S, remSos t rem r L.m0 L.m1 = some S → QOk (fun a b c => co * g a b c + axisRem t rem r a b c + ker * discV3 a b c) (mergeRem (L.scale co) S.1 S.2.1 S.2.2 ker) := by
        intro S hS
        refine mergeRem_sound hs fun P hP => ?_
        obtain ⟨S1, S2, S3⟩ := S
        dsimp only at hP
        subst hP
        exact remSos_sound ht hrem hS
      have tail : (match remSos t rem r L.m0 L.m1 with
          | none => Except.ok o
          | some S =>
            match mergeRem (L.scale co) S.1 S.2.1 S.2.2 ker with
            | .error e => Except.error e
            | .ok (some (s, true)) => Except.ok (some (s, true))
            | .ok o' => Except.ok (o.orElse fun _ => o')) = .ok (some (.cert C, flg)) → Holds (fun a b c => co * g a b c + axisRem t rem r a b c + ker * discV3 a b c) C := by
        intro h
        cases hS : remSos t rem r L.m0 L.m1 with
        | none =>
          simp only [hS] at h
          exact first C flg h
        | some S =>
          simp only [hS] at h
          have k := key S hS
          cases hM' : mergeRem (L.scale co) S.1 S.2.1 S.2.2 ker with
          | error e => simp [hM'] at h
          | ok o' =>
            rw [hM'] at k
            simp only [hM'] at h
            rcases o' with _ | ⟨s, _ | _⟩
            · cases o with
              | none => simp at h
              | some v => exact first C flg (by simpa using h)
            · cases o with
              | none => exact k C flg (by simpa using h)
              | some v => exact first C flg (by simpa using h)
            · exact k C flg h
      rcases o with _ | ⟨s, _ | _⟩
      · exact tail h
      · exact tail h
      · exact first C flg h

theorem wrapFlat_sound {g : Val3 K} {F : QRes K} {co ker t rem : K} {r : Option K} (hF : QOk (fun a b c => g a b c + ker / co * discV3 a b c) F) (hco : 0 < co) (ht : 0 ≤ t) (hrem : 0 ≤ rem) :
    QOk (fun a b c => co * g a b c + axisRem t rem r a b c + ker * discV3 a b c) (wrapFlat F co t rem r) := by
  intro C flg h
  unfold wrapFlat at h
  split at h
  · simp at h
  · simp at h
  · simp at h
  · rename_i D flg'
    obtain ⟨h1, -⟩ := Prod.mk.inj (Option.some.inj (Except.ok.inj h))
    obtain rfl := QSol.cert.inj h1
    refine Holds.congr ((((hF D flg' rfl).smul hco.le).add (by positivity : 0 ≤ t / 4) fun a b c _ => axV3_nonneg a b c).add (by positivity : 0 ≤ rem / 2)
      (e := fun a b c => sd3 a b c * remV r a b c) fun a b c _ => mul_nonneg (sd3_nonneg a b c) (rem3_nonneg r a b c)) fun a b c => ?_
    have e : co * (ker / co) = ker := mul_div_cancel₀ _ hco.ne'
    have e4 : sd3 a b c = 2 * cyc3 (fun a b _ => a ^ 2 - a * b) a b c := by simp only [sd3, cyc3]; ring
    rw [e4]
    unfold axisRem
    linear_combination discV3 a b c * e

end Verif.Ternary
