import Verif.Model.SexticFull
import Verif.Props.SexticIran
import Verif.Props.SexticHexagonMain
import Verif.Props.TernaryQuartic

/-!
# What the solver of symmetric sextics guarantees
-/

set_option linter.unusedSectionVars false

namespace Verif.Ternary

open Verif Verif.Acute Verif.Dense

variable {K : Type*} [Field K] [LinearOrder K] [IsStrictOrderedRing K]

/-! ### The sum of squares for all real numbers -/

/-- On the symmetric axis the polynomial has the factor `(a-1)^2`. -/
theorem axis_form {f : Sextic K} (hf : f.Symm) (m : K) :
    f.poly (m + 1) 1 1 = f.fullRem * (m + 1) ^ 2 + m ^ 2 * (f.c600 * m ^ 4 + f.a3 * m ^ 3 + f.a2 * m ^ 2 + f.a1 * m + f.a0) := by
  rw [symm_poly hf]
  simp only [symV, symHexV, Sextic.fullRem, Sextic.a0, Sextic.a1, Sextic.a2, Sextic.a3]
  ring

theorem sdpMapping_eq (x y a b c : K) : sdpMapping x y a b c = (x * (a ^ 3 + b ^ 3 + c ^ 3 - 3 * a * b * c) + y * s1V a b c) ^ 2 := by
  unfold sdpMapping
  split_ifs with h1 h2 h3
  · rw [h1]; ring
  · rw [h2]; simp only [s1V, cyc3, cycp3]; ring
  · rw [h3]; simp only [s1V, cyc3]; ring
  · simp only [s1V, cyc3]; ring

theorem sdpQuad_spec {l00 l01 l11 : K} {l : List (K × Val3 K)} (h : sdpQuad l00 l01 l11 = some l) :
    (∀ t ∈ l, 0 ≤ t.1 ∧ ∀ a b c, 0 ≤ t.2 a b c) ∧ ∀ a b c, (l.map fun t => t.1 * t.2 a b c).sum =
      l00 * (a ^ 3 + b ^ 3 + c ^ 3 - 3 * a * b * c) ^ 2 + 2 * l01 * (a ^ 3 + b ^ 3 + c ^ 3 - 3 * a * b * c) * s1V a b c + l11 * s1V a b c ^ 2 := by
  unfold sdpQuad at h
  obtain ⟨ws, hws, rfl⟩ := Option.map_eq_some_iff.1 h
  obtain ⟨hn, hs⟩ := quadraticWeighting_sound _ _ _ _ hws
  constructor
  · intro t ht
    obtain ⟨w, hw, rfl⟩ := List.mem_map.1 ht
    refine ⟨hn w hw, fun a b c => ?_⟩
    dsimp only
    rw [sdpMapping_eq]; positivity
  · intro a b c
    rw [← hs, List.map_map]
    congr 1
    apply List.map_congr_left
    intro w _
    simp only [Function.comp, sdpMapping_eq]

/-- The identity of the method. -/
theorem sdp_identity {f : Sextic K} (hf : f.Symm) {u : K} (h0 : f.a0 ≠ 0) (a b c : K) :
    1 / (72 * f.a0) * cyc3 (fun a b c => (a - b) ^ 2 * sdpP f.a0 f.a1 u a b c ^ 2) a b c + (sdpW f u * discV a b c + (f.fullRem * a2V a b c +
      (-(-36 * f.a0 * f.c600 + u ^ 2) / (36 * f.a0) * (a ^ 3 + b ^ 3 + c ^ 3 - 3 * a * b * c) ^ 2 +
        2 * ((6 * f.a0 * f.a3 - 36 * f.a0 * f.c600 - f.a1 * u + u ^ 2) / (24 * f.a0)) * (a ^ 3 + b ^ 3 + c ^ 3 - 3 * a * b * c) * s1V a b c + sdpL11 f u * s1V a b c ^ 2))) =
      f.poly a b c := by
  have e1 : f.c411 = f.a2 - 2 * f.c420 - 10 * f.c510 - 15 * f.c600 := by unfold Sextic.a2; ring
  have e2 : f.c510 = f.a3 / 2 - 3 * f.c600 := by unfold Sextic.a3; ring
  have e3 : f.c330 = f.a0 - f.a1 + f.c411 + 6 * f.c510 + 8 * f.c600 := by unfold Sextic.a0 Sextic.a1; ring
  have e4 : f.c321 = f.a1 / 2 - f.c330 - 2 * f.c411 - 4 * f.c420 - 10 * f.c510 - 10 * f.c600 := by unfold Sextic.a1; ring
  have e5 : f.c222 = f.fullRem - 6 * f.c321 - 3 * f.c330 - 3 * f.c411 - 6 * f.c420 - 6 * f.c510 - 3 * f.c600 := by unfold Sextic.fullRem; ring
  rw [symm_poly hf]
  unfold symV symHexV sdpW sdpL11
  rw [e5, e4, e3, e1, e2]
  generalize f.a0 = A0, f.a1 = A1, f.a2 = A2, f.a3 = A3, f.c600 = A4, f.c420 = C, f.fullRem = R at *
  simp only [cyc3, discV, s1V, a2V, cycp3, sdpP]
  field_simp
  ring

theorem sdpSol_sound {f : Sextic K} (hf : f.Symm) (h0 : 0 < f.a0) (hr : 0 ≤ f.fullRem) {u : K} {C : Cert K} (h : sdpSol f u = some C) : EveryHolds f.poly C := by
  unfold sdpSol at h
  split at h
  · simp at h
  rename_i l hl
  split at h
  · simp at h
  rename_i hw
  rw [← Option.some.inj h]
  obtain ⟨h1, h2⟩ := sdpQuad_spec hl
  refine ⟨plain_shows ?_ ?_ ?_, fun _ _ _ _ => zero_lt_one⟩
  · intro a b c
    rw [← sdp_identity hf h0.ne' (u := u)]
    simp only [List.map_cons, List.sum_cons, h2]
  · intro t ht
    simp only [List.mem_cons] at ht
    rcases ht with rfl | rfl | rfl | ht
    · dsimp only; positivity
    · exact not_lt.1 hw
    · exact hr
    · exact (h1 t ht).1
  · intro t ht a b c _
    simp only [List.mem_cons] at ht
    rcases ht with rfl | rfl | rfl | ht
    · simp only [cyc3]; positivity
    · exact discV_nonneg a b c
    · exact a2V_nonneg a b c
    · exact (h1 t ht).2 a b c

theorem rationalizeFunc_ok {poly : K → K} {d : K} {v : K → Bool} (cs : List (Cand K)) : ∃ r, rationalizeFunc poly d (fun u => .ok (v u)) cs = .ok r := by
  have hb : ∀ ts, ∃ r, rfBound poly d (fun u => .ok (v u)) ts = .ok r := by
    intro ts
    induction ts with
    | nil => exact ⟨none, rfl⟩
    | cons t ts ih =>
      unfold rfBound
      split_ifs
      · cases v t with
        | true => exact ⟨_, rfl⟩
        | false => exact ih
      · exact ih
  induction cs with
  | nil => exact ⟨none, rfl⟩
  | cons c cs ih =>
    cases c with
    | exact t =>
      unfold rationalizeFunc
      cases v t with
      | true => exact ⟨_, rfl⟩
      | false => exact ih
    | approx i ts =>
      unfold rationalizeFunc
      split_ifs
      · obtain ⟨r, hr⟩ := hb ts
        rw [hr]
        cases r with
        | none => exact ih
        | some t => exact ⟨_, rfl⟩
      · exact ih

theorem sdpZero_sound {f : Sextic K} (hf : f.Symm) (h0 : f.a0 = 0) (hr : 0 ≤ f.fullRem) {C : Cert K} (h : sdpZero f = some C) : EveryHolds f.poly C := by
  unfold sdpZero at h
  split at h
  · simp at h
  rename_i h1
  have h1 := not_not.1 h1
  dsimp only at h
  split at h
  · simp at h
  rename_i l hl
  split at h
  · simp at h
  rename_i hw
  rw [← Option.some.inj h]
  obtain ⟨g1, g2⟩ := sdpQuad_spec hl
  refine ⟨plain_shows ?_ ?_ ?_, fun _ _ _ _ => zero_lt_one⟩
  · intro a b c
    simp only [List.map_cons, List.sum_cons, g2]
    have e1 : f.c411 = f.a2 - 2 * f.c420 - 10 * f.c510 - 15 * f.c600 := by unfold Sextic.a2; ring
    have e2 : f.c510 = f.a3 / 2 - 3 * f.c600 := by unfold Sextic.a3; ring
    have e3 : f.c330 = f.a0 - f.a1 + f.c411 + 6 * f.c510 + 8 * f.c600 := by unfold Sextic.a0 Sextic.a1; ring
    have e4 : f.c321 = f.a1 / 2 - f.c330 - 2 * f.c411 - 4 * f.c420 - 10 * f.c510 - 10 * f.c600 := by unfold Sextic.a1; ring
    have e5 : f.c222 = f.fullRem - 6 * f.c321 - 3 * f.c330 - 3 * f.c411 - 6 * f.c420 - 6 * f.c510 - 3 * f.c600 := by unfold Sextic.fullRem; ring
    rw [symm_poly hf]
    unfold symV symHexV
    rw [e5, e4, e3, e1, e2, h0, h1]
    simp only [cyc3, discV, s1V, a2V, cycp3]
    ring
  · intro t ht
    simp only [List.mem_cons] at ht
    rcases ht with rfl | rfl | ht
    · exact not_lt.1 hw
    · exact hr
    · exact (g1 t ht).1
  · intro t ht a b c _
    simp only [List.mem_cons] at ht
    rcases ht with rfl | rfl | ht
    · exact discV_nonneg a b c
    · exact a2V_nonneg a b c
    · exact (g1 t ht).2 a b c

/-- **The answers of the method for all real numbers hold for all real numbers, and it raises nothing.** -/
theorem sxFullSdp_sound (X : UltExt K) {f : Sextic K} (hf : f.Symm) : ∃ r, sxFullSdp X f = .ok r ∧ ∀ C, r = some C → EveryHolds f.poly C := by
  unfold sxFullSdp
  dsimp only
  have hn : ∃ r, Except.ok (none : Option (Cert K)) = (Except.ok r : Except PyErr _) ∧ ∀ C, r = some C → EveryHolds f.poly C := ⟨none, rfl, fun C h => by simp at h⟩
  split
  · exact hn
  rename_i hr
  split
  · exact hn
  rename_i hp
  push Not at hr hp
  split
  · rename_i h0
    exact ⟨_, rfl, fun C h => sdpZero_sound hf h0 hr h⟩
  rename_i h0
  have hpos : 0 < f.a0 := lt_of_le_of_ne hp.2 (Ne.symm h0)
  split
  · exact hn
  split
  · exact ⟨_, rfl, fun C h => sdpSol_sound hf hpos hr h⟩
  split
  · exact hn
  split
  · refine ⟨_, rfl, fun C h => ?_⟩
    generalize sdpMulti (sdpCo f) = us at h
    induction us with
    | nil => simp [sdpFirst] at h
    | cons u us ih =>
      unfold sdpFirst at h
      split at h
      · exact sdpSol_sound hf hpos hr h
      · exact ih h
  · obtain ⟨r, hr'⟩ := rationalizeFunc_ok (poly := sdpDet f) (d := 1) (v := sdpValid f) (X.detCands f)
    rw [hr']
    cases r with
    | none => exact hn
    | some u => exact ⟨_, rfl, fun C h => sdpSol_sound hf hpos hr h⟩

/-- The determinant of the method. -/
theorem sdpDet_eq {f : Sextic K} (h0 : f.a0 ≠ 0) (u : K) :
    -(-36 * f.a0 * f.c600 + u ^ 2) / (36 * f.a0) * sdpL11 f u - ((6 * f.a0 * f.a3 - 36 * f.a0 * f.c600 - f.a1 * u + u ^ 2) / (24 * f.a0)) ^ 2 = sdpDet f u / (432 * f.a0) := by
  unfold sdpL11 sdpDet
  field_simp
  ring

/-- **A number that passes the tests gives a solution**: no further test can fail, except in the limit `l11 = 0`. -/
theorem sdpSol_complete {f : Sextic K} (h0 : 0 < f.a0) {u : K} (hd : 0 ≤ sdpDet f u) (hl : 0 < sdpL11 f u) (hw : 0 ≤ sdpW f u) : ∃ C, sdpSol f u = some C := by
  have e := sdpDet_eq h0.ne' u
  have hd' : 0 ≤ sdpDet f u / (432 * f.a0) := by positivity
  unfold sdpSol sdpQuad
  generalize -(-36 * f.a0 * f.c600 + u ^ 2) / (36 * f.a0) = l00 at *
  generalize (6 * f.a0 * f.a3 - 36 * f.a0 * f.c600 - f.a1 * u + u ^ 2) / (24 * f.a0) = l01 at *
  have h00 : 0 ≤ l00 := by
    by_contra hn
    push Not at hn
    nlinarith [mul_pos_of_neg_of_neg hn (neg_lt_zero.2 hl), sq_nonneg l01]
  have hq : ∃ l, quadraticWeighting l00 (2 * l01) (sdpL11 f u) = some l := by
    unfold quadraticWeighting
    rw [if_neg (by push Not; exact ⟨by nlinarith, h00, hl.le⟩)]
    split_ifs <;> exact ⟨_, rfl⟩
  obtain ⟨l, hq⟩ := hq
  rw [hq]
  simp only [Option.map_some]
  rw [if_neg (not_lt.2 hw)]
  exact ⟨_, rfl⟩

/-- **So the method answers whenever its determinant is nonnegative at the vertex `u0` and the two other conditions hold there strictly.** -/
theorem sxFullSdp_complete (X : UltExt K) {f : Sextic K} (hr : 0 ≤ f.fullRem) (h6 : 0 < f.c600) (h0 : 0 < f.a0) (hd : 0 ≤ sdpDet f (-2 * f.a0 / 3 + f.a1))
    (hl : 0 < sdpL11 f (-2 * f.a0 / 3 + f.a1)) (hw : 0 ≤ sdpW f (-2 * f.a0 / 3 + f.a1)) : ∃ C, sxFullSdp X f = .ok (some C) := by
  obtain ⟨C, hC⟩ := sdpSol_complete h0 hd hl hw
  refine ⟨C, ?_⟩
  unfold sxFullSdp
  dsimp only
  rw [if_neg (not_lt.2 hr), if_neg (by push Not; exact ⟨h6, h0.le⟩), if_neg h0.ne', if_neg (by push Not; exact ⟨hl.le, hw⟩), if_pos hd, hC]

end Verif.Ternary
