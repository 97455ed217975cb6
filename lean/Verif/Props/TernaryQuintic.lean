import Verif.Model.TernaryQuintic
import Verif.Props.QuinticSymmetricMain
import Verif.Props.TernarySeptic
import Verif.Props.SexticSmall
import Verif.Props.OcticSymmetric

/-!
# What the solver for cyclic ternary quintics guarantees: hexagons
-/

set_option linter.unusedSectionVars false

namespace Verif.Ternary

open Verif Verif.Acute

variable {K : Type*} [Field K] [LinearOrder K] [IsStrictOrderedRing K]

/-! ### Expressions -/

theorem abcSd_nonneg (a b c : K) (ho : Octant a b c) : 0 ≤ abcSd a b c := prodSd_nonneg a b c ho

theorem mulW_eq (w a b c : K) : mulW w a b c = quad1 w a b c := by
  unfold mulW quad1 cyc3
  ring

theorem mulW_nonneg {w : K} (hw : -1 ≤ w) (a b c : K) (ho : Octant a b c) : 0 ≤ mulW w a b c := by
  rw [mulW_eq]
  exact quad1_nonneg hw a b c ho

theorem mulW_pos {w : K} (hw : -1 ≤ w) (a b c : K) (ha : 0 < a) (hb : 0 < b) (hc : 0 < c) (hn : ¬ (a = b ∧ b = c)) : 0 < mulW w a b c := by
  rw [mulW_eq]
  exact quad1_pos hw a b c ha hb hc hn

theorem holds_over {f e : Val3 K} {l : List (K × Val3 K)} (hid : ∀ a b c, (l.map fun t => t.1 * t.2 a b c).sum = e a b c * f a b c) (hw : ∀ t ∈ l, 0 ≤ t.1)
    (he : ∀ t ∈ l, t.1 ≠ 0 → ∀ a b c, Octant a b c → 0 ≤ t.2 a b c) (hn : ∀ a b c, Octant a b c → 0 ≤ e a b c)
    (hp : ∀ a b c, 0 < a → 0 < b → 0 < c → ¬ (a = b ∧ b = c) → 0 < e a b c) : Holds f (over (.plain (sumY l)) e) :=
  ((ident_sumY (f := fun a b c => e a b c * f a b c) hid he).over (fun _ _ _ => rfl) hn hp).holds (weights_sumY hw)

/-- Close a goal about an expression `CyclicSum(...)` with a nonnegative summand. -/
macro "oct_sum" : tactic => `(tactic| (intro a b c ho; oct_pos))

/-! ### Hexagons with equal border coefficients -/

/-- The polynomial solved by `_solve_quintic_hexagon_pqz`. -/
def pqzPoly (p q z m : K) : Quintic K := ⟨0, m, p * m, q * m, m, z * m, -(p + q + z + 2) * m⟩

theorem pqz_identity (p q z a b c : K) :
    cyc3 (fun a b c => c * (((z + 8) ^ 2 - 4 * p * q) * (a ^ 2 - b ^ 2) + 4 * (2 * p ^ 2 - q * (z + 8)) * (a * b - a * c) + 4 * (2 * q ^ 2 - p * (z + 8)) * (b * c - a * b)) ^ 2) a b c +
      hexDet p q z * cyc3 (fun a b c => c * (a - b) ^ 4) a b c = hexD p q z * (pqzPoly p q z 1).poly a b c := by
  unfold cyc3 hexDet hexD pqzPoly Quintic.poly
  ring

theorem pqz_identity2 (p q u v t z a b c : K) (hu : t * (9 - p * q) * u = t * (2 * p ^ 2 - 6 * q)) (hv : t * (9 - p * q) * v = t * (2 * q ^ 2 - 6 * p)) (h9 : 9 - p * q ≠ 0)
    (ht : t * ((p + q + 3) * (3 * (p - q) ^ 2 + (6 - p - q) ^ 2)) = (9 - p * q) ^ 2) :
    (z + 2) / 2 * abcSd a b c + t * cyc3 (fun a b c => c * uvForm u v a b c ^ 2) a b c + (1 - t) * cyc3 (fun a b c => c * (a - b) ^ 4) a b c = (pqzPoly p q z 1).poly a b c := by
  have hD : (p + q + 3) * (3 * (p - q) ^ 2 + (6 - p - q) ^ 2) ≠ 0 := by
    intro h
    rw [h, mul_zero] at ht
    exact h9 (pow_eq_zero_iff two_ne_zero |>.1 ht.symm)
  have ht0 : t ≠ 0 := by
    rintro rfl
    rw [zero_mul] at ht
    exact h9 (pow_eq_zero_iff two_ne_zero |>.1 ht.symm)
  have hu' : u = (2 * p ^ 2 - 6 * q) / (9 - p * q) := by
    rw [eq_div_iff h9]
    exact mul_left_cancel₀ ht0 (by linear_combination hu)
  have hv' : v = (2 * q ^ 2 - 6 * p) / (9 - p * q) := by
    rw [eq_div_iff h9]
    exact mul_left_cancel₀ ht0 (by linear_combination hv)
  have ht' : t = (9 - p * q) ^ 2 / ((p + q + 3) * (3 * (p - q) ^ 2 + (6 - p - q) ^ 2)) := by
    rw [eq_div_iff hD]
    exact ht
  have e : t * cyc3 (fun a b c => c * uvForm u v a b c ^ 2) a b c =
      cyc3 (fun a b c => c * ((9 - p * q) * (a ^ 2 - b ^ 2) + (2 * p ^ 2 - 6 * q) * (a * b - a * c) + (2 * q ^ 2 - 6 * p) * (b * c - a * b)) ^ 2) a b c /
        ((p + q + 3) * (3 * (p - q) ^ 2 + (6 - p - q) ^ 2)) := by
    rw [ht', hu', hv']
    unfold cyc3 uvForm
    field_simp
  rw [e, ht', eq_comm, ← sub_eq_zero]
  generalize hDD : (p + q + 3) * (3 * (p - q) ^ 2 + (6 - p - q) ^ 2) = D at *
  field_simp
  rw [← hDD]
  unfold cyc3 abcSd prodA cycp3 sd3 cyc3 pqzPoly Quintic.poly
  ring

theorem pqz_t {p q : K} (hd : 0 ≤ -16 * (p ^ 2 * q ^ 2 + 18 * p * q - 4 * p ^ 3 - 4 * q ^ 3 - 27)) (hn : p ≠ 3 ∨ q ≠ 3) :
    0 < p + q + 3 ∧ 0 < 3 * (p - q) ^ 2 + (6 - p - q) ^ 2 ∧ (9 - p * q) ^ 2 ≤ (p + q + 3) * (3 * (p - q) ^ 2 + (6 - p - q) ^ 2) := by
  have h2 : 0 < 3 * (p - q) ^ 2 + (6 - p - q) ^ 2 := by
    refine lt_of_le_of_ne (by positivity) fun h => ?_
    have hx : (p - q) ^ 2 = 0 := by nlinarith [sq_nonneg (p - q), sq_nonneg (6 - p - q)]
    have hy : (6 - p - q) ^ 2 = 0 := by nlinarith [sq_nonneg (p - q), sq_nonneg (6 - p - q)]
    have hx' := pow_eq_zero_iff two_ne_zero |>.1 hx
    have hy' := pow_eq_zero_iff two_ne_zero |>.1 hy
    rcases hn with hn | hn
    · exact hn (by linarith)
    · exact hn (by linarith)
  have h3 : (9 - p * q) ^ 2 ≤ (p + q + 3) * (3 * (p - q) ^ 2 + (6 - p - q) ^ 2) := by
    have e : (p + q + 3) * (3 * (p - q) ^ 2 + (6 - p - q) ^ 2) - (9 - p * q) ^ 2 = -(p ^ 2 * q ^ 2 + 18 * p * q - 4 * p ^ 3 - 4 * q ^ 3 - 27) := by ring
    linarith
  refine ⟨?_, h2, h3⟩
  by_contra hc
  push Not at hc
  have h4 : (p + q + 3) * (3 * (p - q) ^ 2 + (6 - p - q) ^ 2) ≤ 0 := mul_nonpos_of_nonpos_of_nonneg hc h2.le
  have h5 : (9 - p * q) ^ 2 = 0 := le_antisymm (by linarith) (sq_nonneg _)
  have h6 : 9 - p * q = 0 := pow_eq_zero_iff two_ne_zero |>.1 h5
  rw [h5] at h3
  have h7 : (p + q + 3) * (3 * (p - q) ^ 2 + (6 - p - q) ^ 2) = 0 := le_antisymm h4 h3
  have h8 : p + q + 3 = 0 := (mul_eq_zero.1 h7).resolve_right h2.ne'
  nlinarith [sq_nonneg (p - q)]

/-- **The answers for equal border coefficients are complete proofs, unless `p*q = 9` and the first discriminant fails** (see `hexPqz_nine_wrong`). -/
theorem hexPqz_holds {p q z m : K} (hm : 0 ≤ m) (h9 : p * q ≠ 9 ∨ 0 ≤ hexDet p q z ∧ (p ≠ q ∨ z + 8 ≠ p + q)) {C : Cert K} (h : hexPqz p q z m = some C) :
    Holds (pqzPoly p q z m).poly C := by
  have hscale : ∀ a b c, (pqzPoly p q z m).poly a b c = m * (pqzPoly p q z 1).poly a b c := by
    intro a b c
    unfold pqzPoly Quintic.poly
    ring
  unfold hexPqz at h
  by_cases h1 : 0 ≤ hexDet p q z ∧ (p ≠ q ∨ z + 8 ≠ p + q)
  · rw [if_pos h1] at h
    rw [← Option.some.inj h]
    have hD : 0 < hexD p q z := hexD_pos (fun ⟨e1, e2⟩ => h1.2.elim (fun g => g e1) fun g => g e2) h1.1
    refine holds_sumY ?_ ?_ ?_
    · intro a b c
      have key := pqz_identity p q z a b c
      simp only [List.map_cons, List.map_nil, List.sum_cons, List.sum_nil]
      rw [hscale]
      have hd1 : 1 / hexD p q z * hexD p q z = 1 := by field_simp
      linear_combination 1 / hexD p q z * m * key + m * (pqzPoly p q z 1).poly a b c * hd1
    · each_mem
      · dsimp only; positivity
      · have := h1.1
        dsimp only; positivity
    · each_mem
      all_goals (intro _; oct_sum)
  · rw [if_neg h1] at h
    have h9' : 9 - p * q ≠ 0 := fun e => (h9.resolve_right h1) (by linarith)
    split_ifs at h with hz hd
    rw [← Option.some.inj h]
    obtain ⟨g1, g2, g3⟩ := pqz_t hd.1 hd.2
    have ht0 : 0 ≤ (9 - p * q) ^ 2 / (p + q + 3) / (3 * (p - q) ^ 2 + (6 - p - q) ^ 2) := by positivity
    have ht1 : (9 - p * q) ^ 2 / (p + q + 3) / (3 * (p - q) ^ 2 + (6 - p - q) ^ 2) ≤ 1 := by
      rw [div_div, div_le_one (by positivity)]
      exact g3
    have ht : (9 - p * q) ^ 2 / (p + q + 3) / (3 * (p - q) ^ 2 + (6 - p - q) ^ 2) * ((p + q + 3) * (3 * (p - q) ^ 2 + (6 - p - q) ^ 2)) = (9 - p * q) ^ 2 := by
      field_simp
    generalize (9 - p * q) ^ 2 / (p + q + 3) / (3 * (p - q) ^ 2 + (6 - p - q) ^ 2) = t at *
    refine holds_sumY ?_ ?_ ?_
    · intro a b c
      have key := pqz_identity2 p q ((2 * p ^ 2 - 6 * q) / (9 - p * q)) ((2 * q ^ 2 - 6 * p) / (9 - p * q)) t z a b c (by field_simp) (by field_simp) h9' ht
      simp only [List.map_cons, List.map_nil, List.sum_cons, List.sum_nil]
      rw [hscale]
      linear_combination m * key
    · each_mem
      · dsimp only
        have : 0 ≤ z + 2 := by linarith
        positivity
      · dsimp only; positivity
      · dsimp only
        have : 0 ≤ 1 - t := by linarith
        positivity
    · each_mem
      · intro _; exact abcSd_nonneg
      · intro _; oct_sum
      · intro _; oct_sum

/-- The case `p*q = 9` in which the answer of `_solve_quintic_hexagon_pqz` is not the polynomial. -/
def BadHex (f : Quintic K) : Prop :=
  f.c410 ≠ 0 ∧ f.c410 = f.c140 ∧ f.c320 * f.c230 = 9 * f.c410 ^ 2 ∧ ¬ (0 ≤ hexDet (f.c320 / f.c410) (f.c230 / f.c410) (f.c311 / f.c410) ∧ (f.c320 ≠ f.c230 ∨ f.c311 + 8 * f.c410 ≠ f.c320 + f.c230))

theorem hexEq5_holds {rational : Bool} {us : K → K → K → Option K} {f : Quintic K} (h5 : f.c500 = 0) (hm : 0 < f.c410) (he : f.c410 = f.c140)
    (hr : 0 ≤ f.c410 + f.c320 + f.c230 + f.c140 + f.c311 + f.c221) (hb : ¬ BadHex f) {C : Cert K}
    (h : hexEq5 rational us f (f.c410 + f.c320 + f.c230 + f.c140 + f.c311 + f.c221) = some C) : Holds f.poly C := by
  have hm0 := hm.ne'
  unfold hexEq5 at h
  dsimp only at h
  split at h
  · rename_i C' hC
    rw [← Option.some.inj h]
    have h9 : f.c320 / f.c410 * (f.c230 / f.c410) ≠ 9 ∨ 0 ≤ hexDet (f.c320 / f.c410) (f.c230 / f.c410) (f.c311 / f.c410) ∧
        (f.c320 / f.c410 ≠ f.c230 / f.c410 ∨ f.c311 / f.c410 + 8 ≠ f.c320 / f.c410 + f.c230 / f.c410) := by
      by_contra hc
      push Not at hc
      refine hb ⟨hm0, he, ?_, fun hh => ?_⟩
      · have := hc.1
        field_simp at this
        linarith
      · have h2 := hc.2 hh.1
        rcases hh.2 with g | g
        · refine g ?_
          have := h2.1
          field_simp at this
          exact this
        · refine g ?_
          have := h2.2
          field_simp at this
          linarith
    refine ((hexPqz_holds hm.le h9 hC).add hr (e := cyc3 fun a b c => a ^ 2 * b ^ 2 * c) (by oct_sum)).congr ?_
    intro a b c
    unfold pqzPoly Quintic.poly cyc3
    dsimp only
    rw [h5, ← he]
    field_simp
    ring
  · split at h
    · split at h
      · rename_i u hu
        split at h
        · rename_i hy
          rw [← Option.some.inj h]
          refine holds_sumY ?_ ?_ ?_
          · intro a b c
            unfold backupY
            simp only [List.map_cons, List.map_nil, List.sum_cons, List.sum_nil, cyc3, uvForm, abcSd, prodA, cycp3, sd3, tail5, sab3, Quintic.poly]
            rw [h5, ← he]
            field_simp
            ring
          · intro t ht
            obtain ⟨s, hs, rfl⟩ := List.mem_map.1 ht
            exact mul_nonneg (hy s hs) hm.le
          · intro t ht _
            obtain ⟨s, hs, rfl⟩ := List.mem_map.1 ht
            revert s
            unfold backupY
            each_mem
            · intro _ _; oct_sum
            · intro _ _; oct_sum
            · intro _ _; exact abcSd_nonneg
            · intro _ _; exact tail5_nonneg
        · cases h
      · cases h
    · cases h

theorem hexNe5_holds {xu : Quintic K → Option (K × K)} {f : Quintic K} (h5 : f.c500 = 0) {C : Cert K}
    (h : hexNe5 xu f (f.c410 + f.c320 + f.c230 + f.c140 + f.c311 + f.c221) = .ok (some C)) : Holds f.poly C := by
  unfold hexNe5 at h
  split at h
  · cases h
  · rename_i x u _
    split_ifs at h with h0 hy
    · push Not at h0
      obtain ⟨hx, hxy⟩ := h0
      rw [← Option.some.inj (Except.ok.inj h)]
      refine holds_sumY ?_ hy ?_
      · intro a b c
        unfold hexNe5Y
        simp only [List.map_cons, List.map_nil, List.sum_cons, List.sum_nil, cyc3, abcSd, prodA, cycp3, sd3, tail5, sab3, Quintic.poly]
        rw [h5]
        generalize (u ^ 2 * x - f.c320) / (2 * x + (f.c410 - f.c140) / 2) = v
        field_simp
        ring
      · unfold hexNe5Y
        each_mem
        · intro _; oct_sum
        · intro _; oct_sum
        · intro _; oct_sum
        · intro _; oct_sum
        · intro _; exact abcSd_nonneg
        · intro _; exact tail5_nonneg
    · cases h

end Verif.Ternary
