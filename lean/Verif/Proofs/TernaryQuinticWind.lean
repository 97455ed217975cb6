import Verif.Proofs.TernaryQuintic

/-!
# Identities for the solver for cyclic ternary quintics: windmills
-/

set_option linter.unusedSectionVars false
set_option maxHeartbeats 4000000

namespace Verif.Ternary

open Verif Verif.Acute

variable {K : Type*} [Field K] [LinearOrder K] [IsStrictOrderedRing K]

theorem uv22_identity (u v : K) (h1 : u ≠ 0) (h2 : u ^ 2 - u * v + 2 * u + 2 ≠ 0) (h3 : u * v - 1 ≠ 0) (a b c : K) :
    ((uv22Terms u v).map fun t => t.1 * t.2 a b c).sum = mulW (uvW u v) a b c * uvPoly u v a b c := by
  unfold uv22Terms
  simp only [List.map_cons, List.map_nil, List.sum_cons, List.sum_nil, add_zero]
  have e2 : cyc3 (fun a b c => a * c ^ 2 * uvForm u v a b c ^ 2) a b c = sq8 0 1 0 (u - v) (-u) 0 (-1) v a b c := by
    unfold cyc3 uvForm sq8 cyc3
    ring
  have e3 : cyc3 (fun a b c => a * (a ^ 2 * c * (-u * v + 1) + a * b * c * (u ^ 3 - u ^ 2 * v - u ^ 2 + u * v ^ 2 + u * v + u - 2 * v) +
     b ^ 3 * (u * v - 1) + b ^ 2 * c * (-u ^ 3 + u ^ 2 * v - u * v ^ 2 - u + v - 1) + b * c ^ 2 * (u ^ 2 - u * v + v + 1)) ^ 2) a b c =
     sq8 0 (-u * v + 1) 0 (u ^ 3 - u ^ 2 * v - u ^ 2 + u * v ^ 2 + u * v + u - 2 * v) 0 (u * v - 1) (-u ^ 3 + u ^ 2 * v - u * v ^ 2 - u + v - 1) (u ^ 2 - u * v + v + 1) a b c := by
    unfold sq8 cyc3
    ring
  rw [uvP2_eq, uvP4_eq, pqForm_eq, e2, e3, uvPoly_eq, mulW_form, sq8_eq, sq8_eq, sq8_eq, sq8_eq, pq6_eq, quin_mul]
  clear e2 e3
  simp only [septic_smul, septic_add]
  refine septic_ext ?_ a b c
  simp only [Septic.mk.injEq, uvQuin, windD, uvW]
  generalize he : u ^ 2 - u * v + 2 * u + 2 = e at *
  have h3' := h3
  generalize hn : u * v - 1 = n at h3' ⊢
  refine ⟨?_, ?_, ?_, ?_, ?_, ?_, ?_, ?_, ?_, ?_, ?_, ?_⟩ <;> (field_simp; subst he hn; try ring)

theorem limit_identity (r w z0 z1 z2 s m n p q : K) (hm : m ≠ 0) (hv : specMNPQ r w z0 z1 z2 = (m, n, p, q)) (a b c : K) :
    cyc3 (fun a b c => a * (a ^ 2 * b + (1 - r) * a * b ^ 2 - r * b ^ 3 + (r * z0) * a ^ 2 * c - z0 * a * c ^ 2 + z1 * b ^ 2 * c + z2 * b * c ^ 2
      - ((2 - z0) * (1 - r) + z1 + z2) * a * b * c) ^ 2) a b c +
    (m / 2 * (prodA a b c * cyc3 (fun a b c => (a ^ 2 - b ^ 2 - (p + 2 * q) / 3 / m * (a * b - a * c) - (q + 2 * p) / 3 / m * (b * c - a * b)) ^ 2) a b c) +
    (specDisc r w z0 z1 z2 / 6 / m * (prodA a b c * cyc3 (fun a b c => a ^ 2 * (b - c) ^ 2) a b c) +
    (s + (r ^ 2 + -2 * r + w + 1)) * (tail5 a b c * cyc3 (fun a b _ => a ^ 2 + (z0 ^ 2 + 2) * a * b) a b c))) = mulW (z0 ^ 2 + 2) a b c * (⟨0, 0, 1, -2 * r, r ^ 2, w, s⟩ : Quintic K).poly a b c := by
  have e1 : cyc3 (fun a b c => a * (a ^ 2 * b + (1 - r) * a * b ^ 2 - r * b ^ 3 + (r * z0) * a ^ 2 * c - z0 * a * c ^ 2 + z1 * b ^ 2 * c + z2 * b * c ^ 2
      - ((2 - z0) * (1 - r) + z1 + z2) * a * b * c) ^ 2) a b c = sq8 1 (r * z0) (1 - r) (-((2 - z0) * (1 - r) + z1 + z2)) (-z0) (-r) z1 z2 a b c := by
    unfold sq8 cyc3
    ring
  have e2 : ∀ P Q : K, prodA a b c * cyc3 (fun a b c => (a ^ 2 - b ^ 2 - P * (a * b - a * c) - Q * (b * c - a * b)) ^ 2) a b c = pq6 1 (-1) 0 (-P + Q) (-Q) P a b c := by
    intro P Q
    unfold pq6 prodA cycp3 cyc3
    ring
  have e3 : cyc3 (fun a b _ => a ^ 2 + (z0 ^ 2 + 2) * a * b) a b c = mulW (z0 ^ 2 + 2) a b c := by
    unfold mulW cyc3
    ring
  rw [e1, e2, e3, abcsq_eq, tail_mulW, mulW_form, sq8_eq, pq6_eq, quin_mul]
  simp only [septic_smul, septic_add]
  refine septic_ext ?_ a b c
  clear e1 e2 e3
  unfold specDisc
  rw [hv]
  simp only [specMNPQ, Prod.mk.injEq] at hv
  obtain ⟨vm, vn, vp, vq⟩ := hv
  simp only [Septic.mk.injEq]
  refine ⟨?_, ?_, ?_, ?_, ?_, ?_, ?_, ?_, ?_, ?_, ?_, ?_⟩ <;> (field_simp; subst vm vn vp vq; try ring)

/-- The square of Theorem 1.1. -/
theorem quadSq_identity (w a b c : K) : 2 * quadSq w a b c = sd3 a b c * (⟨0, 0, w ^ 2, 2 * w, 1, -(3 + 2 * w), 2 - w ^ 2⟩ : Quintic K).poly a b c := by
  unfold quadSq sd3 cyc3 Quintic.poly
  ring

theorem uncFirst_identity (x r1 r2 e a b c : K) :
    2 * cyc3 (fun a b c => a * (a * c + b ^ 2 - 2 * b * c) ^ 2 * ((1 - x) * a - b + x * c) ^ 2) a b c + ((r1 - x ^ 2) * (cyc3 (fun a b c => a * c ^ 2 * (a - b) ^ 2) a b c * sd3 a b c) +
      ((r2 - (-3 - 2 * x)) / 2 * (prodA a b c * sd3 a b c ^ 2) + e * (tail5 a b c * sd3 a b c))) = sd3 a b c * (⟨0, 0, 0, r1, 1, r2, e - r1 - 1 - r2⟩ : Quintic K).poly a b c := by
  simp only [sd3, cyc3, prodA, cycp3, tail5, sab3, Quintic.poly]
  ring

theorem uncExcept_identity (s a b c : K) : cyc3 (fun a b c => a * c ^ 2 * (a ^ 3 - 8 * a ^ 2 * b - a ^ 2 * c + 10 * a * b ^ 2 - 4 * a * b * c - b ^ 2 * c + 3 * b * c ^ 2) ^ 2) a b c +
      (1 / 2 * (prodA a b c * cyc3 (fun a b c => (9 * a ^ 2 * c - 2 * a * b ^ 2 - 26 * a * b * c - 8 * a * c ^ 2 + b ^ 3 - 7 * b ^ 2 * c + 5 * b * c ^ 2 + c ^ 3) ^ 2) a b c) +
      (3 / 2 * (prodA a b c * cyc3 (fun a b c => a ^ 2 * b - 4 * a ^ 2 * c - 6 * a * b * c) a b c ^ 2) +
      (s - 39) * (tail5 a b c * cyc3 (fun a b c => a * b * (a - b + 3 * c) ^ 2) a b c))) =
    cyc3 (fun a b c => a * b * (a - b + 3 * c) ^ 2) a b c * (⟨0, 0, 0, 0, 1, -13, s⟩ : Quintic K).poly a b c := by
  simp only [cyc3, prodA, cycp3, tail5, sab3, Quintic.poly]
  ring

/-- `s(a^2-ab) * s(a^3 + x*a^2*b + y*a*b^2 - (x+y+1)*a*b*c)`. -/
def cubQuin (x y : K) : Quintic K := ⟨1, x - 1, 1 + y - x, 1 + x - y, y - 1, -4 * (x + y + 1), 3 * (x + y + 1)⟩

theorem cubSq_identity (t x y : K) (ht : t ≠ 0) (hx : 2 * t ^ 3 + x * t ^ 2 - 1 = 0) (hy : -t ^ 3 + y * t + 2 = 0) (a b c : K) :
    1 / t ^ 2 * cyc3 (fun a b c => a * (t * a - (t - 1) * b - c) ^ 2 * (t * b - (t - 1) * c - a) ^ 2) a b c = (cubQuin x y).poly a b c := by
  have hx' : x = (1 - 2 * t ^ 3) / t ^ 2 := by
    rw [eq_div_iff (pow_ne_zero 2 ht)]
    linarith
  have hy' : y = (t ^ 3 - 2) / t := by
    rw [eq_div_iff ht]
    linarith
  subst hx' hy'
  simp only [cyc3, cubQuin, Quintic.poly]
  field_simp
  ring

/-- `u^3-2*u^2-u-1`. -/
def uD (u : K) : K := u ^ 3 - 2 * u ^ 2 - u - 1
/-- `u^4-u^3+2*u^2+2*u+1`. -/
def uQ (u : K) : K := u ^ 4 - u ^ 3 + 2 * u ^ 2 + 2 * u + 1
/-- The numerator of `phi`. -/
def uN (u : K) : K := u ^ 9 + u ^ 8 + 6 * u ^ 7 - u ^ 6 + 3 * u ^ 5 - 6 * u ^ 4 - 3 * u ^ 3 - 7 * u ^ 2 - 3 * u - 1
/-- The numerator of the last weight. -/
def uM (u : K) : K := 4 * u ^ 8 + 3 * u ^ 7 + 20 * u ^ 6 - 2 * u ^ 5 - 5 * u ^ 4 - 6 * u ^ 3 + 3 * u ^ 2 + u + 1

theorem uQ_pos {u : K} (h : 0 < u) : 0 < uQ u := by
  unfold uQ
  nlinarith [sq_nonneg (u ^ 2 - u / 2), sq_nonneg u]

theorem uE_pos (u : K) : 0 < u ^ 2 - u + 1 := by nlinarith [sq_nonneg (u - 1 / 2)]

theorem unc_f2 {u : K} (h : u ≠ 0) : uncF2 u (uncV u).1 = (u ^ 2 - u + 1) * uD u / u := by
  unfold uncF2 uncV uD
  field_simp
  ring

theorem unc_f1 {u : K} (h : u ≠ 0) : uncF1 u (uncV u).1 = -(uQ u * (u ^ 2 - u + 1) ^ 2) / u ^ 2 := by
  unfold uncF1 uncV uQ
  field_simp
  ring

theorem unc_e {u : K} (h : u ≠ 0) : 2 * u ^ 2 - u * (uncV u).1 - 3 * u - (uncV u).1 + 4 = -(u ^ 2 - u + 1) ^ 2 / u := by
  unfold uncV
  field_simp
  ring

theorem unc_n {u : K} (h : u ≠ 0) : u * (uncV u).1 - 1 = u * (u ^ 2 - u + 1) := by
  unfold uncV
  field_simp
  ring

theorem unc_w {u : K} (h : 0 < u) (hD : uD u ≠ 0) : uncW u (uncV u).1 = -(u + 1) / uD u := by
  have hE := (uE_pos u).ne'
  unfold uncW
  rw [unc_e h.ne', unc_f2 h.ne']
  generalize u ^ 2 - u + 1 = E at *
  generalize uD u = D at *
  field_simp

theorem unc_a {u : K} (h : 0 < u) : uncA u (uncV u).1 = -(u ^ 2 * (u ^ 3 + 1)) / uQ u := by
  have hE := (uE_pos u).ne'
  have hQ := (uQ_pos h).ne'
  unfold uncA
  rw [unc_e h.ne', unc_f1 h.ne', unc_n h.ne']
  have e : u ^ 3 + 1 = (u + 1) * (u ^ 2 - u + 1) := by ring
  rw [e]
  generalize u ^ 2 - u + 1 = E at *
  generalize uQ u = Q at *
  field_simp

theorem unc_ua {u : K} (h : 0 < u) : u + uncA u (uncV u).1 = -(u * uD u) / uQ u := by
  have hQ := (uQ_pos h).ne'
  rw [unc_a h]
  field_simp
  unfold uQ uD
  ring

theorem unc_z {u : K} (h : 0 < u) : uncA u (uncV u).1 / (u * (uncV u).1 - 1) = -(u * (u + 1)) / uQ u := by
  have hE := (uE_pos u).ne'
  have hQ := (uQ_pos h).ne'
  rw [unc_a h, unc_n h.ne']
  have e : u ^ 3 + 1 = (u + 1) * (u ^ 2 - u + 1) := by ring
  rw [e]
  generalize u ^ 2 - u + 1 = E at *
  generalize uQ u = Q at *
  field_simp

theorem unc_phi {u : K} (h : 0 < u) (hD : uD u ≠ 0) : uncPhi u (uncV u).1 (uncV u).2.1 = uN u / (u * uD u ^ 2) := by
  have hQ := (uQ_pos h).ne'
  have h1 : u + 1 ≠ 0 := by positivity
  unfold uncPhi
  rw [unc_w h hD, unc_ua h]
  have hq : uQ u = u ^ 4 - u ^ 3 + 2 * u ^ 2 + 2 * u + 1 := rfl
  have hd : uD u = u ^ 3 - 2 * u ^ 2 - u - 1 := rfl
  unfold uncV uN
  dsimp only
  generalize uQ u = Q at *
  generalize uD u = D at *
  field_simp
  subst hq hd
  ring

theorem unc_y3 {u : K} (h : 0 < u) (hD : uD u ≠ 0) :
    ((uncV u).2.2 + uncPhi u (uncV u).1 (uncV u).2.1 + 2 * (u ^ 3 * uncW u (uncV u).1 - u + (uncV u).1 + uncW u (uncV u).1) - uncY2 u (uncV u).1 (uncPhi u (uncV u).1 (uncV u).2.1)) / 2 =
      uM u / (2 * (u + 1) * uD u ^ 2) := by
  have h1 : u + 1 ≠ 0 := by positivity
  have h2 : uncY2 u (uncV u).1 (uncPhi u (uncV u).1 (uncV u).2.1) = 0 := by
    have : u ^ 3 - u * u - u * (uncV u).1 + u + 1 = 0 := by
      unfold uncV
      field_simp
      ring
    unfold uncY2
    rw [this]
    simp
  rw [h2, unc_phi h hD, unc_w h hD]
  have hd : uD u = u ^ 3 - 2 * u ^ 2 - u - 1 := rfl
  unfold uncV uN uM
  dsimp only
  generalize uD u = D at *
  field_simp
  subst hd
  ring

theorem unc_y1 {u : K} (h : 0 < u) (hD : uD u ≠ 0) (m : K) (hm : m ≠ 0) :
    (uncV u).2.1 * uncF1 u (uncV u).1 ^ 2 / ((u ^ 2 - u + 1) * uncF2 u (uncV u).1 * m) ^ 2 = (uncV u).2.1 / (u ^ 2 * uD u ^ 2) * uQ u ^ 2 / m ^ 2 := by
  have hE := (uE_pos u).ne'
  rw [unc_f1 h.ne', unc_f2 h.ne']
  generalize (uncV u).2.1 = r
  generalize u ^ 2 - u + 1 = E at *
  generalize uQ u = Q at *
  generalize uD u = D at *
  field_simp

/-- The three terms that remain when the values are equal at `(1,1,1)`. -/
theorem unc0_identity {u : K} (h : 0 < u) (hD : uD u ≠ 0) (v r z : K) (hv : v = (uncV u).1) (hr : r = (uncV u).2.1) (hz : z = -(u * (u + 1)) / uQ u) (w : K) (hw : w = -(u + 1) / uD u) (a b c : K) :
    sq8 0 (-u * v * w + w) (u ^ 2 * v * w - u * w - u) (u ^ 3 * w - u ^ 2 * v * w - u ^ 2 * w + u * v * w + u * w - v * w + v) 0 1 (-u ^ 3 * w + u - v - w) (u ^ 2 * w + v * w - 1) a b c +
      r / (u ^ 2 * uD u ^ 2) * uQ u ^ 2 * sq8 0 1 (u * v * z - z) (u ^ 2 * z - u * z + u - v ^ 2 * z + v * z - v) (-u * v * z - u + z) 0 (-u ^ 2 * z - v * z - 1) (u * z + v ^ 2 * z + v) a b c +
      uM u / (2 * (u + 1) * uD u ^ 2) * pq6 1 (-1) 0 (u - v) v (-u) a b c =
    mulW (uN u / (u * uD u ^ 2)) a b c * (⟨0, 0, 0, r, 1, (uncV u).2.2, -(r + 1 + (uncV u).2.2)⟩ : Quintic K).poly a b c := by
  have hQ := (uQ_pos h).ne'
  have h1 : u + 1 ≠ 0 := by positivity
  rw [sq8_eq, sq8_eq, pq6_eq, mulW_form, quin_mul]
  simp only [septic_smul, septic_add]
  refine septic_ext ?_ a b c
  have hq : uQ u = u ^ 4 - u ^ 3 + 2 * u ^ 2 + 2 * u + 1 := rfl
  have hd : uD u = u ^ 3 - 2 * u ^ 2 - u - 1 := rfl
  unfold uncV at *
  unfold uN uM
  dsimp only at *
  generalize uQ u = Q at *
  generalize uD u = D at *
  subst hv hr hz hw
  simp only [Septic.mk.injEq]
  refine ⟨?_, ?_, ?_, ?_, ?_, ?_, ?_, ?_, ?_, ?_, ?_, ?_⟩ <;> (field_simp; subst hd; subst hq; try ring)

end Verif.Ternary
