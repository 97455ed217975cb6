import Verif.Props.SymPivot
import Mathlib.Tactic.FieldSimp
import Mathlib.Tactic.Positivity
import Mathlib.Algebra.Polynomial.Roots

/-!
# C52: the changes of variables of SymmetricSOS

`x`, `y`, `z`, `w` below are the expressions written in `get_inv_dict` and in the denominators.
-/

namespace Verif.SymSOS

open Verif Coeff TermsPoly MonoMgr Shared

set_option linter.unusedSectionVars false

section Expr
variable {K : Type*} [Field K]

/-- `p = a+b+c`, `q = ab+bc+ca`, `r = abc`. -/
def eP (a b c : K) : K := a + b + c
def eQ (a b c : K) : K := a * b + b * c + c * a
def eR (a b c : K) : K := a * b * c

/-- `CyclicProduct((a-b)**2)`. -/
def disc (a b c : K) : K := (a - b) ^ 2 * ((b - c) ^ 2 * (c - a) ^ 2)

/-- `_SCHUR` (symmetric.py 67, 84). -/
def posX (a b c : K) : K :=
  (((b - c) ^ 2 * (b + c - a) ^ 2 + (c - a) ^ 2 * (c + a - b) ^ 2 + (a - b) ^ 2 * (a + b - c) ^ 2) +
    2 * (b * c * (b - c) ^ 2 + c * a * (c - a) ^ 2 + a * b * (a - b) ^ 2)) / 2 / eP a b c

/-- `CyclicSum(a*(b-c)**2)` (symmetric.py 87). -/
def posY (a b c : K) : K := a * (b - c) ^ 2 + b * (c - a) ^ 2 + c * (a - b) ^ 2

/-- `CyclicProduct((a-b)**2) * CyclicSum(a)**3 / CyclicProduct(a)` (symmetric.py 88). -/
def posZ (a b c : K) : K := disc a b c * eP a b c ^ 3 / eR a b c

/-- `w0` (symmetric.py 68). -/
def posW (a b c : K) : K := posX a b c * posY a b c ^ 2 / eR a b c

/-- The expressions of the real transformation (symmetric.py 178-180, 249). -/
def realX (a b c : K) : K := (a + b + c) * ((a - b) ^ 2 + (b - c) ^ 2 + (c - a) ^ 2) / 2
def realY (a b c : K) : K := (2 * a - b - c) * (2 * b - c - a) * (2 * c - a - b) / 2
def realZ (a b c : K) : K := 27 / 4 * disc a b c
def realW (a b c : K) : K := ((a - b) ^ 2 + (b - c) ^ 2 + (c - a) ^ 2) / 2

end Expr

section Ident
variable {K : Type*} [Field K] [CharZero K]

/-- **C52.** The first new variable is Schur's expression. -/
theorem posX_eq (a b c : K) (hp : eP a b c ≠ 0) : posX a b c = a * (a - b) * (a - c) + b * (b - c) * (b - a) + c * (c - a) * (c - b) := by
  unfold posX
  rw [div_div, div_eq_iff (mul_ne_zero two_ne_zero hp)]
  unfold eP; ring

/-- **C52.** `w = (y - 2x)**2 + z`. -/
theorem posW_eq (a b c : K) (hp : eP a b c ≠ 0) (hr : eR a b c ≠ 0) :
    posW a b c = (posY a b c - 2 * posX a b c) ^ 2 + posZ a b c := by
  unfold posW posZ
  rw [posX_eq a b c hp, div_eq_iff hr, add_mul (_ ^ 2), div_mul_cancel₀ _ hr]
  unfold eR disc eP posY; ring

/-- **C52.** The documented formulas for `p`, `q`, `r` (symmetric.py 21-25), cleared of denominators. -/
theorem pos_formulas (a b c : K) (hp : eP a b c ≠ 0) (hr : eR a b c ≠ 0) :
    eP a b c ^ 3 * posW a b c = posZ a b c * (posX a b c + 4 * posY a b c) + 4 * (posX a b c + posY a b c) ^ 3 ∧
    eQ a b c * eP a b c * posW a b c = posY a b c * ((posX a b c + posY a b c) * (4 * posX a b c + posY a b c) + posZ a b c) ∧
    eR a b c * posW a b c = posX a b c * posY a b c ^ 2 := by
  have hz : posZ a b c * eR a b c = disc a b c * eP a b c ^ 3 := by unfold posZ; rw [div_mul_cancel₀ _ hr]
  have hw : posW a b c * eR a b c = posX a b c * posY a b c ^ 2 := by unfold posW; rw [div_mul_cancel₀ _ hr]
  refine ⟨?_, ?_, by rw [mul_comm]; exact hw⟩
  · apply mul_right_cancel₀ hr
    rw [mul_assoc, hw]
    have : (posZ a b c * (posX a b c + 4 * posY a b c) + 4 * (posX a b c + posY a b c) ^ 3) * eR a b c =
        (posZ a b c * eR a b c) * (posX a b c + 4 * posY a b c) + 4 * (posX a b c + posY a b c) ^ 3 * eR a b c := by ring
    rw [this, hz, posX_eq a b c hp]
    unfold posY eP eR disc; ring
  · apply mul_right_cancel₀ hr
    rw [mul_assoc, hw]
    have : posY a b c * ((posX a b c + posY a b c) * (4 * posX a b c + posY a b c) + posZ a b c) * eR a b c =
        posY a b c * ((posX a b c + posY a b c) * (4 * posX a b c + posY a b c) * eR a b c + posZ a b c * eR a b c) := by ring
    rw [this, hz, posX_eq a b c hp]
    unfold posY eP eR eQ disc; ring

/-- **C52.** The documented formulas for `w`, `p`, `q`, `r` of the real method (symmetric.py 110-117). -/
theorem real_formulas (a b c : K) :
    realW a b c ^ 3 = realY a b c ^ 2 + realZ a b c ∧ eP a b c * realW a b c = realX a b c ∧
    3 * realW a b c ^ 2 * eQ a b c = realX a b c ^ 2 - realY a b c ^ 2 - realZ a b c ∧
    27 * eR a b c = eP a b c ^ 3 - 3 * realX a b c + 2 * realY a b c := by
  refine ⟨?_, ?_, ?_, ?_⟩ <;> simp only [realX, realY, realW, realZ, disc, eP, eQ, eR] <;> ring

end Ident

section Comp
variable {K : Type*} [Field K] [LinearOrder K] [IsStrictOrderedRing K]

theorem evalMonom3 (m : List ℕ) (h : m.length = 3) (X Y Z : K) :
    evalMonom m [X, Y, Z] = X ^ m.getD 0 0 * (Y ^ m.getD 1 0 * Z ^ m.getD 2 0) := by
  match m, h with
  | [i, j, k], _ => simp [evalMonom]

theorem evalMonom2 (m : List ℕ) (h : m.length = 2) (X Y : K) : evalMonom m [X, Y] = X ^ m.getD 0 0 * Y ^ m.getD 1 0 := by
  match m, h with
  | [i, j], _ => simp [evalMonom]

/-- `f(A, B, C)` has the value of `f` at the values of `A`, `B`, `C`. -/
theorem comp3_value (f A B C : Terms K) (hf : Arity 3 f) (hA : Arity 3 A) (hB : Arity 3 B) (hC : Arity 3 C) (X Y Z : K) :
    evalDict (comp3 f A B C) [X, Y, Z] = evalDict f [evalDict A [X, Y, Z], evalDict B [X, Y, Z], evalDict C [X, Y, Z]] := by
  unfold comp3
  rw [evalDict_collect]
  induction f with
  | nil => rfl
  | cons t f ih =>
    have hpA := arity_ppow (K := K) hA
    have hpB := arity_ppow (K := K) hB
    have hpC := arity_ppow (K := K) hC
    rw [List.flatMap_cons, evalDict_append, evalDict_cons, ih fun t ht => hf t (List.mem_cons_of_mem _ ht),
      evalMonom3 t.1 (hf t (List.mem_cons_self ..)),
      evalDict_pmul _ _ [X, Y, Z] (arity_pconst 3 _) (arity_pmul (hpA _) (arity_pmul (hpB _) (hpC _))),
      evalDict_pmul _ _ [X, Y, Z] (hpA _) (arity_pmul (hpB _) (hpC _)), evalDict_pmul _ _ [X, Y, Z] (hpB _) (hpC _), evalDict_pconst]
    rw [show ppow 3 A = ppow ([X, Y, Z] : List K).length A from rfl, show ppow 3 B = ppow ([X, Y, Z] : List K).length B from rfl,
      show ppow 3 C = ppow ([X, Y, Z] : List K).length C from rfl, evalDict_ppow A [X, Y, Z] hA, evalDict_ppow B [X, Y, Z] hB, evalDict_ppow C [X, Y, Z] hC]

theorem arity_comp3 (f A B C : Terms K) (hA : Arity 3 A) (hB : Arity 3 B) (hC : Arity 3 C) : Arity 3 (comp3 f A B C) := by
  unfold comp3
  apply arity_collect
  intro t ht
  obtain ⟨s, _, hs⟩ := List.mem_flatMap.1 ht
  exact arity_pmul (arity_pconst 3 _) (arity_pmul (arity_ppow hA _) (arity_pmul (arity_ppow hB _) (arity_ppow hC _))) t hs

theorem isPoly_comp3 (f A B C : Terms K) (hA : Arity 3 A) (hB : Arity 3 B) (hC : Arity 3 C) : IsPoly 3 (comp3 f A B C) :=
  ⟨(collect_isPoly _).1, arity_comp3 f A B C hA hB hC, (collect_isPoly _).2⟩

/-- A weighted homogeneous form in `p, q, r` of degree `d`. -/
def WHom (d : ℕ) (f : Terms K) : Prop := ∀ t ∈ f, t.1.getD 0 0 + 2 * t.1.getD 1 0 + 3 * t.1.getD 2 0 = d

theorem pqrDegree_eq (d : ℕ) (f : Terms K) (hf : WHom d f) (hne : f ≠ []) : pqrDegree f = d := by
  cases f with
  | nil => exact absurd rfl hne
  | cons t f => exact hf t (List.mem_cons_self ..)

theorem polyQR_value (d : ℕ) (f : Terms K) (hf : WHom d f) (ha : Arity 3 f) (p q r : K) (hp : p ≠ 0) :
    p ^ d * evalDict (polyQR f) [q / p ^ 2, r / p ^ 3] = evalDict f [p, q, r] := by
  unfold polyQR
  rw [evalDict_collect]
  induction f with
  | nil => simp [evalDict_nil]
  | cons t f ih =>
    have ih := ih (fun s hs => hf s (List.mem_cons_of_mem _ hs)) fun s hs => ha s (List.mem_cons_of_mem _ hs)
    have h1 := hf t (List.mem_cons_self ..)
    have h2 := ha t (List.mem_cons_self ..)
    rw [List.map_cons, evalDict_cons, evalDict_cons, mul_add, ih, evalMonom3 _ h2]
    congr 1
    obtain ⟨m, c⟩ := t
    match m, h2 with
    | [i, j, k], _ =>
      simp only [List.getD_cons_zero, List.getD_cons_succ] at h1
      simp only [List.drop_one, List.tail_cons, evalMonom, List.zipWith_cons_cons, List.zipWith_nil_left, List.prod_cons, List.prod_nil,
        List.getD_cons_zero, List.getD_cons_succ]
      rw [← h1, div_pow, div_pow, ← pow_mul, ← pow_mul, pow_add, pow_add]
      field_simp

theorem arity_polyQR (f : Terms K) (ha : Arity 3 f) : Arity 2 (polyQR f) := by
  unfold polyQR
  apply arity_collect
  intro t ht
  obtain ⟨s, hs, rfl⟩ := List.mem_map.1 ht
  simp [ha s hs]

theorem arity_homogenizeNew (n : ℕ) (p : Terms K) (hp : Arity n p) : Arity (n + 1) (homogenizeNew n p) := by
  intro t ht
  obtain ⟨s, hs, rfl⟩ := List.mem_map.1 ht
  simp [hp s hs]

/-- The substituted form: if `T = p**3 * W`, `Q = p*q*W`, `R = r*W` then the numerator is `p**(3h-d) * W**h` times the polynomial. -/
theorem comp_hom_value (d : ℕ) (f : Terms K) (hf : WHom d f) (ha : Arity 3 f) (p q r W : K) (hp : p ≠ 0) :
    p ^ d * evalDict (homogenizeNew 2 (polyQR f)) [q * p * W, r * W, p ^ 3 * W] =
      (p ^ 3 * W) ^ totalDegree 2 (polyQR f) * evalDict f [p, q, r] := by
  have h := homogenizeNew_scale 2 (polyQR f) [q / p ^ 2, r / p ^ 3] (p ^ 3 * W) rfl (arity_polyQR f ha)
  have e1 : p ^ 3 * W * (q / p ^ 2) = q * p * W := by field_simp
  have e2 : p ^ 3 * W * (r / p ^ 3) = r * W := by field_simp
  simp only [List.map_cons, List.map_nil, e1, e2, List.cons_append, List.nil_append] at h
  rw [h, ← polyQR_value d f hf ha p q r hp]; ring

/-- The contract of `divmod`: when the remainder is zero, the polynomial is the quotient times the factor. -/
def DmOk (dm : Terms K → Terms K × Terms K) (fac : K → K → K → K) : Prop :=
  ∀ p : Terms K, IsPoly 3 p → (dm p).2 = [] → IsPoly 3 (dm p).1 ∧
    ∀ X Y Z : K, evalDict p [X, Y, Z] = evalDict (dm p).1 [X, Y, Z] * fac X Y Z

theorem extractLoop_value (dm : Terms K → Terms K × Terms K) (vanish : Terms K → Bool) (fac : K → K → K → K) (hdm : DmOk dm fac) :
    ∀ (n d : ℕ) (p : Terms K) (r : ℕ × Terms K), IsPoly 3 p → extractLoop dm vanish n d p = some r →
      ∃ k, r.1 = d + k ∧ IsPoly 3 r.2 ∧ ∀ X Y Z : K, evalDict p [X, Y, Z] = fac X Y Z ^ k * evalDict r.2 [X, Y, Z]
  | 0, _, _, _, _, h => by simp [extractLoop] at h
  | n + 1, d, p, r, ha, h => by
      unfold extractLoop at h
      by_cases h1 : (!vanish p) = true
      · rw [if_pos h1] at h
        obtain rfl : (d, p) = r := by simpa using h
        exact ⟨0, rfl, ha, fun _ _ _ => by simp⟩
      · rw [if_neg h1] at h
        by_cases h2 : (dm p).2.isEmpty = true
        · rw [if_pos h2] at h
          obtain ⟨h3, h4⟩ := hdm p ha (by simpa using h2)
          obtain ⟨k, hk, h5, h6⟩ := extractLoop_value dm vanish fac hdm n (d + 1) _ r h3 h
          refine ⟨k + 1, by omega, h5, fun X Y Z => ?_⟩
          rw [h4, h6, pow_succ]; ring
        · rw [if_neg h2] at h
          obtain rfl : (d, p) = r := by simpa using h
          exact ⟨0, rfl, ha, fun _ _ _ => by simp⟩

/-- **C52.** `extract_factor` returns the degree and the cofactor: `poly = factor**degree * remainder`. -/
theorem extractFactor_value (dm : Terms K → Terms K × Terms K) (vanish : Terms K → Bool) (fac : K → K → K → K) (hdm : DmOk dm fac)
    (n : ℕ) (p : Terms K) (r : ℕ × Terms K) (ha : IsPoly 3 p) (h : extractFactor dm vanish n p = some r) :
    IsPoly 3 r.2 ∧ ∀ X Y Z : K, evalDict p [X, Y, Z] = fac X Y Z ^ r.1 * evalDict r.2 [X, Y, Z] := by
  unfold extractFactor at h
  by_cases h0 : p.isEmpty = true
  · rw [if_pos h0] at h
    obtain rfl : (0, p) = r := by simpa using h
    exact ⟨ha, fun _ _ _ => by simp⟩
  · rw [if_neg h0] at h
    obtain ⟨k, hk, h1, h2⟩ := extractLoop_value dm vanish fac hdm n 0 p r ha h
    rw [Nat.zero_add] at hk
    exact ⟨h1, hk ▸ h2⟩

/-- The factor of the positive method, `(y - 2*x)**2 + z`. -/
def facPos (X Y Z : K) : K := (Y - 2 * X) ^ 2 + Z
/-- The factor of the real method, `y**2 + z`. -/
def facReal (_ Y Z : K) : K := Y ^ 2 + Z

theorem posQ_value (X Y Z : K) : evalDict posQ [X, Y, Z] = Y * ((X + Y) * (4 * X + Y) + Z) := by
  simp [posQ, evalDict, evalMonom]; ring
theorem posR_value (X Y Z : K) : evalDict posR [X, Y, Z] = X * Y ^ 2 := by
  simp [posR, evalDict, evalMonom]
theorem posP_value (X Y Z : K) : evalDict posP [X, Y, Z] = Z * (X + 4 * Y) + 4 * (X + Y) ^ 3 := by
  simp [posP, evalDict, evalMonom]; ring
theorem realQ_value (X Y Z : K) : evalDict realQ [X, Y, Z] = 9 * X * (X ^ 2 - Y ^ 2 - Z) := by
  simp [realQ, evalDict, evalMonom]; ring
theorem realR_value (X Y Z : K) : evalDict realR [X, Y, Z] = X ^ 3 + (2 * Y - 3 * X) * (Y ^ 2 + Z) := by
  simp [realR, evalDict, evalMonom]; ring
theorem realP_value (X Y Z : K) : evalDict realP [X, Y, Z] = 27 * X ^ 3 := by
  simp [realP, evalDict, evalMonom]

theorem arity_posQ : Arity 3 (posQ : Terms K) := by intro t ht; simp [posQ] at ht; rcases ht with rfl | rfl | rfl | rfl <;> rfl
theorem arity_posR : Arity 3 (posR : Terms K) := by intro t ht; simp [posR] at ht; rcases ht with rfl; rfl
theorem arity_posP : Arity 3 (posP : Terms K) := by
  intro t ht; simp [posP] at ht; rcases ht with rfl | rfl | rfl | rfl | rfl | rfl <;> rfl
theorem arity_realQ : Arity 3 (realQ : Terms K) := by intro t ht; simp [realQ] at ht; rcases ht with rfl | rfl | rfl <;> rfl
theorem arity_realR : Arity 3 (realR : Terms K) := by
  intro t ht; simp [realR] at ht; rcases ht with rfl | rfl | rfl | rfl | rfl <;> rfl
theorem arity_realP : Arity 3 (realP : Terms K) := by intro t ht; simp [realP] at ht; rcases ht with rfl; rfl

/-- **C52.** The positive change of variables: numerator over denominator is the polynomial, at every point where the denominators
are not zero. -/
theorem transPos_value (dm : Terms K → Terms K × Terms K) (vanish : Terms K → Bool) (hdm : DmOk dm facPos) (n d : ℕ) (f : Terms K)
    (hf : WHom d f) (ha : Arity 3 f) (hne : f ≠ []) (r : Terms K × ℤ × ℤ) (h : transPos dm vanish n f = some r)
    (a b c : K) (hp : eP a b c ≠ 0) (hr : eR a b c ≠ 0) (hw : posW a b c ≠ 0) :
    evalDict f [eP a b c, eQ a b c, eR a b c] =
      evalDict r.1 [posX a b c, posY a b c, posZ a b c] / (eP a b c ^ r.2.1 * posW a b c ^ r.2.2) := by
  unfold transPos at h
  obtain ⟨e, he, rfl⟩ := Option.map_eq_some_iff.1 h
  have har := isPoly_comp3 (homogenizeNew 2 (polyQR f)) posQ posR posP arity_posQ arity_posR arity_posP
  obtain ⟨_, hv⟩ := extractFactor_value dm vanish facPos hdm n _ e har he
  have hv := hv (posX a b c) (posY a b c) (posZ a b c)
  obtain ⟨f1, f2, f3⟩ := pos_formulas a b c hp hr
  rw [comp3_value _ _ _ _ (arity_homogenizeNew 2 _ (arity_polyQR f ha)) arity_posQ arity_posR arity_posP, posQ_value, posR_value,
    posP_value, ← f1, ← f2, ← f3] at hv
  have hc := comp_hom_value d f hf ha (eP a b c) (eQ a b c) (eR a b c) (posW a b c) hp
  rw [hv, show facPos (posX a b c) (posY a b c) (posZ a b c) = posW a b c from (posW_eq a b c hp hr).symm] at hc
  dsimp only
  rw [pqrDegree_eq d f hf hne, eq_div_iff (mul_ne_zero (zpow_ne_zero _ hp) (zpow_ne_zero _ hw)), zpow_sub₀ hp, zpow_sub₀ hw]
  rw [show (3 * (totalDegree 2 (polyQR f) : ℤ)) = ((3 * totalDegree 2 (polyQR f) : ℕ) : ℤ) by push_cast; rfl]
  simp only [zpow_natCast]
  rw [pow_mul]
  have hwk : posW a b c ^ e.1 ≠ 0 := pow_ne_zero _ hw
  have hpd : eP a b c ^ d ≠ 0 := pow_ne_zero _ hp
  rw [mul_pow] at hc
  field_simp
  linear_combination (-1) * hc

theorem minX_le (p : Terms K) (t : List ℕ × K) (ht : t ∈ p) : minX p ≤ t.1.getD 0 0 := by
  have hfold : ∀ (l : List ℕ) (a : ℕ), l.foldl min a ≤ a ∧ ∀ b ∈ l, l.foldl min a ≤ b := by
    intro l
    induction l with
    | nil => intro a; simp
    | cons y l ih =>
      intro a
      obtain ⟨h1, h2⟩ := ih (min a y)
      simp only [List.foldl_cons]
      refine ⟨h1.trans (min_le_left ..), fun b hb => ?_⟩
      rcases List.mem_cons.1 hb with rfl | h
      · exact h1.trans (min_le_right ..)
      · exact h2 b h
  cases p with
  | nil => simp at ht
  | cons s p =>
    unfold minX
    rcases List.mem_cons.1 ht with rfl | h
    · exact (hfold _ _).1
    · exact (hfold _ _).2 _ (List.mem_map.2 ⟨t, h, rfl⟩)

theorem isPoly_pmul {n : ℕ} {p q : Terms K} (hp : Arity n p) (hq : Arity n q) : IsPoly n (pmul p q) :=
  ⟨(collect_isPoly _).1, arity_pmul hp hq, (collect_isPoly _).2⟩

theorem divX_value (m : ℕ) (p : Terms K) (hp : IsPoly 3 p) (hm : ∀ t ∈ p, m ≤ t.1.getD 0 0) (X Y Z : K) :
    evalDict p [X, Y, Z] = X ^ m * evalDict (divX m p) [X, Y, Z] ∧ IsPoly 3 (divX m p) := by
  have ha : Arity 3 p := hp.length
  refine ⟨?_, ?_, ?_, ?_⟩
  · unfold divX
    clear hp
    induction p with
    | nil => simp [evalDict_nil]
    | cons t p ih =>
      rw [List.map_cons, evalDict_cons, evalDict_cons, ih (fun s hs => hm s (List.mem_cons_of_mem _ hs))
        fun s hs => ha s (List.mem_cons_of_mem _ hs)]
      have h1 := ha t (List.mem_cons_self ..)
      have h2 := hm t (List.mem_cons_self ..)
      obtain ⟨mm, cc⟩ := t
      match mm, h1 with
      | [i, j, k], _ =>
        simp only [List.getD_cons_zero] at h2 ⊢
        simp only [evalMonom, List.zipWith_cons_cons, List.zipWith_nil_left, List.prod_cons, List.prod_nil, List.drop_one, List.tail_cons]
        rw [show X ^ i = X ^ m * X ^ (i - m) by rw [← pow_add]; congr 1; omega]; ring
  · have : dkeys (divX m p) = (dkeys p).map fun k => (k.getD 0 0 - m) :: k.drop 1 := by
      simp [dkeys, divX, List.map_map, Function.comp_def]
    rw [this]
    refine (List.nodup_map_iff_inj_on hp.nodup).2 ?_
    intro k hk k' hk' he
    obtain ⟨s, hs, rfl⟩ := List.mem_map.1 hk
    obtain ⟨u, hu, rfl⟩ := List.mem_map.1 hk'
    have g1 := hm s hs
    have g2 := hm u hu
    obtain ⟨ms, cs⟩ := s
    obtain ⟨mu, cu⟩ := u
    match ms, mu, ha _ hs, ha _ hu with
    | [i, j, k], [i', j', k'], _, _ =>
      simp only [List.getD_cons_zero, List.drop_one, List.tail_cons, List.cons.injEq] at g1 g2 he ⊢
      exact ⟨by omega, he.2⟩
  · intro t ht
    obtain ⟨s, hs, rfl⟩ := List.mem_map.1 ht
    simp [ha s hs]
  · intro t ht
    obtain ⟨s, hs, rfl⟩ := List.mem_map.1 ht
    exact hp.ne_zero s hs

/-- **C52.** The real change of variables: numerator over denominator is the polynomial, where `p` and `w` are not zero. -/
theorem transReal_value (dm : Terms K → Terms K × Terms K) (vanish : Terms K → Bool) (hdm : DmOk dm facReal) (n d : ℕ) (f : Terms K)
    (hf : WHom d f) (ha : Arity 3 f) (hne : f ≠ []) (r : Terms K × ℤ × ℤ) (h : transReal dm vanish n f = some r)
    (a b c : K) (hp : eP a b c ≠ 0) (hw : realW a b c ≠ 0) :
    evalDict f [eP a b c, eQ a b c, eR a b c] =
      evalDict r.1 [realX a b c, realY a b c, realZ a b c] / (eP a b c ^ r.2.1 * realW a b c ^ r.2.2) := by
  unfold transReal at h
  obtain ⟨e, he, rfl⟩ := Option.map_eq_some_iff.1 h
  set num := pmul (pconst 3 ((27 ^ totalDegree 2 (polyQR f))⁻¹)) (comp3 (homogenizeNew 2 (polyQR f)) realQ realR realP) with hnum
  have har : Arity 3 (comp3 (homogenizeNew 2 (polyQR f)) realQ realR realP) :=
    arity_comp3 (homogenizeNew 2 (polyQR f)) realQ realR realP arity_realQ arity_realR arity_realP
  have harn : IsPoly 3 num := isPoly_pmul (arity_pconst 3 _) har
  obtain ⟨hdv, hda⟩ := divX_value (minX num) num harn (minX_le num) (realX a b c) (realY a b c) (realZ a b c)
  obtain ⟨_, hv⟩ := extractFactor_value dm vanish facReal hdm n _ e hda he
  have hv := hv (realX a b c) (realY a b c) (realZ a b c)
  obtain ⟨f1, f2, f3, f4⟩ := real_formulas a b c
  have hnv : evalDict num [realX a b c, realY a b c, realZ a b c] = (27 ^ totalDegree 2 (polyQR f))⁻¹ *
      evalDict (homogenizeNew 2 (polyQR f)) [eQ a b c * eP a b c * (27 * realW a b c ^ 3), eR a b c * (27 * realW a b c ^ 3),
        eP a b c ^ 3 * (27 * realW a b c ^ 3)] := by
    rw [hnum, evalDict_pmul _ _ [realX a b c, realY a b c, realZ a b c] (arity_pconst 3 _) har, evalDict_pconst,
      comp3_value _ _ _ _ (arity_homogenizeNew 2 _ (arity_polyQR f ha)) arity_realQ arity_realR arity_realP, realQ_value, realR_value, realP_value]
    congr 3
    · rw [← f2] at f3 ⊢; linear_combination (-9 * eP a b c * realW a b c) * f3
    congr 1
    · rw [← f2] at f4 ⊢; linear_combination (-realW a b c ^ 3) * f4 - (2 * realY a b c - 3 * (eP a b c * realW a b c)) * f1
    · rw [← f2]; congr 1; ring
  have hc := comp_hom_value d f hf ha (eP a b c) (eQ a b c) (eR a b c) (27 * realW a b c ^ 3) hp
  have hfac : facReal (realX a b c) (realY a b c) (realZ a b c) = realW a b c ^ 3 := f1.symm
  rw [hfac] at hv
  rw [hv] at hdv
  rw [hdv] at hnv
  generalize evalDict (homogenizeNew 2 (polyQR f)) _ = G at hc hnv
  have h27 : (27 : K) ^ totalDegree 2 (polyQR f) ≠ 0 := pow_ne_zero _ (by norm_num)
  rw [eq_inv_mul_iff_mul_eq₀ h27] at hnv
  rw [← hnv, ← f2] at hc
  rw [← f2]
  dsimp only
  rw [pqrDegree_eq d f hf hne, eq_div_iff (mul_ne_zero (zpow_ne_zero _ hp) (zpow_ne_zero _ hw))]
  rw [zpow_sub₀ hp, zpow_sub₀ hp, zpow_sub₀ hw, zpow_sub₀ hw,
    show (3 * (totalDegree 2 (polyQR f) : ℤ)) = ((3 * totalDegree 2 (polyQR f) : ℕ) : ℤ) by push_cast; rfl,
    show (3 * (e.1 : ℤ)) = ((3 * e.1 : ℕ) : ℤ) by push_cast; rfl]
  simp only [zpow_natCast]
  have hpd : eP a b c ^ d ≠ 0 := pow_ne_zero _ hp
  have hpm : eP a b c ^ minX num ≠ 0 := pow_ne_zero _ hp
  have hwm : realW a b c ^ minX num ≠ 0 := pow_ne_zero _ hw
  have hwe : realW a b c ^ (3 * e.1) ≠ 0 := pow_ne_zero _ hw
  rw [mul_pow, mul_pow, mul_pow, ← pow_mul, ← pow_mul, ← pow_mul] at hc
  field_simp
  apply mul_left_cancel₀ h27
  linear_combination (-1) * hc

/-! ### Polynomial functions of one parameter: passing to the points where a denominator vanishes -/

/-- `F` is a polynomial function. -/
def IsPF (F : K → K) : Prop := ∃ P : Polynomial K, ∀ t, F t = P.eval t

theorem isPF_const (c : K) : IsPF fun _ => c := ⟨Polynomial.C c, by simp⟩
theorem isPF_id : IsPF fun t : K => t := ⟨Polynomial.X, by simp⟩
theorem IsPF.add {F G : K → K} (hF : IsPF F) (hG : IsPF G) : IsPF fun t => F t + G t := by
  obtain ⟨P, hP⟩ := hF; obtain ⟨Q, hQ⟩ := hG
  exact ⟨P + Q, fun t => by rw [Polynomial.eval_add, ← hP, ← hQ]⟩
theorem IsPF.sub {F G : K → K} (hF : IsPF F) (hG : IsPF G) : IsPF fun t => F t - G t := by
  obtain ⟨P, hP⟩ := hF; obtain ⟨Q, hQ⟩ := hG
  exact ⟨P - Q, fun t => by rw [Polynomial.eval_sub, ← hP, ← hQ]⟩
theorem IsPF.mul {F G : K → K} (hF : IsPF F) (hG : IsPF G) : IsPF fun t => F t * G t := by
  obtain ⟨P, hP⟩ := hF; obtain ⟨Q, hQ⟩ := hG
  exact ⟨P * Q, fun t => by rw [Polynomial.eval_mul, ← hP, ← hQ]⟩
theorem IsPF.pow {F : K → K} (hF : IsPF F) (n : ℕ) : IsPF fun t => F t ^ n := by
  obtain ⟨P, hP⟩ := hF
  exact ⟨P ^ n, fun t => by rw [Polynomial.eval_pow, ← hP]⟩
theorem IsPF.div {F : K → K} (hF : IsPF F) (c : K) : IsPF fun t => F t / c := by
  simpa only [div_eq_mul_inv] using hF.mul (isPF_const c⁻¹)

theorem isPF_evalDict (f : Terms K) (hf : Arity 3 f) (A B C : K → K) (hA : IsPF A) (hB : IsPF B) (hC : IsPF C) :
    IsPF fun t => evalDict f [A t, B t, C t] := by
  induction f with
  | nil => simpa only [evalDict_nil] using isPF_const (0 : K)
  | cons m f ih =>
    have ih := ih fun s hs => hf s (List.mem_cons_of_mem _ hs)
    have h1 := hf m (List.mem_cons_self ..)
    simp only [evalDict_cons, evalMonom3 m.1 h1]
    exact ((isPF_const m.2).mul ((hA.pow _).mul ((hB.pow _).mul (hC.pow _)))).add ih

/-- Two polynomial functions that agree where a third one is not zero agree everywhere. -/
theorem pf_ext (F G D : K → K) (hF : IsPF F) (hG : IsPF G) (hD : IsPF D) (h0 : ∃ t, D t ≠ 0) (h : ∀ t, D t ≠ 0 → F t = G t) :
    ∀ t, F t = G t := by
  obtain ⟨P, hP⟩ := hF; obtain ⟨Q, hQ⟩ := hG; obtain ⟨R, hR⟩ := hD
  have hz : (P - Q) * R = 0 := by
    have : Infinite K := Infinite.of_injective (Nat.cast : ℕ → K) Nat.cast_injective
    apply Polynomial.funext
    intro t
    rw [Polynomial.eval_mul, Polynomial.eval_sub, Polynomial.eval_zero, ← hP, ← hQ, ← hR]
    by_cases hd : D t = 0
    · rw [hd, mul_zero]
    · rw [h t hd, sub_self, zero_mul]
  rcases mul_eq_zero.1 hz with h1 | h1
  · intro t; rw [hP, hQ, sub_eq_zero.1 h1]
  · obtain ⟨t, ht⟩ := h0
    exact absurd (by rw [hR, h1, Polynomial.eval_zero]) ht

/-- `f = g / (p**i * w**j)` cleared of denominators. -/
theorem clear_zpow (f g p w : K) (i j : ℤ) (hp : p ≠ 0) (hw : w ≠ 0) (h : f = g / (p ^ i * w ^ j)) :
    f * (p ^ i.toNat * w ^ j.toNat) = g * (p ^ (-i).toNat * w ^ (-j).toNat) := by
  have e : ∀ (u : K) (k : ℤ), u ≠ 0 → u ^ k = u ^ k.toNat / u ^ (-k).toNat := by
    intro u k hu
    rw [eq_div_iff (pow_ne_zero _ hu), ← zpow_natCast, ← zpow_natCast, ← zpow_add₀ hu]
    congr 1; omega
  rw [h, e p i hp, e w j hw]
  have h1 : p ^ i.toNat ≠ 0 := pow_ne_zero _ hp
  have h2 : p ^ (-i).toNat ≠ 0 := pow_ne_zero _ hp
  have h3 : w ^ j.toNat ≠ 0 := pow_ne_zero _ hw
  have h4 : w ^ (-j).toNat ≠ 0 := pow_ne_zero _ hw
  field_simp

theorem realW_pos (a b c : K) (h : a ≠ b) : 0 < realW a b c := by
  unfold realW
  have h1 : 0 < (a - b) ^ 2 := by have : a - b ≠ 0 := sub_ne_zero.2 h; positivity
  have h2 := sq_nonneg (b - c)
  have h3 := sq_nonneg (c - a)
  linarith

theorem isPoly_transReal (dm : Terms K → Terms K × Terms K) (vanish : Terms K → Bool) (hdm : DmOk dm facReal) (n : ℕ) (f : Terms K)
    (r : Terms K × ℤ × ℤ) (h : transReal dm vanish n f = some r) : IsPoly 3 r.1 := by
  unfold transReal at h
  obtain ⟨e, he, rfl⟩ := Option.map_eq_some_iff.1 h
  have har : Arity 3 (comp3 (homogenizeNew 2 (polyQR f)) realQ realR realP) :=
    arity_comp3 (homogenizeNew 2 (polyQR f)) realQ realR realP arity_realQ arity_realR arity_realP
  have harn := isPoly_pmul (arity_pconst 3 ((27 ^ totalDegree 2 (polyQR f))⁻¹)) har
  exact (extractFactor_value dm vanish facReal hdm n _ e (divX_value _ _ harn (minX_le _) 0 0 0).2 he).1

theorem isPoly_transPos (dm : Terms K → Terms K × Terms K) (vanish : Terms K → Bool) (hdm : DmOk dm facPos) (n : ℕ) (f : Terms K)
    (r : Terms K × ℤ × ℤ) (h : transPos dm vanish n f = some r) : IsPoly 3 r.1 := by
  unfold transPos at h
  obtain ⟨e, he, rfl⟩ := Option.map_eq_some_iff.1 h
  exact (extractFactor_value dm vanish facPos hdm n _ e (isPoly_comp3 _ posQ posR posP arity_posQ arity_posR arity_posP) he).1

/-- **C52.** The real change of variables is exact at every point, also where `a + b + c = 0` or `a = b = c`: with the powers of negative
exponent moved to the other side, polynomial times denominator is the numerator. -/
theorem transReal_exact (dm : Terms K → Terms K × Terms K) (vanish : Terms K → Bool) (hdm : DmOk dm facReal) (n d : ℕ) (f : Terms K)
    (hf : WHom d f) (ha : Arity 3 f) (hne : f ≠ []) (r : Terms K × ℤ × ℤ) (h : transReal dm vanish n f = some r) (a b c : K) :
    evalDict f [eP a b c, eQ a b c, eR a b c] * (eP a b c ^ r.2.1.toNat * realW a b c ^ r.2.2.toNat) =
      evalDict r.1 [realX a b c, realY a b c, realZ a b c] * (eP a b c ^ (-r.2.1).toNat * realW a b c ^ (-r.2.2).toNat) := by
  have har := (isPoly_transReal dm vanish hdm n f r h).length
  have pa : IsPF fun t : K => a + t := (isPF_const a).add isPF_id
  have pb : IsPF fun t : K => b + 2 * t := (isPF_const b).add ((isPF_const 2).mul isPF_id)
  have pc : IsPF fun t : K => c + 4 * t := (isPF_const c).add ((isPF_const 4).mul isPF_id)
  have pP : IsPF fun t : K => eP (a + t) (b + 2 * t) (c + 4 * t) := (pa.add pb).add pc
  have pQ : IsPF fun t : K => eQ (a + t) (b + 2 * t) (c + 4 * t) := ((pa.mul pb).add (pb.mul pc)).add (pc.mul pa)
  have pR : IsPF fun t : K => eR (a + t) (b + 2 * t) (c + 4 * t) := (pa.mul pb).mul pc
  have pS := (((pa.sub pb).pow 2).add ((pb.sub pc).pow 2)).add ((pc.sub pa).pow 2)
  have pW : IsPF fun t : K => realW (a + t) (b + 2 * t) (c + 4 * t) := pS.div 2
  have pX : IsPF fun t : K => realX (a + t) (b + 2 * t) (c + 4 * t) := (pP.mul pS).div 2
  have p2 := isPF_const (2 : K)
  have pY : IsPF fun t : K => realY (a + t) (b + 2 * t) (c + 4 * t) :=
    (((((p2.mul pa).sub pb).sub pc).mul (((p2.mul pb).sub pc).sub pa)).mul (((p2.mul pc).sub pa).sub pb)).div 2
  have pZ : IsPF fun t : K => realZ (a + t) (b + 2 * t) (c + 4 * t) :=
    (isPF_const (27 / 4 : K)).mul (((pa.sub pb).pow 2).mul (((pb.sub pc).pow 2).mul ((pc.sub pa).pow 2)))
  have key := pf_ext _ _ _ ((isPF_evalDict f ha _ _ _ pP pQ pR).mul ((pP.pow r.2.1.toNat).mul (pW.pow r.2.2.toNat)))
    ((isPF_evalDict r.1 har _ _ _ pX pY pZ).mul ((pP.pow (-r.2.1).toNat).mul (pW.pow (-r.2.2).toNat))) (pP.mul pW) ?_ ?_ 0
  · simpa using key
  · refine ⟨|a - b| + |a + b + c| + 1, mul_ne_zero ?_ (realW_pos _ _ _ ?_).ne'⟩
    · have h1 := neg_abs_le (a + b + c)
      have h2 := abs_nonneg (a - b)
      unfold eP
      apply ne_of_gt
      linarith [abs_nonneg (a + b + c)]
    · have h1 := le_abs_self (a - b)
      have h2 := abs_nonneg (a + b + c)
      intro h3
      linarith
  · intro t ht
    have hp := left_ne_zero_of_mul ht
    have hw := right_ne_zero_of_mul ht
    exact clear_zpow _ _ _ _ _ _ hp hw (transReal_value dm vanish hdm n d f hf ha hne r h _ _ _ hp hw)

/-- **C52.** The new variables of the positive method, and `w`, are nonnegative for positive `a`, `b`, `c`. -/
theorem pos_nonneg (a b c : K) (ha : 0 < a) (hb : 0 < b) (hc : 0 < c) :
    0 ≤ posX a b c ∧ 0 ≤ posY a b c ∧ 0 ≤ posZ a b c ∧ 0 ≤ posW a b c := by
  have hX : 0 ≤ posX a b c := by unfold posX eP; positivity
  have hY : 0 ≤ posY a b c := by unfold posY; positivity
  refine ⟨hX, hY, by unfold posZ disc eP eR; positivity, ?_⟩
  unfold posW eR; positivity

/-- **C52.** The new variable `z` of the real method, and `w`, are nonnegative. -/
theorem real_nonneg (a b c : K) : 0 ≤ realZ a b c ∧ 0 ≤ realW a b c := by
  constructor
  · unfold realZ disc; positivity
  · unfold realW; positivity

/-- `w` vanishes only at `a = b = c`. -/
theorem posW_eq_zero (a b c : K) (ha : 0 < a) (hb : 0 < b) (hc : 0 < c) (h : posW a b c = 0) : a = b ∧ b = c := by
  have hp : eP a b c ≠ 0 := by unfold eP; positivity
  have hr : eR a b c ≠ 0 := by unfold eR; positivity
  have hxy : posX a b c * posY a b c ^ 2 = 0 := by
    unfold posW at h
    rcases div_eq_zero_iff.1 h with h1 | h1
    · exact h1
    · exact absurd h1 hr
  rcases mul_eq_zero.1 hxy with h1 | h1
  · have h2 : 2 * eP a b c * posX a b c = 0 := by rw [h1, mul_zero]
    have h3 : 2 * eP a b c * posX a b c = ((b - c) ^ 2 * (b + c - a) ^ 2 + (c - a) ^ 2 * (c + a - b) ^ 2 + (a - b) ^ 2 * (a + b - c) ^ 2) +
        2 * (b * c * (b - c) ^ 2 + c * a * (c - a) ^ 2 + a * b * (a - b) ^ 2) := by
      unfold posX; field_simp
    rw [h3] at h2
    have n1 : 0 ≤ (b - c) ^ 2 * (b + c - a) ^ 2 + (c - a) ^ 2 * (c + a - b) ^ 2 + (a - b) ^ 2 * (a + b - c) ^ 2 := by positivity
    have n2 : 0 ≤ b * c * (b - c) ^ 2 := by positivity
    have n3 : 0 ≤ c * a * (c - a) ^ 2 := by positivity
    have n4 : 0 ≤ a * b * (a - b) ^ 2 := by positivity
    have m2 : b * c * (b - c) ^ 2 = 0 := by linarith
    have m4 : a * b * (a - b) ^ 2 = 0 := by linarith
    have k2 := (mul_eq_zero.1 m2).resolve_left (by positivity)
    have k4 := (mul_eq_zero.1 m4).resolve_left (by positivity)
    exact ⟨sub_eq_zero.1 (pow_eq_zero_iff (by norm_num) |>.1 k4), sub_eq_zero.1 (pow_eq_zero_iff (by norm_num) |>.1 k2)⟩
  · have h2 : posY a b c = 0 := pow_eq_zero_iff (by norm_num) |>.1 h1
    unfold posY at h2
    have n2 : 0 ≤ a * (b - c) ^ 2 := by positivity
    have n3 : 0 ≤ b * (c - a) ^ 2 := by positivity
    have n4 : 0 ≤ c * (a - b) ^ 2 := by positivity
    have m2 : a * (b - c) ^ 2 = 0 := by linarith
    have m4 : c * (a - b) ^ 2 = 0 := by linarith
    have k2 := (mul_eq_zero.1 m2).resolve_left ha.ne'
    have k4 := (mul_eq_zero.1 m4).resolve_left hc.ne'
    exact ⟨sub_eq_zero.1 (pow_eq_zero_iff (by norm_num) |>.1 k4), sub_eq_zero.1 (pow_eq_zero_iff (by norm_num) |>.1 k2)⟩

/-- **C52.** The positive change of variables is exact at every point with positive `a`, `b`, `c`, also where `a = b = c`. -/
theorem transPos_exact (dm : Terms K → Terms K × Terms K) (vanish : Terms K → Bool) (hdm : DmOk dm facPos) (n d : ℕ) (f : Terms K)
    (hf : WHom d f) (ha : Arity 3 f) (hne : f ≠ []) (r : Terms K × ℤ × ℤ) (h : transPos dm vanish n f = some r)
    (a b c : K) (h1 : 0 < a) (h2 : 0 < b) (h3 : 0 < c) :
    evalDict f [eP a b c, eQ a b c, eR a b c] * (eP a b c ^ r.2.1.toNat * posW a b c ^ r.2.2.toNat) =
      evalDict r.1 [posX a b c, posY a b c, posZ a b c] * (eP a b c ^ (-r.2.1).toNat * posW a b c ^ (-r.2.2).toNat) := by
  have hp : eP a b c ≠ 0 := by unfold eP; positivity
  have hr : eR a b c ≠ 0 := by unfold eR; positivity
  by_cases hw : posW a b c = 0
  · obtain ⟨rfl, rfl⟩ := posW_eq_zero a b c h1 h2 h3 hw
    have har := (isPoly_transPos dm vanish hdm n f r h).length
    have eX : ∀ t : K, eP a a (a + t) ≠ 0 → posX a a (a + t) = (a + t) * t ^ 2 := by
      intro t ht; rw [posX_eq _ _ _ ht]; ring
    have eY : ∀ t : K, posY a a (a + t) = 2 * a * t ^ 2 := by intro t; unfold posY; ring
    have eZ : ∀ t : K, posZ a a (a + t) = 0 := by intro t; unfold posZ disc; simp
    have eW : ∀ t : K, eP a a (a + t) ≠ 0 → eR a a (a + t) ≠ 0 → posW a a (a + t) = 4 * t ^ 6 := by
      intro t ht ht2; rw [posW_eq _ _ _ ht ht2, eX t ht, eY, eZ]; ring
    have pa := isPF_const a
    have pc : IsPF fun t : K => a + t := pa.add isPF_id
    have pP : IsPF fun t : K => eP a a (a + t) := (pa.add pa).add pc
    have pQ : IsPF fun t : K => eQ a a (a + t) := ((pa.mul pa).add (pa.mul pc)).add (pc.mul pa)
    have pR : IsPF fun t : K => eR a a (a + t) := (pa.mul pa).mul pc
    have pW : IsPF fun t : K => 4 * t ^ 6 := (isPF_const 4).mul (isPF_id.pow 6)
    have pX : IsPF fun t : K => (a + t) * t ^ 2 := pc.mul (isPF_id.pow 2)
    have pY : IsPF fun t : K => 2 * a * t ^ 2 := (isPF_const (2 * a)).mul (isPF_id.pow 2)
    have key := pf_ext _ _ _ ((isPF_evalDict f ha _ _ _ pP pQ pR).mul ((pP.pow r.2.1.toNat).mul (pW.pow r.2.2.toNat)))
      ((isPF_evalDict r.1 har _ _ _ pX pY (isPF_const 0)).mul ((pP.pow (-r.2.1).toNat).mul (pW.pow (-r.2.2).toNat)))
      ((pP.mul pR).mul pW) ⟨1, ?_⟩ ?_ 0
    · have q1 := eX 0 (by simpa using hp)
      have q2 := eY 0
      have q3 := eZ 0
      have q4 := eW 0 (by simpa using hp) (by simpa using hr)
      simp only [add_zero] at q1 q2 q3 q4 key
      rw [q1, q2, q3, q4]
      exact key
    · unfold eP eR; positivity
    · intro t ht
      have g1 := left_ne_zero_of_mul (left_ne_zero_of_mul ht)
      have g2 := right_ne_zero_of_mul (left_ne_zero_of_mul ht)
      have g3 := right_ne_zero_of_mul ht
      have hv := transPos_value dm vanish hdm n d f hf ha hne r h a a (a + t) g1 g2 (by rw [eW t g1 g2]; exact g3)
      rw [eW t g1 g2, eX t g1, eY, eZ] at hv
      exact clear_zpow _ _ _ _ _ _ g1 g3 hv
  · exact clear_zpow _ _ _ _ _ _ hp hw (transPos_value dm vanish hdm n d f hf ha hne r h a b c hp hr hw)

/-! ### The answer of one method -/

/-- The values of the new symbols `0, 1, 2` at `a, b, c`. -/
def newVal : Method → K → K → K → ℕ → K
  | .real, a, b, c => fun i => [realX a b c, realY a b c, realZ a b c].getD i 0
  | .positive, a, b, c => fun i => [posX a b c, posY a b c, posZ a b c].getD i 0

/-- The value of `w`. -/
def wVal : Method → K → K → K → K
  | .real => realW
  | .positive => posW

/-- The points considered by a method. -/
def Dom : Method → K → K → K → Prop
  | .real, _, _, _ => True
  | .positive, a, b, c => 0 < a ∧ 0 < b ∧ 0 < c

/-- The contract of the external divisions. -/
structure ArithOk (A : Arith K) : Prop where
  real : DmOk (A.dm .real) facReal
  positive : DmOk (A.dm .positive) facPos

theorem newVal_list (m : Method) (a b c : K) : ([0, 1, 2].map (newVal m a b c)) =
    match m with
    | .real => [realX a b c, realY a b c, realZ a b c]
    | .positive => [posX a b c, posY a b c, posZ a b c] := by
  cases m <;> rfl

theorem transform_exact (A : Arith K) (hA : ArithOk A) (n d : ℕ) (m : Method) (f : Terms K) (hf : WHom d f) (ha : Arity 3 f)
    (hne : f ≠ []) (r : Terms K × ℤ × ℤ) (h : transform A n m f = some r) (a b c : K) (hd : Dom m a b c) :
    IsPoly 3 r.1 ∧ evalDict f [eP a b c, eQ a b c, eR a b c] * (eP a b c ^ r.2.1.toNat * wVal m a b c ^ r.2.2.toNat) =
      evalDict r.1 ([0, 1, 2].map (newVal m a b c)) * (eP a b c ^ (-r.2.1).toNat * wVal m a b c ^ (-r.2.2).toNat) := by
  rw [newVal_list]
  cases m with
  | real => exact ⟨isPoly_transReal _ _ hA.real n f r h, transReal_exact _ _ hA.real n d f hf ha hne r h a b c⟩
  | positive => exact ⟨isPoly_transPos _ _ hA.positive n f r h, transPos_exact _ _ hA.positive n d f hf ha hne r h a b c hd.1 hd.2.1 hd.2.2⟩

/-- **C52 (partial).** An answer of one method: the expression over the denominator is the polynomial (cleared of denominators, so also
where a denominator is zero), and it is nonnegative, provided the new variables that were declared nonnegative because of the transformed
constraints are nonnegative.  Missing: that proviso, which is not guaranteed by the constraints, see `constraint_sign_wrong`. -/
theorem symMethod_sound_partial {β : Type*} (A : Arith K) (hA : ArithOk A) (biv : List ℕ → Terms K → List ℕ → Option β)
    (bval : β → (ℕ → K) → K) (hb : BivOk biv bval) (fresh : ℕ → ℕ) (hfr : ∀ g, fresh g ≠ g) (n d : ℕ) (cons : List (Terms K)) (f : Terms K)
    (hf : WHom d f) (ha : Arity 3 f) (hne : f ≠ []) (m : Method) (s : SymAns β K) (h : symMethod A biv fresh n cons f m = some s)
    (a b c : K) (hd : Dom m a b c) :
    evalDict f [eP a b c, eQ a b c, eR a b c] * (eP a b c ^ s.pdeg.toNat * wVal m a b c ^ s.wdeg.toNat) =
      evalE bval s.num (newVal m a b c) * (eP a b c ^ (-s.pdeg).toNat * wVal m a b c ^ (-s.wdeg).toNat) ∧
    ((∀ g ∈ cons, ∀ t, transform A n m g = some t → ∀ i, nonnegVar t.1 = some i → 0 ≤ newVal m a b c i) →
      0 ≤ evalE bval s.num (newVal m a b c)) := by
  unfold symMethod at h
  obtain ⟨r, hr, h1⟩ := Option.bind_eq_some_iff.1 h
  obtain ⟨e, he, rfl⟩ := Option.map_eq_some_iff.1 h1
  obtain ⟨hp, hv⟩ := transform_exact A hA n d m f hf ha hne r hr a b c hd
  obtain ⟨p1, p2⟩ := pivoting_sound biv bval hb fresh hfr _ 4 [0, 1, 2] r.1 e (by decide) hp he (newVal m a b c)
  refine ⟨by rw [hv]; dsimp only; rw [p1], fun hc => p2 fun g hg hn => ?_⟩
  rcases List.mem_append.1 hn with h2 | h2
  · obtain ⟨q, hq, hq2⟩ := List.mem_filterMap.1 h2
    obtain ⟨t, ht, ht2⟩ := Option.bind_eq_some_iff.1 hq2
    exact hc q hq t ht g ht2
  · cases m with
    | real =>
      obtain rfl : g = 2 := by simpa [defaultNonneg] using h2
      exact (real_nonneg a b c).1
    | positive =>
      obtain ⟨x1, x2, x3, _⟩ := pos_nonneg a b c hd.1 hd.2.1 hd.2.2
      simp only [List.mem_cons, List.not_mem_nil, or_false] at hg
      rcases hg with rfl | rfl | rfl
      · exact x1
      · exact x2
      · exact x3

/-- **C52.** With no symmetric constraint giving a sign, an answer of the positive method proves the polynomial nonnegative for positive
`a`, `b`, `c` that are not all equal (there `w = 0` and the denominators may vanish). -/
theorem symMethod_positive_nonneg {β : Type*} (A : Arith K) (hA : ArithOk A) (biv : List ℕ → Terms K → List ℕ → Option β)
    (bval : β → (ℕ → K) → K) (hb : BivOk biv bval) (fresh : ℕ → ℕ) (hfr : ∀ g, fresh g ≠ g) (n d : ℕ) (f : Terms K)
    (hf : WHom d f) (ha : Arity 3 f) (hne : f ≠ []) (s : SymAns β K) (h : symMethod A biv fresh n [] f .positive = some s)
    (a b c : K) (h1 : 0 < a) (h2 : 0 < b) (h3 : 0 < c) (hab : ¬(a = b ∧ b = c)) :
    0 ≤ evalDict f [eP a b c, eQ a b c, eR a b c] := by
  obtain ⟨e1, e2⟩ := symMethod_sound_partial A hA biv bval hb fresh hfr n d [] f hf ha hne .positive s h a b c ⟨h1, h2, h3⟩
  have hw : 0 < posW a b c := lt_of_le_of_ne (pos_nonneg a b c h1 h2 h3).2.2.2 fun h => hab (posW_eq_zero a b c h1 h2 h3 h.symm)
  have hp : 0 < eP a b c := by unfold eP; positivity
  have k1 : 0 < eP a b c ^ s.pdeg.toNat * posW a b c ^ s.wdeg.toNat := by positivity
  have k2 : 0 < eP a b c ^ (-s.pdeg).toNat * posW a b c ^ (-s.wdeg).toNat := by positivity
  have k3 := mul_nonneg (e2 (by simp)) k2.le
  have e1' : _ = _ := e1
  rw [show wVal Method.positive a b c = posW a b c from rfl] at e1'
  rw [← e1'] at k3
  exact nonneg_of_mul_nonneg_left k3 k1

end Comp

/-! ### A computable division, concrete cases and the counterexample -/

section Concrete

/-- Division by `z + g`, where `g` has no `z`, removing one term with `z` at a time. -/
def divZ {K : Type*} [Field K] [DecidableEq K] (g : Terms K) : ℕ → Terms K → Terms K → Terms K × Terms K
  | 0, q, p => (q, p)
  | n + 1, q, p =>
    match p.find? fun t => 0 < t.1.getD 2 0 with
    | none => (q, p)
    | some t =>
      let m : Terms K := [([t.1.getD 0 0, t.1.getD 1 0, t.1.getD 2 0 - 1], t.2)]
      divZ g n (collect (q ++ m)) (collect (p ++ pneg (pmul m (([0, 0, 1], 1) :: g))))

variable {K : Type*} [Field K] [LinearOrder K] [IsStrictOrderedRing K]

theorem divZ_inv (g : Terms K) (hg : Arity 3 g) : ∀ (n : ℕ) (q p : Terms K), IsPoly 3 q → Arity 3 p →
    IsPoly 3 (divZ g n q p).1 ∧ ∀ X Y Z : K, evalDict q [X, Y, Z] * (Z + evalDict g [X, Y, Z]) + evalDict p [X, Y, Z] =
      evalDict (divZ g n q p).1 [X, Y, Z] * (Z + evalDict g [X, Y, Z]) + evalDict (divZ g n q p).2 [X, Y, Z]
  | 0, q, p, hq, _ => ⟨hq, fun _ _ _ => rfl⟩
  | n + 1, q, p, hq, hp => by
      unfold divZ
      cases p.find? fun t => 0 < t.1.getD 2 0 with
      | none => exact ⟨hq, fun _ _ _ => rfl⟩
      | some t =>
        dsimp only
        set m : Terms K := [([t.1.getD 0 0, t.1.getD 1 0, t.1.getD 2 0 - 1], t.2)] with hm
        have hma : Arity 3 m := by intro s hs; rw [hm, List.mem_singleton] at hs; rw [hs]; rfl
        have hza : Arity 3 ((([0, 0, 1], 1) : List ℕ × K) :: g) := by
          intro s hs
          rcases List.mem_cons.1 hs with rfl | h
          · rfl
          · exact hg s h
        have hqm : Arity 3 (q ++ m) := by
          intro s hs
          rcases List.mem_append.1 hs with h | h
          · exact hq.length s h
          · exact hma s h
        have hpm : Arity 3 (p ++ pneg (pmul m (([0, 0, 1], 1) :: g))) := by
          intro s hs
          rcases List.mem_append.1 hs with h | h
          · exact hp s h
          · exact arity_pneg (arity_pmul hma hza) s h
        obtain ⟨i1, i2⟩ := divZ_inv g hg n _ _ ⟨(collect_isPoly (q ++ m)).1, arity_collect hqm, (collect_isPoly (q ++ m)).2⟩ (arity_collect hpm)
        refine ⟨i1, fun X Y Z => ?_⟩
        rw [← i2, evalDict_collect, evalDict_collect, evalDict_append, evalDict_append, evalDict_pneg,
          evalDict_pmul _ _ [X, Y, Z] hma hza, evalDict_cons ([0, 0, 1], 1) g,
          show evalMonom [0, 0, 1] [X, Y, Z] = Z by simp [evalMonom]]
        ring

/-- The computable division meets the contract. -/
theorem divZ_ok (g : Terms K) (hg : Arity 3 g) (n : ℕ) (fac : K → K → K → K) (hfac : ∀ X Y Z, fac X Y Z = Z + evalDict g [X, Y, Z]) :
    DmOk (divZ g n []) fac := by
  intro p hp h
  obtain ⟨h1, h2⟩ := divZ_inv g hg n [] p ⟨List.nodup_nil, by simp, by simp⟩ hp.length
  refine ⟨h1, fun X Y Z => ?_⟩
  have := h2 X Y Z
  rw [h, evalDict_nil, zero_mul, zero_add, add_zero] at this
  rw [this, hfac]

/-- `y**2` and `(y-2*x)**2`. -/
def gReal : Terms ℚ := [([0, 2, 0], 1)]
def gPos : Terms ℚ := [([0, 2, 0], 1), ([1, 1, 0], -4), ([2, 0, 0], 4)]

/-- Rational arithmetic for the examples. -/
def ratArith : Arith ℚ where
  dm | .real => divZ gReal 50 []
     | .positive => divZ gPos 50 []
  vanish | .real => fun p => decide (evalDict p [3, 2, -4] = 0)
         | .positive => fun p => decide (evalDict p [2, 1, -9] = 0)

theorem ratArith_ok : ArithOk ratArith :=
  ⟨divZ_ok gReal (by intro t ht; simp [gReal] at ht; subst ht; rfl) 50 _ (by
      intro X Y Z; simp [facReal, gReal, evalDict, evalMonom]; ring),
    divZ_ok gPos (by intro t ht; simp [gPos] at ht; rcases ht with rfl | rfl | rfl <;> rfl) 50 _ (by
      intro X Y Z; simp [facPos, gPos, evalDict, evalMonom]; ring)⟩

/-- Schur's inequality `p**3 - 4*p*q + 9*r`. -/
def schurPQR : Terms ℚ := [([3, 0, 0], 1), ([1, 1, 0], -4), ([0, 0, 1], 9)]

example : WHom 3 schurPQR ∧ Arity 3 schurPQR ∧ schurPQR ≠ [] := by
  refine ⟨?_, ?_, ?_⟩ <;> simp [schurPQR, WHom, Arity]
/-- it becomes the single variable `x`, with denominator one -/
example : transform ratArith 20 .positive schurPQR = some ([([1, 0, 0], 1)], 0, 0) := by decide +kernel
/-- and is proved by the positive method, but not by the real one -/
example : (symMethod ratArith monoBiv (· + 10) 20 [] schurPQR .positive).isSome = true ∧
    (symMethod ratArith monoBiv (· + 10) 20 [] schurPQR .real).isSome = false := by decide +kernel
/-- `a**3+b**3+c**3-3abc`: the numerator is `1` and the denominator `p**(-1) * w**(-1)` -/
example : transform ratArith 20 .real [([3, 0, 0], 1), ([1, 1, 0], -3)] = some ([([0, 0, 0], 1)], -1, -1) := by decide +kernel

/-- The constraint `2*p*y >= 0`, where `2*y = 2*p**3 - 9*p*q + 27*r`. -/
def consPY : Terms ℚ := [([4, 0, 0], 2), ([2, 1, 0], -9), ([1, 0, 1], 27)]
/-- The polynomial `2*y`. -/
def polyY : Terms ℚ := [([3, 0, 0], 2), ([1, 1, 0], -9), ([0, 0, 1], 27)]

/-- **C52 (counterexample).** Under the constraint `(a+b+c)*y >= 0` the transformed constraint is the polynomial `2*y` (with the denominator
`p**(-1)`), so `y` is taken as nonnegative, and the numerator of `2*y` is then proved; but at `(0, 0, -1)` the constraint holds and the
polynomial is negative. -/
theorem constraint_sign_wrong : ∃ (cons f : Terms ℚ) (a b c : ℚ), WHom 4 cons ∧ WHom 3 f ∧
    0 ≤ evalDict cons [eP a b c, eQ a b c, eR a b c] ∧ evalDict f [eP a b c, eQ a b c, eR a b c] < 0 ∧
    (∃ t, transform ratArith 20 .real cons = some t ∧ nonnegVar t.1 = some 1) ∧
    (symMethod ratArith monoBiv (· + 10) 20 [cons] f .real).map (fun s => (s.pdeg, s.wdeg)) = some (0, 0) ∧
    (symMethod ratArith monoBiv (· + 10) 20 [] f .real).isSome = false := by
  refine ⟨consPY, polyY, 0, 0, -1, ?_, ?_, by decide +kernel, by decide +kernel, ?_, by decide +kernel, by decide +kernel⟩
  · simp [consPY, WHom]
  · simp [polyY, WHom]
  · exact ⟨([([0, 1, 0], 2)], -1, 0), by decide +kernel, by decide +kernel⟩

end Concrete

end Verif.SymSOS
