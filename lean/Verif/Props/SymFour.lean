import Verif.Props.SymTrans
import Verif.Model.SymFour
import Verif.Proofs.SymFourIdent
import Mathlib.Tactic.FinCases
import Mathlib.Tactic.IntervalCases

/-!
# C98: the symmetric change of variables for four variables
-/

namespace Verif.SymSOS

open Verif Coeff TermsPoly MonoMgr Shared

set_option linter.unusedSectionVars false

section Comp
variable {K : Type*} [Field K] [LinearOrder K] [IsStrictOrderedRing K]

theorem arity_zipPow {n : ℕ} : ∀ (A : List (Terms K)) (m : List ℕ), (∀ p ∈ A, Arity n p) → ∀ p ∈ List.zipWith (ppow n) A m, Arity n p
  | [], _, _, p, hp => by simp at hp
  | _ :: _, [], _, p, hp => by simp at hp
  | a :: A, i :: m, hA, p, hp => by
    rw [List.zipWith_cons_cons] at hp
    rcases List.mem_cons.1 hp with rfl | h
    · exact arity_ppow (hA a (List.mem_cons_self ..)) i
    · exact arity_zipPow A m (fun q hq => hA q (List.mem_cons_of_mem _ hq)) p h

theorem prod_zipPow (x : List K) : ∀ (A : List (Terms K)) (m : List ℕ), (∀ p ∈ A, Arity x.length p) → m.length = A.length →
    ((List.zipWith (ppow x.length) A m).map fun p => evalDict p x).prod = evalMonom m (A.map fun p => evalDict p x)
  | [], [], _, _ => by simp [evalMonom]
  | a :: A, i :: m, hA, h => by
    have ih := prod_zipPow x A m (fun q hq => hA q (List.mem_cons_of_mem _ hq)) (by simpa using h)
    rw [List.zipWith_cons_cons, List.map_cons, List.prod_cons, ih, evalDict_ppow a x (hA a (List.mem_cons_self ..))]
    simp [evalMonom]
  | [], _ :: _, _, h => by simp at h
  | _ :: _, [], _, h => by simp at h

/-- `f(A, B, ...)` has the value of `f` at the values of `A`, `B`, .... -/
theorem compN_value (A : List (Terms K)) (f : Terms K) (x : List K) (hA : ∀ p ∈ A, Arity x.length p) (hf : Arity A.length f) :
    evalDict (compN x.length A f) x = evalDict f (A.map fun p => evalDict p x) := by
  unfold compN
  rw [evalDict_collect]
  induction f with
  | nil => rfl
  | cons t f ih =>
    rw [List.flatMap_cons, evalDict_append, evalDict_cons, ih fun t ht => hf t (List.mem_cons_of_mem _ ht),
      evalDict_pmul _ _ x (arity_pconst _ _) (arity_pprod _ (arity_zipPow A t.1 hA)), evalDict_pconst,
      evalDict_pprod _ x (arity_zipPow A t.1 hA), prod_zipPow x A t.1 hA (hf t (List.mem_cons_self ..))]

theorem arity_compN {n : ℕ} (A : List (Terms K)) (f : Terms K) (hA : ∀ p ∈ A, Arity n p) : Arity n (compN n A f) := by
  unfold compN
  apply arity_collect
  intro t ht
  obtain ⟨s, _, hs⟩ := List.mem_flatMap.1 ht
  exact arity_pmul (arity_pconst n _) (arity_pprod _ (arity_zipPow A s.1 hA)) t hs

theorem isPoly_compN {n : ℕ} (A : List (Terms K)) (f : Terms K) (hA : ∀ p ∈ A, Arity n p) : IsPoly n (compN n A f) :=
  ⟨(collect_isPoly _).1, arity_compN A f hA, (collect_isPoly _).2⟩

/-! ### Weighted degrees -/

/-- The weight of an exponent tuple. -/
def wt (ws m : List ℕ) : ℕ := (List.zipWith (· * ·) ws m).sum

/-- All terms have weight `d`. -/
def HomWt (ws : List ℕ) (d : ℕ) (f : Terms K) : Prop := ∀ t ∈ f, wt ws t.1 = d

theorem wt_add : ∀ (ws a b : List ℕ), a.length = b.length → wt ws (List.zipWith (· + ·) a b) = wt ws a + wt ws b
  | [], _, _, _ => by simp [wt]
  | _ :: _, [], [], _ => by simp [wt]
  | w :: ws, i :: a, j :: b, h => by
    have ih := wt_add ws a b (by simpa using h)
    simp only [wt, List.zipWith_cons_cons, List.sum_cons] at ih ⊢
    rw [ih]; ring
  | _ :: _, [], _ :: _, h => by simp at h
  | _ :: _, _ :: _, [], h => by simp at h

theorem wt_zero : ∀ (ws : List ℕ) (n : ℕ), wt ws (List.replicate n 0) = 0
  | [], _ => by simp [wt]
  | _ :: _, 0 => by simp [wt]
  | w :: ws, n + 1 => by
    have ih := wt_zero ws n
    simp only [wt, List.replicate_succ, List.zipWith_cons_cons, List.sum_cons] at ih ⊢
    rw [ih]; ring

theorem homWt_collect {ws : List ℕ} {d : ℕ} {p : Terms K} (hp : HomWt ws d p) : HomWt ws d (collect p) := by
  intro t ht
  obtain ⟨u, hu, e⟩ := mem_collect p t ht
  rw [← e]; exact hp u hu

theorem homWt_pmul {ws : List ℕ} {n d e : ℕ} {p q : Terms K} (ha : Arity n p) (hb : Arity n q) (hp : HomWt ws d p) (hq : HomWt ws e q) :
    HomWt ws (d + e) (pmul p q) := by
  apply homWt_collect
  intro t ht
  obtain ⟨s, hs, ht⟩ := List.mem_flatMap.1 ht
  obtain ⟨u, hu, rfl⟩ := List.mem_map.1 ht
  rw [wt_add _ _ _ (by rw [ha s hs, hb u hu]), hp s hs, hq u hu]

theorem homWt_pconst (ws : List ℕ) (n : ℕ) (c : K) : HomWt ws 0 (pconst n c) := by
  intro t ht
  unfold pconst at ht
  split at ht
  · simp at ht
  · rw [List.mem_singleton.1 ht]
    exact wt_zero ws n

theorem homWt_ppow {ws : List ℕ} {n d : ℕ} {p : Terms K} (ha : Arity n p) (hp : HomWt ws d p) : ∀ k, HomWt ws (d * k) (ppow n p k)
  | 0 => homWt_pconst ws n 1
  | k + 1 => homWt_pmul (arity_ppow ha k) ha (homWt_ppow ha hp k) hp

theorem homWt_fold {ws : List ℕ} {n : ℕ} : ∀ (A : List (Terms K)) (vs m : List ℕ) (e : ℕ) (q : Terms K), (∀ p ∈ A, Arity n p) →
    List.Forall₂ (fun v p => HomWt ws v p) vs A → Arity n q → HomWt ws e q →
    HomWt ws (e + wt vs m) ((List.zipWith (ppow n) A m).foldl pmul q)
  | [], vs, m, e, q, _, hv, _, hq => by
    cases hv
    simpa [wt] using hq
  | a :: A, vs, [], e, q, _, hv, _, hq => by
    simpa [wt] using hq
  | a :: A, vs, i :: m, e, q, hA, hv, ha, hq => by
    cases hv with
    | cons h1 h2 =>
      rename_i v vs
      have ha1 := hA a (List.mem_cons_self ..)
      have := homWt_fold A vs m (e + v * i) (pmul q (ppow n a i)) (fun p hp => hA p (List.mem_cons_of_mem _ hp)) h2
        (arity_pmul ha (arity_ppow ha1 i)) (homWt_pmul ha (arity_ppow ha1 i) hq (homWt_ppow ha1 h1 i))
      rw [List.zipWith_cons_cons, List.foldl_cons]
      have e1 : e + wt (v :: vs) (i :: m) = e + v * i + wt vs m := by
        simp only [wt, List.zipWith_cons_cons, List.sum_cons]; ring
      rw [e1]
      exact this

/-- Substituting polynomials of weights `vs` keeps the weight. -/
theorem homWt_compN {ws vs : List ℕ} {n d : ℕ} (A : List (Terms K)) (f : Terms K) (hA : ∀ p ∈ A, Arity n p)
    (hv : List.Forall₂ (fun v p => HomWt ws v p) vs A) (hf : HomWt vs d f) : HomWt ws d (compN n A f) := by
  unfold compN
  apply homWt_collect
  intro t ht
  obtain ⟨s, hs, ht⟩ := List.mem_flatMap.1 ht
  have h1 := homWt_fold A vs s.1 0 (pconst n 1) hA hv (arity_pconst _ _) (homWt_pconst ws n 1)
  have h2 := homWt_pmul (arity_pconst n s.2) (arity_pprod _ (arity_zipPow A s.1 hA)) (homWt_pconst ws n s.2) h1 t ht
  rw [h2, hf s hs]; ring

/-! ### The steps -/

theorem arity_shiftArgs : ∀ p ∈ (shiftArgs : List (Terms K)), Arity 4 p := by
  intro p hp t ht
  fin_cases hp <;> fin_cases ht <;> rfl

theorem arity_numArgs : ∀ p ∈ (numArgs : List (Terms K)), Arity 5 p := by
  intro p hp t ht
  fin_cases hp <;> fin_cases ht <;> rfl

theorem arity_kerArgs : ∀ p ∈ (kerArgs : List (Terms K)), Arity 4 p := by
  intro p hp t ht
  fin_cases hp <;> fin_cases ht <;> rfl

theorem shifted_homWt {d : ℕ} {f : Terms K} (hf : HomWt [1, 2, 3, 4] d f) : HomWt [1, 2, 3, 4] d (shifted f) := by
  refine homWt_compN shiftArgs f arity_shiftArgs ?_ hf
  refine .cons ?_ (.cons ?_ (.cons ?_ (.cons ?_ .nil))) <;> intro t ht <;> simp only [List.mem_cons, List.not_mem_nil, or_false] at ht
  · rw [ht]; rfl
  · rcases ht with rfl | rfl <;> rfl
  · rcases ht with rfl | rfl | rfl <;> rfl
  · rcases ht with rfl | rfl | rfl | rfl <;> rfl

theorem shifted_value (f : Terms K) (hf : Arity 4 f) (a b c d : K) :
    evalDict (shifted f) [p4 a b c d, cq a b c d, cr a b c d, cs a b c d] = evalDict f [p4 a b c d, q4 a b c d, r4 a b c d, s4 a b c d] := by
  have := compN_value shiftArgs f [p4 a b c d, cq a b c d, cr a b c d, cs a b c d] arity_shiftArgs hf
  unfold shifted
  rw [show (4 : ℕ) = [p4 a b c d, cq a b c d, cr a b c d, cs a b c d].length from rfl, this]
  have e : (shiftArgs.map fun p => evalDict p [p4 a b c d, cq a b c d, cr a b c d, cs a b c d]) = [p4 a b c d, q4 a b c d, r4 a b c d, s4 a b c d] := by
    simp only [shiftArgs, List.map_cons, List.map_nil, evalDict, evalMonom, List.zipWith_cons_cons, List.zipWith_nil_left, List.prod_cons, List.prod_nil,
      List.sum_cons, List.sum_nil, List.cons.injEq, and_true]
    refine ⟨?_, ?_, ?_, ?_⟩ <;> simp only [cq, cr, cs] <;> ring
  rw [e]

/-- The keys of `q^3 -> q, r^2 -> r` stay distinct. -/
theorem foldExp_keys {d : ℕ} {g : Terms K} (hg : Arity 4 g) (hw : HomWt [1, 2, 3, 4] d g) (hn : (dkeys g).Nodup) : (dkeys (foldExp (dehom g))).Nodup := by
  have e : dkeys (foldExp (dehom g)) = (dkeys g).map fun m => [m.getD 0 0, (2 * m.getD 0 0 + m.getD 1 0 + 2 * m.getD 3 0) / 3, (m.getD 0 0 + m.getD 2 0) / 2, m.getD 3 0] := by
    simp [dkeys, foldExp, dehom, List.map_map, Function.comp_def]
  rw [e]
  refine (List.nodup_map_iff_inj_on hn).2 ?_
  intro k hk k' hk' he
  obtain ⟨s, hs, rfl⟩ := List.mem_map.1 hk
  obtain ⟨u, hu, rfl⟩ := List.mem_map.1 hk'
  have w1 := hw s hs
  have w2 := hw u hu
  obtain ⟨ms, cs⟩ := s
  obtain ⟨mu, cu⟩ := u
  match ms, mu, hg _ hs, hg _ hu with
  | [i, j, k, l], [i', j', k', l'], _, _ =>
    simp only [wt, List.zipWith_cons_cons, List.zipWith_nil_left, List.sum_cons, List.sum_nil, List.getD_cons_zero, List.getD_cons_succ, List.cons.injEq, and_true] at w1 w2 he ⊢
    omega

theorem arity_fold (g : Terms K) : Arity 4 (foldExp (dehom g)) := by
  intro t ht
  obtain ⟨s, _, rfl⟩ := List.mem_map.1 ht
  rfl

theorem fold_value {d : ℕ} {g : Terms K} (hg : Arity 4 g) (hw : HomWt [1, 2, 3, 4] d g) (p q r s : K) (hq : q ≠ 0) (hr : r ≠ 0) :
    evalDict g [p, q, r, s] = q ^ (2 * d % 3) * r ^ (d % 2) * evalDict (foldExp (dehom g)) [p / (r * q ^ 2), q ^ 3, r ^ 2, s / q ^ 2] := by
  unfold foldExp dehom
  induction g with
  | nil => simp [evalDict_nil]
  | cons t g ih =>
    have ih := ih (fun s hs => hg s (List.mem_cons_of_mem _ hs)) fun s hs => hw s (List.mem_cons_of_mem _ hs)
    have h1 := hg t (List.mem_cons_self ..)
    have h2 := hw t (List.mem_cons_self ..)
    rw [List.map_cons, List.map_cons, evalDict_cons, evalDict_cons, ih, mul_add]
    congr 1
    obtain ⟨m, k⟩ := t
    match m, h1 with
    | [i, j, k, l], _ =>
      simp only [wt, List.zipWith_cons_cons, List.zipWith_nil_left, List.sum_cons, List.sum_nil] at h2
      simp only [evalMonom, List.zipWith_cons_cons, List.zipWith_nil_left, List.prod_cons, List.prod_nil, List.getD_cons_zero, List.getD_cons_succ]
      have e1 : (q ^ 3) ^ ((2 * i + j + 2 * l) / 3) * q ^ (2 * d % 3) = q ^ (2 * i + j + 2 * l) := by
        rw [← pow_mul, ← pow_add]; congr 1; omega
      have e2 : (r ^ 2) ^ ((i + k) / 2) * r ^ (d % 2) = r ^ (i + k) := by
        rw [← pow_mul, ← pow_add]; congr 1; omega
      have e3 : (p / (r * q ^ 2)) ^ i * (q ^ (2 * i + j + 2 * l) * (r ^ (i + k) * (s / q ^ 2) ^ l)) = p ^ i * (q ^ j * (r ^ k * s ^ l)) := by
        rw [div_pow, div_pow, mul_pow, ← pow_mul, ← pow_mul, pow_add, pow_add, pow_add]
        field_simp
      rw [mul_one, mul_one, ← e3, ← e1, ← e2]; ring

/-- The substituted form: `T**h` times the value. -/
theorem num_value (fo : Terms K) (hfo : Arity 4 fo) (x y z k1 k2 : K) (hy : y ≠ 0) (h1 : k1 ≠ 0) (h2 : k2 ≠ 0) :
    evalDict (compN 5 numArgs (homogenizeNew 4 fo)) [x, y, z, k1, k2] =
      (64 * y * k1 * k2) ^ totalDegree 4 fo * evalDict fo [64 * x * k1 / (k2 * y), -k2 / (64 * k1), y ^ 2 * z / (8 * k1), -z * (9 * y ^ 2 - k1) / (4 * k2)] := by
  have h := homogenizeNew_scale 4 fo [64 * x * k1 / (k2 * y), -k2 / (64 * k1), y ^ 2 * z / (8 * k1), -z * (9 * y ^ 2 - k1) / (4 * k2)] (64 * y * k1 * k2) rfl hfo
  rw [← h]
  have hc := compN_value numArgs (homogenizeNew 4 fo) [x, y, z, k1, k2] arity_numArgs (arity_homogenizeNew 4 fo hfo)
  rw [show (5 : ℕ) = [x, y, z, k1, k2].length from rfl, hc]
  congr 1
  simp only [numArgs, List.map_cons, List.map_nil, evalDict, evalMonom, List.zipWith_cons_cons, List.zipWith_nil_left, List.prod_cons, List.prod_nil,
    List.sum_cons, List.sum_nil, List.cons_append, List.nil_append, List.cons.injEq, and_true]
  refine ⟨?_, ?_, ?_, ?_, ?_⟩ <;> field_simp <;> ring

theorem minDegree_le (i : ℕ) (p : Terms K) (t : List ℕ × K) (ht : t ∈ p) : minDegree i p ≤ t.1.getD i 0 := by
  have hfold : ∀ (l : List ℕ) (a : ℕ), l.foldl min a ≤ a ∧ ∀ b ∈ l, l.foldl min a ≤ b := by
    intro l
    induction l with
    | nil => intro a; simp
    | cons y l ih =>
      intro a
      obtain ⟨h1, h2⟩ := ih (min a y)
      simp only [List.foldl_cons]
      refine ⟨h1.trans (min_le_left ..), fun b hb => ?_⟩
      rcases List.mem_cons.1 hb with rfl | h
      · exact h1.trans (min_le_right ..)
      · exact h2 b h
  cases p with
  | nil => simp at ht
  | cons s p =>
    unfold minDegree
    rcases List.mem_cons.1 ht with rfl | h
    · exact (hfold _ _).1
    · exact (hfold _ _).2 _ (List.mem_map.2 ⟨t, h, rfl⟩)

theorem divMins_value (p : Terms K) (hp : Arity 5 p) (x y z u v : K) :
    evalDict p [x, y, z, u, v] = x ^ minDegree 0 p * y ^ minDegree 1 p * z ^ minDegree 2 p * u ^ minDegree 3 p * v ^ minDegree 4 p * evalDict (divMins p) [x, y, z, u, v] := by
  have key : ∀ (n0 n1 n2 n3 n4 : ℕ) (l : Terms K), Arity 5 l → (∀ t ∈ l, n0 ≤ t.1.getD 0 0 ∧ n1 ≤ t.1.getD 1 0 ∧ n2 ≤ t.1.getD 2 0 ∧ n3 ≤ t.1.getD 3 0 ∧ n4 ≤ t.1.getD 4 0) →
      evalDict l [x, y, z, u, v] = x ^ n0 * y ^ n1 * z ^ n2 * u ^ n3 * v ^ n4 *
        evalDict (l.map fun t => ([t.1.getD 0 0 - n0, t.1.getD 1 0 - n1, t.1.getD 2 0 - n2, t.1.getD 3 0 - n3, t.1.getD 4 0 - n4], t.2)) [x, y, z, u, v] := by
    intro n0 n1 n2 n3 n4 l hl hm
    induction l with
    | nil => simp [evalDict_nil]
    | cons t l ih =>
      have ih := ih (fun s hs => hl s (List.mem_cons_of_mem _ hs)) fun s hs => hm s (List.mem_cons_of_mem _ hs)
      have h1 := hl t (List.mem_cons_self ..)
      have h2 := hm t (List.mem_cons_self ..)
      rw [List.map_cons, evalDict_cons, evalDict_cons, ih, mul_add]
      congr 1
      obtain ⟨m, c⟩ := t
      match m, h1 with
      | [i0, i1, i2, i3, i4], _ =>
        simp only [List.getD_cons_zero, List.getD_cons_succ] at h2
        obtain ⟨a0, a1, a2, a3, a4⟩ := h2
        simp only [evalMonom, List.zipWith_cons_cons, List.zipWith_nil_left, List.prod_cons, List.prod_nil, List.getD_cons_zero, List.getD_cons_succ]
        rw [← pow_sub_mul_pow x a0, ← pow_sub_mul_pow y a1, ← pow_sub_mul_pow z a2, ← pow_sub_mul_pow u a3, ← pow_sub_mul_pow v a4]
        ring
  exact key _ _ _ _ _ p hp fun t ht => ⟨minDegree_le 0 p t ht, minDegree_le 1 p t ht, minDegree_le 2 p t ht, minDegree_le 3 p t ht, minDegree_le 4 p t ht⟩

theorem arity_divMins (p : Terms K) : Arity 5 (divMins p) := by
  intro t ht
  obtain ⟨s, _, rfl⟩ := List.mem_map.1 ht
  rfl

theorem ker_value (p : Terms K) (hp : Arity 5 p) (x y z w : K) :
    evalDict (compN 4 kerArgs p) [x, y, z, w] = evalDict p [x, y, z, ker1V y z w, ker2V y z w] := by
  have hc := compN_value kerArgs p [x, y, z, w] arity_kerArgs hp
  rw [show (4 : ℕ) = [x, y, z, w].length from rfl, hc]
  congr 1
  simp only [kerArgs, List.map_cons, List.map_nil, evalDict, evalMonom, List.zipWith_cons_cons, List.zipWith_nil_left, List.prod_cons, List.prod_nil,
    List.sum_cons, List.sum_nil, List.cons.injEq, and_true, ker1V, ker2V]
  refine ⟨?_, ?_, ?_, ?_, ?_⟩ <;> ring

/-- The contract of `divmod` by `w + (y-z)**2`. -/
def DmOk4 (dm : Terms K → Terms K × Terms K) : Prop :=
  ∀ p : Terms K, IsPoly 4 p → (dm p).2 = [] → IsPoly 4 (dm p).1 ∧
    ∀ X Y Z W : K, evalDict p [X, Y, Z, W] = evalDict (dm p).1 [X, Y, Z, W] * ker1V Y Z W

theorem extractLoop_four (dm : Terms K → Terms K × Terms K) (vanish : Terms K → Bool) (hdm : DmOk4 dm) :
    ∀ (n d : ℕ) (p : Terms K) (r : ℕ × Terms K), IsPoly 4 p → extractLoop dm vanish n d p = some r →
      ∃ k, r.1 = d + k ∧ IsPoly 4 r.2 ∧ ∀ X Y Z W : K, evalDict p [X, Y, Z, W] = ker1V Y Z W ^ k * evalDict r.2 [X, Y, Z, W]
  | 0, _, _, _, _, h => by simp [extractLoop] at h
  | n + 1, d, p, r, ha, h => by
      unfold extractLoop at h
      by_cases h1 : (!vanish p) = true
      · rw [if_pos h1] at h
        obtain rfl : (d, p) = r := by simpa using h
        exact ⟨0, rfl, ha, fun _ _ _ _ => by simp⟩
      · rw [if_neg h1] at h
        by_cases h2 : (dm p).2.isEmpty = true
        · rw [if_pos h2] at h
          obtain ⟨h3, h4⟩ := hdm p ha (by simpa using h2)
          obtain ⟨k, hk, h5, h6⟩ := extractLoop_four dm vanish hdm n (d + 1) _ r h3 h
          refine ⟨k + 1, by omega, h5, fun X Y Z W => ?_⟩
          rw [h4, h6, pow_succ]; ring
        · rw [if_neg h2] at h
          obtain rfl : (d, p) = r := by simpa using h
          exact ⟨0, rfl, ha, fun _ _ _ _ => by simp⟩

theorem extractFactor_four (dm : Terms K → Terms K × Terms K) (vanish : Terms K → Bool) (hdm : DmOk4 dm)
    (n : ℕ) (p : Terms K) (r : ℕ × Terms K) (ha : IsPoly 4 p) (h : extractFactor dm vanish n p = some r) :
    IsPoly 4 r.2 ∧ ∀ X Y Z W : K, evalDict p [X, Y, Z, W] = ker1V Y Z W ^ r.1 * evalDict r.2 [X, Y, Z, W] := by
  unfold extractFactor at h
  by_cases h0 : p.isEmpty = true
  · rw [if_pos h0] at h
    obtain rfl : (0, p) = r := by simpa using h
    exact ⟨ha, fun _ _ _ _ => by simp⟩
  · rw [if_neg h0] at h
    obtain ⟨k, hk, h1, h2⟩ := extractLoop_four dm vanish hdm n 0 p r ha h
    rw [Nat.zero_add] at hk
    exact ⟨h1, hk ▸ h2⟩

/-- The value of the denominator. -/
def Den4.val (D : Den4 K) (a b c d : K) : K :=
  D.c * (sa4 a b c d * sd4 a b c d) ^ D.rd * fx a b c d ^ D.xd * fy a b c d ^ D.yd * fz a b c d ^ D.zd * fw a b c d ^ D.wd *
    (fw a b c d + (fy a b c d - fz a b c d) ^ 2) ^ D.kd / disc4 a b c d ^ D.dd * (sd4 a b c d / 32) ^ D.qd

theorem fourDegree_eq (d : ℕ) (f : Terms K) (ha : Arity 4 f) (hf : HomWt [1, 2, 3, 4] d f) (hne : f ≠ []) : fourDegree f = d := by
  cases f with
  | nil => exact absurd rfl hne
  | cons t f =>
    have h1 := ha t (List.mem_cons_self ..)
    have h2 := hf t (List.mem_cons_self ..)
    obtain ⟨m, c⟩ := t
    match m, h1 with
    | [i, j, k, l], _ =>
      simp only [wt, List.zipWith_cons_cons, List.zipWith_nil_left, List.sum_cons, List.sum_nil] at h2
      simp only [fourDegree, List.getD_cons_zero, List.getD_cons_succ]
      omega

/-- The bookkeeping of exponents. -/
theorem den_identity (Q r x y z w k1 k2 D P u F G E : K) (al be h m0 m1 m2 m3 m4 e : ℕ) (hQ : Q ≠ 0) (hx : x ≠ 0) (hy : y ≠ 0) (hz : z ≠ 0) (hw : w ≠ 0)
    (h1 : k1 ≠ 0) (h2 : k2 ≠ 0) (hD : D ≠ 0) (hP : P ≠ 0) (hu : u ≠ 0) (hk : 16 * D * k2 = w * y ^ 2 * z) (hr : r * x = P * y / 192)
    (hF : F = (-Q) ^ al * r ^ be * G) (hG : (64 * y * k1 * k2) ^ h * G = x ^ m0 * y ^ m1 * z ^ m2 * k1 ^ m3 * k2 ^ m4 * (u * (k1 ^ e * E))) :
    F * (u⁻¹ * ((192 : K) ^ (-(be : ℤ)))⁻¹ * (2 : K) ^ (6 * (h : ℤ) - 4 * (h - m4)) * P ^ (-(be : ℤ)) * x ^ (0 - (m0 : ℤ) - -(be : ℤ)) *
      y ^ ((h : ℤ) - m1 + 2 * (h - m4) + -(be : ℤ)) * z ^ (0 - (m2 : ℤ) + (h - m4)) * w ^ ((h : ℤ) - m4) * k1 ^ ((h : ℤ) - m3 - e) / D ^ ((h : ℤ) - m4) * Q ^ (-(al : ℤ))) =
      (-1) ^ al * E := by
  have hr' : r = P * y / (192 * x) := by
    rw [eq_div_iff (by positivity)]
    linear_combination 192 * hr
  have hk' : k2 = w * y ^ 2 * z / (16 * D) := by
    rw [eq_div_iff (by positivity)]
    linear_combination hk
  have hG' : G = x ^ m0 * y ^ m1 * z ^ m2 * k1 ^ m3 * k2 ^ m4 * (u * (k1 ^ e * E)) / (64 * y * k1 * k2) ^ h := by
    rw [eq_div_iff (by positivity)]
    linear_combination hG
  have c1 : (6 * (h : ℤ) - 4 * (h - m4)) = ((2 * h + 4 * m4 : ℕ) : ℤ) := by push_cast; ring
  have c2 : (0 - (m0 : ℤ) - -(be : ℤ)) = (be : ℤ) - (m0 : ℤ) := by ring
  have c3 : ((h : ℤ) - m1 + 2 * (h - m4) + -(be : ℤ)) = ((3 * h : ℕ) : ℤ) - ((m1 + 2 * m4 + be : ℕ) : ℤ) := by push_cast; ring
  have c4 : (0 - (m2 : ℤ) + (h - m4)) = (h : ℤ) - ((m2 + m4 : ℕ) : ℤ) := by push_cast; ring
  have c5 : ((h : ℤ) - m3 - e) = (h : ℤ) - ((m3 + e : ℕ) : ℤ) := by push_cast; ring
  rw [c1, c2, c3, c4, c5, zpow_sub₀ hx, zpow_sub₀ hy, zpow_sub₀ hz, zpow_sub₀ hw, zpow_sub₀ h1, zpow_sub₀ hD]
  simp only [zpow_natCast, zpow_neg, inv_inv]
  have e64 : (64 : K) = 2 ^ 6 := by norm_num
  have e16 : (16 : K) = 2 ^ 4 := by norm_num
  rw [hF, hG', hk', hr', neg_pow Q al, e64, e16]
  simp only [div_pow, mul_pow, ← pow_mul, pow_add]
  field_simp
  ring

/-- The four values substituted into the folded polynomial. -/
theorem four_args {p q r s x y z k1 k2 S1 S2 : K} (hr : r ≠ 0) (hq : q ≠ 0) (hy : y ≠ 0) (h1 : k1 ≠ 0) (h2 : k2 ≠ 0) (k1r : 8 * k1 * r ^ 2 = y ^ 2 * z)
    (k2r : k2 * r ^ 2 = -8 * q ^ 3 * (y ^ 2 * z)) (hxr : r * x = S1 * S2 * y / 192) (hS1 : S1 = 6 * p) (hS2 : S2 = -32 * q) (hz : z = 72 * r ^ 2 - 256 * q * s) :
    p / (r * q ^ 2) = 64 * x * k1 / (k2 * y) ∧ q ^ 3 = -k2 / (64 * k1) ∧ r ^ 2 = y ^ 2 * z / (8 * k1) ∧ s / q ^ 2 = -z * (9 * y ^ 2 - k1) / (4 * k2) := by
  rw [hS1, hS2] at hxr
  refine ⟨?_, ?_, ?_, ?_⟩
  · rw [div_eq_div_iff (by positivity) (by positivity)]
    apply mul_right_cancel₀ (pow_ne_zero 2 hr)
    linear_combination p * y * k2r - 8 * q ^ 2 * x * r * k1r - 8 * q ^ 2 * (y ^ 2 * z) * hxr
  · rw [eq_div_iff (by positivity)]
    apply mul_right_cancel₀ (pow_ne_zero 2 hr)
    linear_combination 8 * q ^ 3 * k1r + k2r
  · rw [eq_div_iff (by positivity)]
    linear_combination k1r
  · rw [div_eq_div_iff (by positivity) (by positivity)]
    apply mul_right_cancel₀ (pow_ne_zero 2 hr)
    linear_combination 4 * s * k2r - q ^ 2 * z / 8 * k1r - q ^ 2 * y ^ 2 * z / 8 * hz

/-- **C98.** Numerator over denominator is the polynomial, wherever the new variables are defined and not zero. -/
theorem transFour_value (dm : Terms K → Terms K × Terms K) (vanish : Terms K → Bool) (content : Terms K → K) (hdm : DmOk4 dm)
    (hcon : ∀ p, IsPoly 4 p → p ≠ [] → content p ≠ 0) (n deg : ℕ) (f : Terms K) (hf : HomWt [1, 2, 3, 4] deg f) (ha : Arity 4 f)
    (R : Terms K × Den4 K) (h : transFour dm vanish content n f = some R) (a b c d : K) (hD : disc4 a b c d ≠ 0) (hr : rr4 a b c d ≠ 0) (hp : p4 a b c d ≠ 0) :
    R.2.val a b c d ≠ 0 ∧ evalDict f [p4 a b c d, q4 a b c d, r4 a b c d, s4 a b c d] =
      evalDict R.1 [fx a b c d, fy a b c d, fz a b c d, fw a b c d] / R.2.val a b c d := by
  have hx := fx_ne hD hr hp
  have hy := (fy_pos hD).ne'
  have hz := (fz_pos hD hr).ne'
  have hw := (fw_pos hD hr).ne'
  have hs := (sd4_pos hD).ne'
  have hk1 : ker1V (fy a b c d) (fz a b c d) (fw a b c d) ≠ 0 := by
    rw [← fk_eq a b c d hr hy]
    exact (fk_pos hD hr).ne'
  have hkd := ker2_disc a b c d hr hy
  have hk2 : ker2V (fy a b c d) (fz a b c d) (fw a b c d) ≠ 0 := by
    intro h0
    rw [h0, mul_zero] at hkd
    exact (mul_ne_zero (mul_ne_zero hw (pow_ne_zero 2 hy)) hz) hkd.symm
  have hcr : cr a b c d ≠ 0 := fun h => hr (by rw [rr4_eq, h, mul_zero])
  have hcq : cq a b c d ≠ 0 := fun h => hs (by rw [sd4_eq, h, mul_zero])
  have hsa : sa4 a b c d ≠ 0 := by
    rw [sa4_eq]; positivity
  unfold transFour at h
  dsimp only at h
  split at h
  · simp at h
  rename_i hne4
  have hne : f ≠ [] := by
    rintro rfl
    exact hne4 rfl
  rw [fourDegree_eq deg f ha hf hne] at h
  set fo := foldExp (dehom (shifted f)) with hfo
  set hh := totalDegree 4 fo with hhh
  set num := compN 5 numArgs (homogenizeNew 4 fo) with hnum
  set num4 := compN 4 kerArgs (divMins num) with hnum4
  set u := (if content num4 < 0 then -content num4 else content num4) with hu
  have hip : IsPoly 4 num4 := isPoly_compN kerArgs _ arity_kerArgs
  have hu0 : u ≠ 0 := by
    have := hcon num4 hip hne4
    rw [hu]
    split
    · exact neg_ne_zero.2 this
    · exact this
  obtain ⟨e, he, rfl⟩ := Option.map_eq_some_iff.1 h
  have hfac := extractFactor_four dm vanish hdm n _ e (isPoly_pmul (arity_pconst 4 _) hip.length) he
  have hE := hfac.2 (fx a b c d) (fy a b c d) (fz a b c d) (fw a b c d)
  rw [evalDict_pmul _ _ [fx a b c d, fy a b c d, fz a b c d, fw a b c d] (arity_pconst 4 _) hip.length, evalDict_pconst, hnum4, ker_value _ (arity_divMins num)] at hE
  have hdiv := divMins_value num (arity_compN numArgs _ arity_numArgs) (fx a b c d) (fy a b c d) (fz a b c d) (ker1V (fy a b c d) (fz a b c d) (fw a b c d))
    (ker2V (fy a b c d) (fz a b c d) (fw a b c d))
  have hnv := num_value fo (arity_fold _) (fx a b c d) (fy a b c d) (fz a b c d) (ker1V (fy a b c d) (fz a b c d) (fw a b c d))
    (ker2V (fy a b c d) (fz a b c d) (fw a b c d)) hy hk1 hk2
  have hF := fold_value (g := shifted f) (arity_compN shiftArgs f arity_shiftArgs) (shifted_homWt hf) (p4 a b c d) (cq a b c d) (cr a b c d) (cs a b c d) hcq hcr
  have k1r := ker1_r a b c d hr hy
  have k2r := ker2_r a b c d hr hy
  obtain ⟨a1, a2, a3, a4⟩ := four_args hcr hcq hy hk1 hk2 (ker1_r a b c d hr hy) (ker2_r a b c d hr hy) (fx_r a b c d hr) (sa4_eq a b c d) (sd4_eq a b c d) (fz_eq a b c d hr hy)
  rw [a1, a2, a3, a4] at hF
  have hF' : evalDict f [p4 a b c d, q4 a b c d, r4 a b c d, s4 a b c d] = evalDict (shifted f) [p4 a b c d, cq a b c d, cr a b c d, cs a b c d] := (shifted_value f ha a b c d).symm
  have hQ : sd4 a b c d / 32 ≠ 0 := div_ne_zero hs (by norm_num)
  have hq' : cq a b c d = -(sd4 a b c d / 32) := by
    rw [sd4_eq]; ring
  rw [← hF', hq'] at hF
  have hG := hnv.symm.trans hdiv
  have hE' : evalDict (divMins num) [fx a b c d, fy a b c d, fz a b c d, ker1V (fy a b c d) (fz a b c d) (fw a b c d), ker2V (fy a b c d) (fz a b c d) (fw a b c d)] =
      u * (ker1V (fy a b c d) (fz a b c d) (fw a b c d) ^ e.1 * evalDict e.2 [fx a b c d, fy a b c d, fz a b c d, fw a b c d]) := by
    rw [← hE, ← mul_assoc, mul_inv_cancel₀ hu0, one_mul]
  rw [hE'] at hG
  have key := den_identity (sd4 a b c d / 32) (cr a b c d) (fx a b c d) (fy a b c d) (fz a b c d) (fw a b c d) (ker1V (fy a b c d) (fz a b c d) (fw a b c d))
    (ker2V (fy a b c d) (fz a b c d) (fw a b c d)) (disc4 a b c d) (sa4 a b c d * sd4 a b c d) u _ _ _ (2 * deg % 3) (deg % 2) hh _ _ _ _ _ e.1 hQ hx hy hz hw hk1 hk2 hD
    (mul_ne_zero hsa hs) hu0 hkd (fx_r a b c d hr) hF hG
  have hsign : evalDict (if -((2 * deg % 3 : ℕ) : ℤ) % 2 = 1 then pneg e.2 else e.2) [fx a b c d, fy a b c d, fz a b c d, fw a b c d] =
      (-1) ^ (2 * deg % 3) * evalDict e.2 [fx a b c d, fy a b c d, fz a b c d, fw a b c d] := by
    have hlt : 2 * deg % 3 < 3 := Nat.mod_lt _ (by norm_num)
    generalize 2 * deg % 3 = al at hlt
    interval_cases al
    · rw [if_neg (by decide), pow_zero, one_mul]
    · rw [if_pos (by decide), evalDict_pneg, pow_one, neg_one_mul]
    · rw [if_neg (by decide)]; ring
  have hval : ∀ v : K, v ≠ 0 → evalDict f [p4 a b c d, q4 a b c d, r4 a b c d, s4 a b c d] * v = (-1) ^ (2 * deg % 3) * evalDict e.2 [fx a b c d, fy a b c d, fz a b c d, fw a b c d] →
      v ≠ 0 ∧ evalDict f [p4 a b c d, q4 a b c d, r4 a b c d, s4 a b c d] =
        evalDict (if -((2 * deg % 3 : ℕ) : ℤ) % 2 = 1 then pneg e.2 else e.2) [fx a b c d, fy a b c d, fz a b c d, fw a b c d] / v := by
    intro v hv h
    exact ⟨hv, by rw [hsign, eq_div_iff hv, h]⟩
  refine hval _ ?_ key
  have z192 : ((192 : K) ^ (-((deg % 2 : ℕ) : ℤ))) ≠ 0 := zpow_ne_zero _ (by norm_num)
  exact mul_ne_zero (div_ne_zero (mul_ne_zero (mul_ne_zero (mul_ne_zero (mul_ne_zero (mul_ne_zero (mul_ne_zero (mul_ne_zero (mul_ne_zero (inv_ne_zero hu0) (inv_ne_zero z192))
    (zpow_ne_zero _ two_ne_zero)) (zpow_ne_zero _ (mul_ne_zero hsa hs))) (zpow_ne_zero _ hx)) (zpow_ne_zero _ hy)) (zpow_ne_zero _ hz)) (zpow_ne_zero _ hw)) (zpow_ne_zero _ hk1))
    (zpow_ne_zero _ hD)) (zpow_ne_zero _ hQ)

end Comp

/-! ### Concrete cases, and the sign of the denominator -/

section Concrete

/-- A division that never succeeds, the test at `(5,3,1,-4)`, and the first coefficient for the content: enough for the examples. -/
def exDm4 (p : Terms ℚ) : Terms ℚ × Terms ℚ := ([], p)
def exVan4 (p : Terms ℚ) : Bool := decide (evalDict p [5, 3, 1, -4] = 0)
def exContent : Terms ℚ → ℚ
  | [] => 0
  | t :: _ => t.2

theorem exDm4_ok : DmOk4 exDm4 := by
  intro p _ h
  have h : p = [] := h
  subst h
  exact ⟨⟨List.nodup_nil, by simp [exDm4], by simp [exDm4]⟩, fun X Y Z W => by simp [exDm4, evalDict_nil]⟩

theorem exContent_ok : ∀ p : Terms ℚ, IsPoly 4 p → p ≠ [] → exContent p ≠ 0
  | [], _, h => absurd rfl h
  | t :: _, h, _ => h.ne_zero t (List.mem_cons_self ..)

/-- `S[(a-b)**2]/4 = 3*p**2 - 8*q` becomes `1` over `(1/8)*(-q2)**(-1)`. -/
example : (transFour exDm4 exVan4 exContent 5 [([2, 0, 0, 0], 3), ([0, 1, 0, 0], -8)]).map (fun R => (R.1, R.2.c, R.2.qd, R.2.yd)) =
    some ([([0, 0, 0, 0], 1)], 1 / 8, -1, 0) := by decide +kernel

/-- The elementary polynomial `s` gives a nonconstant numerator. -/
example : ((transFour exDm4 exVan4 exContent 5 [([0, 0, 0, 1], 1)]).map fun R => decide (1 < R.1.length)) = some true := by decide +kernel

/-- **C98.** The denominator, which is documented to be nonnegative, may be negative: for `a + b + c + d` the numerator is `1`, so
the denominator has the sign of the sum. -/
theorem denominator_negative : ∃ R, transFour exDm4 exVan4 exContent 5 [([1, 0, 0, 0], 1)] = some R ∧ R.1 = [([0, 0, 0, 0], 1)] ∧
    R.2.val (-1) (-2) (-4) (-8) < 0 := by
  have h : (transFour exDm4 exVan4 exContent 5 [([1, 0, 0, 0], 1)]).map Prod.fst = some [([0, 0, 0, 0], 1)] := by decide +kernel
  obtain ⟨R, hR, h1⟩ := Option.map_eq_some_iff.1 h
  refine ⟨R, hR, h1, ?_⟩
  obtain ⟨h2, h3⟩ := transFour_value exDm4 exVan4 exContent exDm4_ok exContent_ok 5 1 _ (by simp [HomWt, wt]) (by simp [Arity]) R hR (-1) (-2) (-4) (-8)
    (by norm_num [disc4]) (by norm_num [rr4]) (by norm_num [p4])
  rw [h1] at h3
  simp only [evalDict, evalMonom, List.map_cons, List.map_nil, List.zipWith_cons_cons, List.zipWith_nil_left, List.prod_cons, List.prod_nil, List.sum_cons, List.sum_nil,
    pow_zero, pow_one, mul_one, add_zero, p4] at h3
  by_contra hn
  have : 0 < R.2.val (-1) (-2) (-4) (-8) := lt_of_le_of_ne (not_lt.1 hn) h2.symm
  have h4 := inv_pos.2 this
  norm_num at h3
  rw [← h3] at h4
  norm_num at h4

/-- The same for three variables: the real method writes `a + b + c` as `1` over `(a + b + c)**(-1)`. -/
theorem denominator_negative_three : transform ratArith 20 .real [([1, 0, 0], 1)] = some ([([0, 0, 0], 1)], -1, 0) := by decide +kernel

/-- The zero polynomial has no answer of this form: its content is zero. -/
example : transFour exDm4 exVan4 exContent 5 [] = none := rfl

end Concrete

end Verif.SymSOS
