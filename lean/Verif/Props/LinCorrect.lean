import Verif.Model.LinCorrect
import Verif.Props.Rationalize
import Verif.Proofs.SymEval
import Mathlib.Data.Rat.Cast.Order

/-!
# C30: an accepted weight vector is an exact identity
-/

namespace Verif.LinSOS

open Verif TermsPoly MonoMgr Coeff

variable {K : Type*}

/-! ### Linear combinations of symmetric sums -/

/-- Scaling a list of terms. -/
def scale [Mul K] (v : K) (p : List (List ℕ × K)) : List (List ℕ × K) := p.map fun t => (t.1, v * t.2)

theorem evalDict_scale [CommSemiring K] (v : K) (p : List (List ℕ × K)) (x : List K) : evalDict (scale v p) x = v * evalDict p x := by
  induction p with
  | nil => simp [scale, evalDict_nil]
  | cons t p ih =>
    have : scale v (t :: p) = (t.1, v * t.2) :: scale v p := rfl
    rw [this, evalDict_cons, evalDict_cons, ih]; ring

theorem symEval_scale [CommSemiring K] [Inhabited K] (G : List (List ℕ)) (v : K) (p : List (List ℕ × K)) (x : List K) :
    symEval G (scale v p) x = v * symEval G p x := by
  unfold symEval
  rw [← List.sum_map_mul_left]
  congr 1
  apply List.map_congr_left
  intro g _
  exact evalDict_scale _ _ _

theorem symEval_nil [CommSemiring K] [Inhabited K] (G : List (List ℕ)) (x : List K) : symEval G [] x = 0 := by
  unfold symEval
  apply List.sum_eq_zero
  intro y hy
  obtain ⟨g, _, rfl⟩ := List.mem_map.1 hy
  simp [evalDict]

theorem coeffSum_append [AddCommMonoid K] (p q : List (List ℕ × K)) (m : List ℕ) : coeffSum (p ++ q) m = coeffSum p m + coeffSum q m := by
  simp [coeffSum]

theorem permutePoly_append (g : List ℕ) (p q : List (List ℕ × K)) : permutePoly g (p ++ q) = permutePoly g p ++ permutePoly g q := by
  simp [permutePoly]

theorem coeffSum_scale [CommSemiring K] (g : List ℕ) (v : K) (p : List (List ℕ × K)) (m : List ℕ) :
    coeffSum (permutePoly g (scale v p)) m = v * coeffSum (permutePoly g p) m := by
  unfold coeffSum permutePoly scale
  rw [List.map_map, List.map_map, List.map_map, ← List.sum_map_mul_left]
  congr 1
  apply List.map_congr_left
  intro t _
  simp only [Function.comp]
  split <;> simp

/-- The combination `Σ y_k p_k` as a list of terms. -/
def combine [Mul K] : List K → List (List (List ℕ × K)) → List (List ℕ × K)
  | v :: y, p :: ps => scale v p ++ combine y ps
  | _, _ => []

theorem symEval_combine [CommSemiring K] [Inhabited K] (G : List (List ℕ)) (x : List K) : ∀ (y : List K) (ps : List (List (List ℕ × K))),
    symEval G (combine y ps) x = (List.zipWith (fun v p => v * symEval G p x) y ps).sum
  | v :: y, p :: ps => by
    rw [combine, symEval_append, symEval_scale, symEval_combine G x y ps, List.zipWith_cons_cons, List.sum_cons]
  | [], _ => by simp [combine, symEval_nil]
  | _ :: _, [] => by simp [combine, symEval_nil]

theorem coeff_combine [CommSemiring K] (G : List (List ℕ)) (m : List ℕ) : ∀ (y : List K) (ps : List (List (List ℕ × K))),
    (G.map fun g => coeffSum (permutePoly g (combine y ps)) m).sum =
      (List.zipWith (fun v p => v * (G.map fun g => coeffSum (permutePoly g p) m).sum) y ps).sum
  | v :: y, p :: ps => by
    have : (G.map fun g => coeffSum (permutePoly g (combine (v :: y) (p :: ps))) m) =
        G.map fun g => v * coeffSum (permutePoly g p) m + coeffSum (permutePoly g (combine y ps)) m := by
      apply List.map_congr_left
      intro g _
      rw [combine, permutePoly_append, coeffSum_append, coeffSum_scale]
    rw [this, List.sum_map_add, List.sum_map_mul_left, coeff_combine G m y ps, List.zipWith_cons_cons, List.sum_cons]
  | [], _ => by simp [combine, coeffSum, permutePoly]
  | _ :: _, [] => by simp [combine, coeffSum, permutePoly]

theorem mem_combine [Mul K] : ∀ (y : List K) (ps : List (List (List ℕ × K))) (t : List ℕ × K), t ∈ combine y ps → ∃ p ∈ ps, ∃ u ∈ p, u.1 = t.1
  | v :: y, p :: ps, t, ht => by
    rw [combine, List.mem_append] at ht
    rcases ht with ht | ht
    · obtain ⟨u, hu, rfl⟩ := List.mem_map.1 ht
      exact ⟨p, List.mem_cons_self, u, hu, rfl⟩
    · obtain ⟨q, hq, r⟩ := mem_combine y ps t ht
      exact ⟨q, List.mem_cons_of_mem _ hq, r⟩
  | [], _, _, ht => by simp [combine] at ht
  | _ :: _, [], _, ht => by simp [combine] at ht

theorem totalDegree_of_homDeg [Zero K] {n d : ℕ} {p : List (List ℕ × K)} (hp : HomDeg d p) (hne : p ≠ []) : totalDegree n p = d := by
  unfold totalDegree repTerms
  have he : p.isEmpty = false := by cases p <;> simp_all
  rw [he]
  simp only [Bool.false_eq_true, if_false]
  obtain ⟨t, ht⟩ := List.exists_mem_of_ne_nil p hne
  obtain ⟨h1, h2, h3⟩ := foldl_max_le (p.map fun t => t.1.sum) 0
  have h4 := h1 t.1.sum (List.mem_map_of_mem ht)
  rw [hp t ht] at h4
  rcases h3 with h3 | h3
  · omega
  · obtain ⟨u, hu, e⟩ := List.mem_map.1 h3
    rw [← e]; exact hp u hu

/-- If the weighted rows of coefficients cancel, the weighted symmetric sums cancel at every point. -/
theorem rows_identity [CommRing K] [Inhabited K] (M : MonoMgr) (hM : M.Valid) (hhom : M.hom = true) (d L : ℕ) (ps : List (List (List ℕ × K)))
    (hdeg : ∀ p ∈ ps, Arity M.nvars p ∧ HomDeg d p) (hL : ∀ p ∈ ps, (M.arraylize p true).length = L) (y : List K)
    (h : ∀ i < L, (List.zipWith (fun r v => r.getD i 0 * v) (ps.map fun p => M.arraylize p true) y).sum = 0) (x : List K) (hx : x.length = M.nvars) :
    (List.zipWith (fun v p => v * symEval M.elements p x) y ps).sum = 0 := by
  by_cases hall : ∀ p ∈ ps, p = []
  · apply List.sum_eq_zero
    intro z hz
    obtain ⟨i, hi, rfl⟩ := List.mem_iff_getElem.1 hz
    simp only [List.getElem_zipWith]
    rw [hall _ (List.getElem_mem _), symEval_nil, mul_zero]
  · push Not at hall
    obtain ⟨p0, hp0, hne⟩ := hall
    have hLd : L = (M.invMonoms d).length := by
      rw [← hL p0 hp0, (arraylize_expand_cyc M p0).1, totalDegree_of_homDeg (hdeg p0 hp0).2 hne]
    rw [← symEval_combine]
    refine symEval_eq_zero M hM hhom _ d ?_ ?_ x hx
    · intro t ht
      obtain ⟨p, hp, u, hu, e⟩ := mem_combine _ _ _ ht
      rw [← e]
      exact ⟨(hdeg p hp).1 u hu, (hdeg p hp).2 u hu⟩
    · intro s hs
      rw [coeff_combine]
      obtain ⟨i, hi, rfl⟩ := List.mem_iff_getElem.1 hs
      have := h i (by rw [hLd]; exact hi)
      rw [← this]
      congr 1
      rw [List.zipWith_map_left, List.zipWith_comm]
      apply List.ext_getElem (by simp)
      intro k h1 h2
      simp only [List.getElem_zipWith]
      rw [mul_comm]
      congr 1
      have hk : ps[k]'(by simp at h1; omega) ∈ ps := List.getElem_mem _
      generalize hq : ps[k]'(by simp at h1; omega) = q at hk
      by_cases hq0 : q = []
      · subst hq0
        have h0 : M.arraylize ([] : List (List ℕ × K)) true = List.replicate (M.arraylize ([] : List (List ℕ × K)) true).length 0 := by
          apply List.ext_getElem (by simp)
          intro j hj _
          rw [List.getElem_replicate]
          have hj' := hj
          rw [(arraylize_expand_cyc M []).1] at hj'
          have := (arraylize_expand_cyc (K := K) M []).2 j _ (List.getElem?_eq_getElem hj')
          rw [List.getD_eq_getElem?_getD, List.getElem?_eq_getElem hj, Option.getD_some] at this
          rw [this]
          apply List.sum_eq_zero
          intro z hz
          obtain ⟨g, _, rfl⟩ := List.mem_map.1 hz
          simp [coeffSum, permutePoly]
        have e1 : (M.elements.map fun g => coeffSum (permutePoly g ([] : List (List ℕ × K))) (M.invMonoms d)[i]).sum = 0 := by
          apply List.sum_eq_zero
          intro z hz
          obtain ⟨g, _, rfl⟩ := List.mem_map.1 hz
          simp [coeffSum, permutePoly]
        rw [e1, h0, List.getD_eq_getElem?_getD, List.getElem?_replicate]
        split <;> rfl
      · have h3 := (arraylize_expand_cyc M q).2 i
        rw [totalDegree_of_homDeg (hdeg q hk).2 hq0] at h3
        rw [h3 _ (List.getElem?_eq_getElem hi)]

/-! ### The matrix -/

theorem chunks_flatten {α : Type*} (c : ℕ) : ∀ l : List (List α), (∀ r ∈ l, r.length = c) → chunks c l.length l.flatten = l
  | [], _ => rfl
  | r :: l, h => by
    have hr := h r List.mem_cons_self
    rw [List.length_cons, List.flatten_cons, chunks, List.take_left' hr, List.drop_left' hr,
      chunks_flatten c l fun q hq => h q (List.mem_cons_of_mem _ hq)]

theorem flatten_length {α : Type*} (c : ℕ) : ∀ l : List (List α), (∀ r ∈ l, r.length = c) → l.flatten.length = l.length * c
  | [], _ => by simp
  | r :: l, h => by
    rw [List.flatten_cons, List.length_append, h r List.mem_cons_self, flatten_length c l fun q hq => h q (List.mem_cons_of_mem _ hq),
      List.length_cons]
    ring

/-- When all coefficient vectors have one length, the matrix has them as rows. -/
theorem basisAsMatrix_eq [Ring K] [DecidableEq K] (M : MonoMgr) (f : List (List ℕ × K)) (basis : List (Base K)) (L : ℕ)
    (hL : ∀ b ∈ basis, (M.arraylize (b.asPoly f) true).length = L) (rows : List (List K)) (h : basisAsMatrix M f basis = .ok rows) :
    rows = basis.map (fun b => M.arraylize (b.asPoly f) true) ∧ (rows.headD []).length = L ∧ basis ≠ [] := by
  cases basis with
  | nil => simp [basisAsMatrix] at h
  | cons b bs =>
    have hall : ∀ r ∈ (b :: bs).map (fun b => M.arraylize (b.asPoly f) true), r.length = L := by
      intro r hr
      obtain ⟨c, hc, rfl⟩ := List.mem_map.1 hr
      exact hL c hc
    have hb := hL b List.mem_cons_self
    unfold basisAsMatrix at h
    simp only [List.map_cons] at h hall ⊢
    rw [if_pos (by rw [hb]; exact flatten_length L _ hall), hb, chunks_flatten L _ hall] at h
    have e := Except.ok.inj h
    subst e
    exact ⟨rfl, by simpa using hb, by simp⟩

theorem product_eq [Semiring K] (width w : ℕ) (rows : List (List K)) (reg y : List K) (h : product width rows reg y = target w) :
    width = w ∧ (∀ i < width, (List.zipWith (fun r v => r.getD i 0 * v) rows y).sum = 0) ∧ (List.zipWith (· * ·) reg y).sum = 1 := by
  unfold product target at h
  have hw : width = w := by
    have := congrArg List.length h
    simpa using this
  subst hw
  have h2 := List.append_inj h (by simp)
  refine ⟨rfl, fun i hi => ?_, by simpa using h2.2⟩
  have := congrArg (fun l => l[i]?) h2.1
  simpa [hi] using this

/-! ### The regularizer counts the multipliers -/

/-- The sum of the weights of the multipliers. -/
def multWeight [AddMonoid K] (y : List K) (basis : List (Base K)) : K :=
  (List.zipWith (fun v b => if b.isMult then v else 0) y basis).sum

/-- The basis lists the tangents first and ends with `num` multipliers. -/
def Tailed (basis : List (Base K)) (num : ℕ) : Prop :=
  num ≤ basis.length ∧ (∀ b ∈ basis.take (basis.length - num), b.isMult = false) ∧ ∀ b ∈ basis.drop (basis.length - num), b.isMult = true

theorem tailed_append (ts ms : List (Base K)) (ht : ∀ b ∈ ts, b.isMult = false) (hm : ∀ b ∈ ms, b.isMult = true) : Tailed (ts ++ ms) ms.length := by
  refine ⟨by simp, ?_, ?_⟩
  · rw [List.length_append, Nat.add_sub_cancel, List.take_left' rfl]; exact ht
  · rw [List.length_append, Nat.add_sub_cancel, List.drop_left' rfl]; exact hm

theorem tailed_split {basis : List (Base K)} {num : ℕ} (h : Tailed basis num) : ∃ ts ms, basis = ts ++ ms ∧ ms.length = num ∧
    (∀ b ∈ ts, b.isMult = false) ∧ ∀ b ∈ ms, b.isMult = true :=
  ⟨_, _, (List.take_append_drop (basis.length - num) basis).symm, by rw [List.length_drop]; have := h.1; omega, h.2.1, h.2.2⟩

theorem reg_sum [CommRing K] (basis : List (Base K)) (num : ℕ) (h : Tailed basis num) (y reg : List K) (hy : y.length = basis.length)
    (hr : regularizer (K := K) basis.length num = .ok reg) : (List.zipWith (· * ·) reg y).sum = multWeight y basis := by
  obtain ⟨ts, ms, rfl, rfl, ht, hm⟩ := tailed_split h
  unfold regularizer at hr
  rw [if_pos h.1] at hr
  have e := Except.ok.inj hr
  subst e
  unfold multWeight
  congr 1
  apply List.ext_getElem (by simp [Nat.min_comm])
  intro k h1 h2
  simp only [List.getElem_zipWith]
  by_cases hk : k < ts.length
  · rw [List.getElem_append_left (by simpa using hk), List.getElem_replicate, zero_mul, List.getElem_append_left hk,
      if_neg (by rw [ht _ (List.getElem_mem _)]; simp)]
  · rw [List.getElem_append_right (by simp; omega), List.getElem_replicate, one_mul, List.getElem_append_right (by omega),
      if_pos (hm _ (List.getElem_mem _))]

theorem filterZeroY_tailed [Zero K] [DecidableEq K] (y : List K) (basis : List (Base K)) (num : ℕ) (h : Tailed basis num) (hn : num ≠ 0)
    (hy : y.length = basis.length) : Tailed (filterZeroY y basis num).2.1 (filterZeroY y basis num).2.2 := by
  obtain ⟨ts, ms, rfl, rfl, ht, hm⟩ := tailed_split h
  unfold filterZeroY pySuffix
  simp only [if_neg hn]
  have hlen : y.length - ms.length = ts.length := by rw [hy]; simp
  rw [hlen]
  have hsplit : y.zip (ts ++ ms) = (y.take ts.length).zip ts ++ (y.drop ts.length).zip ms := by
    conv_lhs => rw [← List.take_append_drop ts.length y]
    rw [List.zip_append (by rw [List.length_take]; simp at hy; omega)]
  rw [hsplit, List.filter_append, List.map_append]
  have hcount : (y.drop ts.length).countP (fun v => decide (v ≠ 0)) =
      ((((y.drop ts.length).zip ms).filter fun t => decide (t.1 ≠ 0)).map Prod.snd).length := by
    rw [List.length_map, ← List.countP_eq_length_filter]
    have hl : (y.drop ts.length).length ≤ ms.length := by rw [List.length_drop, hy]; simp
    conv_lhs => rw [← List.map_fst_zip hl]
    rw [List.countP_map]
    rfl
  rw [hcount]
  apply tailed_append
  · intro b hb
    obtain ⟨t, ht2, rfl⟩ := List.mem_map.1 hb
    exact ht _ (List.of_mem_zip (List.mem_filter.1 ht2).1).2
  · intro b hb
    obtain ⟨t, ht2, rfl⟩ := List.mem_map.1 hb
    exact hm _ (List.of_mem_zip (List.mem_filter.1 ht2).1).2

theorem filterZeroY_length {B : Type*} [Zero K] [DecidableEq K] (y : List K) (basis : List B) (num : ℕ) :
    (filterZeroY y basis num).1.length = (filterZeroY y basis num).2.1.length := by simp [filterZeroY]

theorem filterZeroY_mem {B : Type*} [Zero K] [DecidableEq K] (y : List K) (basis : List B) (num : ℕ) :
    (∀ v ∈ (filterZeroY y basis num).1, v ∈ y ∧ v ≠ 0) ∧ ∀ b ∈ (filterZeroY y basis num).2.1, b ∈ basis := by
  constructor
  · intro v hv
    obtain ⟨t, ht, rfl⟩ := List.mem_map.1 hv
    obtain ⟨h1, h2⟩ := List.mem_filter.1 ht
    exact ⟨(List.of_mem_zip h1).1, by simpa using h2⟩
  · intro b hb
    obtain ⟨t, ht, rfl⟩ := List.mem_map.1 hb
    exact (List.of_mem_zip (List.mem_filter.1 ht).1).2

/-! ### The accepted certificate -/

/-- What an accepted pair of weights and bases means. -/
structure Certificate [CommRing K] [DecidableEq K] [Inhabited K] (M : MonoMgr) (f : List (List ℕ × K)) (y : List K) (basis : List (Base K)) : Prop where
  length : y.length = basis.length
  identity : ∀ x : List K, x.length = M.nvars → (List.zipWith (fun v b => v * symEval M.elements (b.asPoly f) x) y basis).sum = 0

theorem holds_certificate [CommRing K] [DecidableEq K] [Inhabited K] (M : MonoMgr) (hM : M.Valid) (hhom : M.hom = true) (f : List (List ℕ × K))
    (d L : ℕ) (basis : List (Base K)) (hdeg : ∀ b ∈ basis, Arity M.nvars (b.asPoly f) ∧ HomDeg d (b.asPoly f))
    (hL : ∀ b ∈ basis, (M.arraylize (b.asPoly f) true).length = L) (y : List K) (hy : y.length = basis.length) (rows : List (List K))
    (hrows : basisAsMatrix M f basis = .ok rows) (reg : List K) (w : ℕ) (h : product (rows.headD []).length rows reg y = target w) :
    Certificate M f y basis ∧ (List.zipWith (· * ·) reg y).sum = 1 := by
  obtain ⟨e, hw, -⟩ := basisAsMatrix_eq M f basis L hL rows hrows
  obtain ⟨-, h2, h3⟩ := product_eq _ _ _ _ _ h
  refine ⟨⟨hy, fun x hx => ?_⟩, h3⟩
  have := rows_identity M hM hhom d L (basis.map fun b => b.asPoly f) (by
    intro p hp
    obtain ⟨b, hb, rfl⟩ := List.mem_map.1 hp
    exact hdeg b hb) (by
    intro p hp
    obtain ⟨b, hb, rfl⟩ := List.mem_map.1 hp
    exact hL b hb) y (by
    intro i hi
    have := h2 i (by rw [hw]; exact hi)
    rw [e] at this
    rw [List.map_map]
    exact this) x hx
  rw [List.zipWith_map_right] at this
  exact this

section main
variable [Field K] [LinearOrder K] [IsStrictOrderedRing K] [Inhabited K]

/-- The rational weights after rounding (correction.py 70-71). -/
def rounded (K : Type*) [Field K] (tol : ℚ) (y : List ℚ) (mx : ℚ) : List K := (Rationalize.rationalizeArray y (mx * tol)).map fun v : ℚ => (v : K)

omit [IsStrictOrderedRing K] [Inhabited K] in
/-- The two ways to accept. -/
theorem linearCorrection_cases (M : MonoMgr) (f : List (List ℕ × K)) (solve : List (List K) → List K → ℕ → Option (List K)) (tol : ℚ) (y : List ℚ)
    (basis : List (Base K)) (num : ℕ) (z : List K) (out : List (Base K)) (h : linearCorrection M f solve tol y basis num = .ok (z, out, true)) :
    ∃ mx r rows reg, maxAbs y = some mx ∧ filterZeroY (rounded K tol y mx) basis num = r ∧ basisAsMatrix M f r.2.1 = .ok rows ∧
      regularizer (K := K) r.2.1.length r.2.2 = .ok reg ∧
      (z = r.1 ∧ out = r.2.1 ∧ product (rows.headD []).length rows reg r.1 = target (rows.headD []).length ∨
        ∃ z0 r2 rows2 reg2, solve rows reg (rows.headD []).length = some z0 ∧ (∀ v ∈ z0, 0 ≤ v) ∧ filterZeroY z0 r.2.1 r.2.2 = r2 ∧
          z = r2.1 ∧ out = r2.2.1 ∧ basisAsMatrix M f r2.2.1 = .ok rows2 ∧ regularizer (K := K) r2.2.1.length r2.2.2 = .ok reg2 ∧
          product (rows2.headD []).length rows2 reg2 r2.1 = target (rows.headD []).length) := by
  unfold linearCorrection at h
  cases hmx : maxAbs y with
  | none => rw [hmx] at h; simp at h
  | some mx =>
    rw [hmx] at h
    simp only at h
    change (match basisAsMatrix M f (filterZeroY (rounded K tol y mx) basis num).2.1 with
      | .error e => _
      | .ok rows => _) = _ at h
    refine ⟨mx, filterZeroY (rounded K tol y mx) basis num, ?_⟩
    cases hrows : basisAsMatrix M f (filterZeroY (rounded K tol y mx) basis num).2.1 with
    | error e => rw [hrows] at h; simp at h
    | ok rows =>
      rw [hrows] at h
      simp only at h
      change (match regularizer (K := K) (filterZeroY (rounded K tol y mx) basis num).2.1.length (filterZeroY (rounded K tol y mx) basis num).2.2 with
        | .error e => _
        | .ok rows => _) = _ at h
      cases hreg : regularizer (K := K) (filterZeroY (rounded K tol y mx) basis num).2.1.length (filterZeroY (rounded K tol y mx) basis num).2.2 with
      | error e => rw [hreg] at h; simp at h
      | ok reg =>
        rw [hreg] at h
        simp only at h
        refine ⟨rows, reg, rfl, rfl, rfl, rfl, ?_⟩
        rw [if_neg (by simpa using filterZeroY_length _ _ _)] at h
        split at h
        · rename_i heq
          have e := Except.ok.inj h
          simp only [Prod.mk.injEq, and_true] at e
          exact Or.inl ⟨e.1.symm, e.2.symm, heq⟩
        · right
          split at h
          · rename_i z1 b1 hs
            have e := Except.ok.inj h
            simp only [Prod.mk.injEq, and_true] at e
            obtain ⟨rfl, rfl⟩ := e
            unfold secondTry at hs
            split at hs
            · simp at hs
            · rename_i z0 hz0
              split at hs
              · rename_i hnn
                simp only at hs
                split at hs
                · rename_i hh
                  have e := Option.some.inj hs
                  simp only [Prod.mk.injEq] at e
                  unfold holdsExactly at hh
                  split at hh
                  · simp at hh
                  · rename_i rows2 hrows2
                    split at hh
                    · simp at hh
                    · rename_i reg2 hreg2
                      rw [if_neg (by simpa using filterZeroY_length _ _ _)] at hh
                      refine ⟨z0, _, rows2, reg2, hz0, hnn, rfl, e.1.symm, e.2.symm, hrows2, hreg2, ?_⟩
                      exact of_decide_eq_true (Except.ok.inj hh)
                · simp at hs
              · simp at hs
          · simp at h

omit [IsStrictOrderedRing K] in
/-- **C30.** If the correction accepts, the weighted symmetric sums of the returned basis polynomials cancel at every point, the returned
bases are among the given ones and no returned weight is zero; this holds for any solver. -/
theorem linearCorrection_identity (M : MonoMgr) (hM : M.Valid) (hhom : M.hom = true) (f : List (List ℕ × K))
    (solve : List (List K) → List K → ℕ → Option (List K)) (tol : ℚ) (y : List ℚ) (basis : List (Base K)) (num d L : ℕ)
    (hdeg : ∀ b ∈ basis, Arity M.nvars (b.asPoly f) ∧ HomDeg d (b.asPoly f))
    (hL : ∀ b ∈ basis, (M.arraylize (b.asPoly f) true).length = L) (z : List K) (out : List (Base K))
    (h : linearCorrection M f solve tol y basis num = .ok (z, out, true)) :
    Certificate M f z out ∧ (∀ b ∈ out, b ∈ basis) ∧ ∀ v ∈ z, v ≠ 0 := by
  obtain ⟨mx, r, rows, reg, -, hr, hrows, -, hc⟩ := linearCorrection_cases M f solve tol y basis num z out h
  have hmem := filterZeroY_mem (rounded K tol y mx) basis num
  have hlen := filterZeroY_length (rounded K tol y mx) basis num
  rw [hr] at hmem hlen
  rcases hc with ⟨rfl, rfl, hp⟩ | ⟨z0, r2, rows2, reg2, -, -, hr2, rfl, rfl, hrows2, -, hp⟩
  · exact ⟨(holds_certificate M hM hhom f d L r.2.1 (fun b hb => hdeg b (hmem.2 b hb)) (fun b hb => hL b (hmem.2 b hb)) r.1 hlen rows hrows reg _ hp).1,
      hmem.2, fun v hv => (hmem.1 v hv).2⟩
  · have hmem2 := filterZeroY_mem z0 r.2.1 r.2.2
    have hlen2 := filterZeroY_length z0 r.2.1 r.2.2
    rw [hr2] at hmem2 hlen2
    have hb : ∀ b ∈ r2.2.1, b ∈ basis := fun b hb => hmem.2 b (hmem2.2 b hb)
    exact ⟨(holds_certificate M hM hhom f d L r2.2.1 (fun b h => hdeg b (hb b h)) (fun b h => hL b (hb b h)) r2.1 hlen2 rows2 hrows2 reg2 _ hp).1,
      hb, fun v hv => (hmem2.1 v hv).2⟩

omit [LinearOrder K] [IsStrictOrderedRing K] [Inhabited K] in
theorem rounded_length (tol : ℚ) (y : List ℚ) (mx : ℚ) : (rounded K tol y mx).length = y.length := by
  simp [rounded, Rationalize.rationalizeArray]

omit [IsStrictOrderedRing K] [Inhabited K] in
/-- **C30.** If the correction accepts, the weights of the multipliers add up to one, so a multiplier is present.  The solver must return
solutions only (`A z = b`): otherwise see `count_all_when_none`. -/
theorem linearCorrection_weight (M : MonoMgr) (f : List (List ℕ × K))
    (solve : List (List K) → List K → ℕ → Option (List K)) (tol : ℚ) (y : List ℚ) (basis : List (Base K)) (num L : ℕ)
    (hsolve : ∀ rows reg width z, solve rows reg width = some z → z.length = rows.length ∧ product width rows reg z = target width)
    (hL : ∀ b ∈ basis, (M.arraylize (b.asPoly f) true).length = L) (htail : Tailed basis num) (hnum : num ≠ 0) (hy : y.length = basis.length)
    (z : List K) (out : List (Base K))
    (h : linearCorrection M f solve tol y basis num = .ok (z, out, true)) : multWeight z out = 1 := by
  obtain ⟨mx, r, rows, reg, -, hr, hrows, hreg, hc⟩ := linearCorrection_cases M f solve tol y basis num z out h
  have hmem := filterZeroY_mem (rounded K tol y mx) basis num
  have hlen := filterZeroY_length (rounded K tol y mx) basis num
  have ht := filterZeroY_tailed (rounded K tol y mx) basis num htail hnum (by rw [rounded_length, hy])
  rw [hr] at hmem hlen ht
  rcases hc with ⟨rfl, rfl, hp⟩ | ⟨z0, r2, rows2, reg2, hz0, -, hr2, rfl, rfl, hrows2, hreg2, hp⟩
  · rw [← reg_sum r.2.1 r.2.2 ht r.1 reg hlen hreg]
    exact (product_eq _ _ _ _ _ hp).2.2
  · obtain ⟨hz1, hz2⟩ := hsolve _ _ _ _ hz0
    obtain ⟨e, -, -⟩ := basisAsMatrix_eq M f r.2.1 L (fun b hb => hL b (hmem.2 b hb)) rows hrows
    have hzl : z0.length = r.2.1.length := by rw [hz1, e, List.length_map]
    have hne : r.2.2 ≠ 0 := by
      intro h0
      have h1 := (product_eq _ _ _ _ _ hz2).2.2
      rw [h0] at hreg
      unfold regularizer at hreg
      rw [if_pos (Nat.zero_le _)] at hreg
      have e := Except.ok.inj hreg
      have : (List.zipWith (· * ·) reg z0).sum = 0 := by
        apply List.sum_eq_zero
        intro v hv
        obtain ⟨i, hi, rfl⟩ := List.mem_iff_getElem.1 hv
        simp only [List.getElem_zipWith]
        subst e
        simp
      rw [this] at h1
      exact zero_ne_one h1
    have ht2 := filterZeroY_tailed z0 r.2.1 r.2.2 ht hne hzl
    have hlen2 := filterZeroY_length z0 r.2.1 r.2.2
    rw [hr2] at ht2 hlen2
    rw [← reg_sum r2.2.1 r2.2.2 ht2 r2.1 reg2 hlen2 hreg2]
    exact (product_eq _ _ _ _ _ hp).2.2

omit [Inhabited K] in
/-- **C30.** The accepted weights are positive, provided the linear program returned no negative weight beyond the rounding threshold. -/
theorem linearCorrection_pos (M : MonoMgr) (f : List (List ℕ × K)) (solve : List (List K) → List K → ℕ → Option (List K)) (tol : ℚ) (y : List ℚ)
    (hy : ∀ mx, maxAbs y = some mx → ∀ v ∈ y, 0 ≤ v ∨ |v| < mx * tol) (basis : List (Base K)) (num : ℕ) (z : List K) (out : List (Base K))
    (h : linearCorrection M f solve tol y basis num = .ok (z, out, true)) : ∀ v ∈ z, 0 < v := by
  obtain ⟨mx, r, rows, reg, hmx, hr, -, -, hc⟩ := linearCorrection_cases M f solve tol y basis num z out h
  rcases hc with ⟨rfl, -, -⟩ | ⟨z0, r2, -, -, -, hz, hr2, rfl, -⟩
  · intro v hv
    have := (filterZeroY_mem (rounded K tol y mx) basis num).1
    rw [hr] at this
    obtain ⟨h1, h2⟩ := this v hv
    refine lt_of_le_of_ne ?_ (Ne.symm h2)
    obtain ⟨q, hq, rfl⟩ := List.mem_map.1 h1
    obtain ⟨u, hu, rfl⟩ := List.mem_map.1 hq
    rw [Rat.cast_nonneg]
    split
    · exact le_refl _
    · rename_i hlt
      rcases hy mx hmx u hu with h3 | h3
      · exact Rationalize.rationalize_nonneg _ _ h3
      · exact absurd h3 hlt
  · intro v hv
    have := (filterZeroY_mem z0 r.2.1 r.2.2).1
    rw [hr2] at this
    obtain ⟨h1, h2⟩ := this v hv
    exact lt_of_le_of_ne (hz v h1) (Ne.symm h2)

/-! ### Reading the certificate -/

/-- The part of the certificate with the multipliers: `Σ z_j Σ_g m_j(g x)`. -/
def multValue (M : MonoMgr) (x : List K) (y : List K) (basis : List (Base K)) : K :=
  (List.zipWith (fun v b => match b with | .mult m => v * symEval M.elements m x | .tangent _ _ => 0) y basis).sum

/-- The other part: `Σ y_i Σ_g (x^powers * t)(g x)`, computed from the values of the monomial and the tangent. -/
def tanValue (M : MonoMgr) (x : List K) (y : List K) (basis : List (Base K)) : K :=
  (List.zipWith (fun v b => match b with
    | .mult _ => 0
    | .tangent ps t => v * (M.elements.map fun g => evalMonom ps (papply g x) * evalDict t (papply g x)).sum) y basis).sum

/-- The polynomials stored in a basis object have the right number of variables. -/
def Base.WellFormed (n : ℕ) : Base K → Prop
  | .tangent ps t => ps.length = n ∧ Arity n t
  | .mult m => Arity n m

omit [LinearOrder K] [IsStrictOrderedRing K] in
theorem symEval_tangent [DecidableEq K] (M : MonoMgr) (hM : M.Valid) (f : List (List ℕ × K)) (x : List K) (ps : List ℕ)
    (t : List (List ℕ × K)) (hps : ps.length = M.nvars) (ht : Arity M.nvars t) :
    symEval M.elements ((Base.tangent ps t).asPoly f) x = (M.elements.map fun g => evalMonom ps (papply g x) * evalDict t (papply g x)).sum := by
  unfold symEval
  congr 1
  apply List.map_congr_left
  intro g hg
  have hl : (papply g x).length = M.nvars := by rw [papply_length, IsPermGroup.length_eq hM hg]
  rw [Base.asPoly, evalDict_pmul _ _ _ (by intro u hu; rw [List.mem_singleton] at hu; rw [hu, hl]; exact hps) (by rw [hl]; exact ht), evalDict_cons,
    evalDict_nil]
  ring

omit [LinearOrder K] [IsStrictOrderedRing K] in
theorem symEval_mult [DecidableEq K] (M : MonoMgr) (hM : M.Valid) (f : List (List ℕ × K)) (hf : Arity M.nvars f) (x : List K)
    (hinv : ∀ g ∈ M.elements, evalDict f (papply g x) = evalDict f x) (m : List (List ℕ × K)) (hm : Arity M.nvars m) :
    symEval M.elements ((Base.mult m).asPoly f) x = - (evalDict f x * symEval M.elements m x) := by
  unfold symEval
  rw [← List.sum_map_mul_left, ← neg_one_mul, ← List.sum_map_mul_left]
  congr 1
  apply List.map_congr_left
  intro g hg
  have hl : (papply g x).length = M.nvars := by rw [papply_length, IsPermGroup.length_eq hM hg]
  rw [Base.asPoly, evalDict_pmul _ _ _ (by rw [hl]; exact hf) (by rw [hl]; exact arity_pneg hm), evalDict_pneg, hinv g hg]
  ring

omit [IsStrictOrderedRing K] in
/-- **C30.** A certificate means: the problem times the symmetric sum of the weighted multipliers equals the weighted symmetric sums of the
other bases, at every point. -/
theorem certificate_value (M : MonoMgr) (hM : M.Valid) (f : List (List ℕ × K)) (hf : Arity M.nvars f) (y : List K) (basis : List (Base K))
    (hc : Certificate M f y basis) (hwf : ∀ b ∈ basis, b.WellFormed M.nvars) (x : List K) (hx : x.length = M.nvars)
    (hinv : ∀ g ∈ M.elements, evalDict f (papply g x) = evalDict f x) :
    evalDict f x * multValue M x y basis = tanValue M x y basis := by
  have key : ∀ (y : List K) (basis : List (Base K)), (∀ b ∈ basis, b.WellFormed M.nvars) →
      (List.zipWith (fun v b => v * symEval M.elements (b.asPoly f) x) y basis).sum = tanValue M x y basis - evalDict f x * multValue M x y basis := by
    intro y
    induction y with
    | nil => intro basis _; simp [tanValue, multValue]
    | cons v y ih =>
      intro basis hw
      cases basis with
      | nil => simp [tanValue, multValue]
      | cons b basis =>
        have h1 := ih basis fun c hc => hw c (List.mem_cons_of_mem _ hc)
        have h2 := hw b List.mem_cons_self
        unfold tanValue multValue at h1 ⊢
        rw [List.zipWith_cons_cons, List.zipWith_cons_cons, List.zipWith_cons_cons, List.sum_cons, List.sum_cons, List.sum_cons, h1]
        cases b with
        | tangent ps t => rw [symEval_tangent M hM f x ps t h2.1 h2.2]; simp only; ring
        | mult m => rw [symEval_mult M hM f hf x hinv m h2]; simp only; ring
  have h := hc.identity x hx
  rw [key y basis hwf] at h
  linear_combination -h

/-- **C30.** If moreover the weights are nonnegative and the bases are nonnegative on the orbit of `x`, then `f(x) W(x) ≥ 0` and `W(x) ≥ 0`
for the multiplier `W`; where `W(x) ≠ 0` the problem is nonnegative. -/
theorem certificate_nonneg (M : MonoMgr) (hM : M.Valid) (f : List (List ℕ × K)) (hf : Arity M.nvars f) (y : List K) (basis : List (Base K))
    (hc : Certificate M f y basis) (hwf : ∀ b ∈ basis, b.WellFormed M.nvars) (x : List K) (hx : x.length = M.nvars)
    (hinv : ∀ g ∈ M.elements, evalDict f (papply g x) = evalDict f x) (hy : ∀ v ∈ y, 0 ≤ v)
    (hnn : ∀ b ∈ basis, ∀ g ∈ M.elements, match b with
      | .tangent ps t => 0 ≤ evalMonom ps (papply g x) * evalDict t (papply g x)
      | .mult m => 0 ≤ evalDict m (papply g x)) :
    0 ≤ multValue M x y basis ∧ 0 ≤ tanValue M x y basis ∧ (multValue M x y basis ≠ 0 → 0 ≤ evalDict f x) := by
  have hm : 0 ≤ multValue M x y basis := by
    apply List.sum_nonneg
    intro v hv
    obtain ⟨i, hi, rfl⟩ := List.mem_iff_getElem.1 hv
    simp only [List.getElem_zipWith]
    have hib : i < basis.length := by simp only [List.length_zipWith] at hi; omega
    have hb := hnn basis[i] (List.getElem_mem _)
    cases hbi : basis[i] with
    | tangent ps t => exact le_refl _
    | mult m =>
      rw [hbi] at hb
      refine mul_nonneg (hy _ (List.getElem_mem _)) (List.sum_nonneg ?_)
      intro u hu
      obtain ⟨g, hg, rfl⟩ := List.mem_map.1 hu
      exact hb g hg
  have ht : 0 ≤ tanValue M x y basis := by
    apply List.sum_nonneg
    intro v hv
    obtain ⟨i, hi, rfl⟩ := List.mem_iff_getElem.1 hv
    simp only [List.getElem_zipWith]
    have hib : i < basis.length := by simp only [List.length_zipWith] at hi; omega
    have hb := hnn basis[i] (List.getElem_mem _)
    cases hbi : basis[i] with
    | mult m => exact le_refl _
    | tangent ps t =>
      rw [hbi] at hb
      refine mul_nonneg (hy _ (List.getElem_mem _)) (List.sum_nonneg ?_)
      intro u hu
      obtain ⟨g, hg, rfl⟩ := List.mem_map.1 hu
      exact hb g hg
  refine ⟨hm, ht, fun hne => ?_⟩
  have e := certificate_value M hM f hf y basis hc hwf x hx hinv
  by_contra hneg
  push Not at hneg
  have := mul_neg_of_neg_of_pos hneg (lt_of_le_of_ne hm (Ne.symm hne))
  rw [e] at this
  exact absurd ht (not_le.2 this)

end main

/-! ### Examples and limits -/

/-- Two variables with the swap. -/
def exM : MonoMgr := ⟨2, [[0, 1], [1, 0]], true⟩

theorem exM_valid : exM.Valid := by
  refine ⟨by decide, by decide, by decide, by decide, by decide⟩

/-- `2a² - 2ab + 2b²`. -/
def exF : List (List ℕ × ℚ) := [([2, 0], 2), ([1, 1], -2), ([0, 2], 2)]

/-- `(a-b)²`, `a²`, `ab`, and the multiplier `1`. -/
def exBasis : List (Base ℚ) :=
  [.tangent [0, 0] [([2, 0], 1), ([1, 1], -2), ([0, 2], 1)], .tangent [2, 0] [([0, 0], 1)], .tangent [1, 1] [([0, 0], 1)], .mult [([0, 0], 1)]]

/-- The floats of the linear program are slightly off; rounding makes them exact. -/
example : linearCorrection exM exF (fun _ _ _ => none) (1 / 1000000) [1, 2, 1 / 1000000000, 1] exBasis 1 =
    .ok ([1, 2, 1], [exBasis[0], exBasis[1], exBasis[3]], true) := by decide +kernel

/-- The floats are wrong; the linear solver repairs them. -/
example : linearCorrection exM exF (fun _ _ _ => some [1, 2, 1]) (1 / 1000000) [11 / 10, 2, 1 / 1000000000, 1] exBasis 1 =
    .ok ([1, 2, 1], [exBasis[0], exBasis[1], exBasis[3]], true) := by decide +kernel

/-- The floats are wrong and the solver fails. -/
example : linearCorrection exM exF (fun _ _ _ => none) (1 / 1000000) [11 / 10, 2, 1 / 1000000000, 1] exBasis 1 =
    .ok ([11 / 10, 2, 1], [exBasis[0], exBasis[1], exBasis[3]], false) := by decide +kernel

/-- The hypotheses of the theorems hold for this basis. -/
example : Tailed exBasis 1 ∧ (∀ b ∈ exBasis, (exM.arraylize (b.asPoly exF) true).length = 2) ∧ (∀ b ∈ exBasis, HomDeg 2 (b.asPoly exF)) ∧
    ∀ b ∈ exBasis, Arity 2 (b.asPoly exF) := by
  refine ⟨⟨by decide, by decide, by decide⟩, by decide +kernel, ?_, ?_⟩
  · unfold HomDeg; decide +kernel
  · unfold Arity; decide +kernel

/-- **C30 (negation).** The first branch accepts negative weights: if the linear program returned `[1, -1, 1]` for the bases `a²`, `b²` and the
multiplier `1`, then `a² - b²`, which is not nonnegative, would be accepted.  Positivity rests on the bounds of the linear program. -/
theorem linearCorrection_negative : linearCorrection (K := ℚ) ⟨2, [[0, 1]], true⟩ [([2, 0], 1), ([0, 2], -1)] (fun _ _ _ => none) (1 / 1000000) [1, -1, 1]
    [.tangent [2, 0] [([0, 0], 1)], .tangent [0, 2] [([0, 0], 1)], .mult [([0, 0], 1)]] 1 =
    .ok ([1, -1, 1], [.tangent [2, 0] [([0, 0], 1)], .tangent [0, 2] [([0, 0], 1)], .mult [([0, 0], 1)]], true) ∧
    evalDict [([2, 0], 1), ([0, 2], -1)] [(0 : ℚ), 1] < 0 := by
  decide +kernel

/-- When no multiplier is left, `y[-0:]` counts every weight (correction.py 20): the second filter then declares all bases multipliers, and
a solver that returned a non-solution would be believed. -/
theorem count_all_when_none : (filterZeroY [(1 : ℚ), 2] ["a", "b"] 0).2.2 = 2 ∧
    linearCorrection (K := ℚ) ⟨2, [[0, 1]], true⟩ [([1, 1], 1)] (fun _ _ _ => some [1 / 2, 1 / 2]) (1 / 1000000) [1, 1, 0]
      [.tangent [2, 0] [([0, 0], 1)], .tangent [2, 0] [([0, 0], -1)], .mult [([0, 0], 1)]] 1 =
    .ok ([1 / 2, 1 / 2], [.tangent [2, 0] [([0, 0], 1)], .tangent [2, 0] [([0, 0], -1)]], true) := by
  decide +kernel

end Verif.LinSOS
