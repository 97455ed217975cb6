import Verif.Model.LinBasis
import Mathlib.Data.List.Basic
import Mathlib.Tactic.Ring
import Mathlib.Tactic.Linarith
import Mathlib.Algebra.BigOperators.Group.List.Basic

/-!
# C29: enumeration of exponent vectors
-/

namespace Verif.LinBasis
open Verif

/-- the loop stops with result `r` from state `s`, for all large enough fuel -/
def Halts (ds : List ℕ) (degree : ℤ) (req : Bool) (s : St) (r : List (List ℕ)) : Prop :=
  ∃ k, ∀ f, k ≤ f → run ds degree req f s = some r

theorem halts_step {ds : List ℕ} {degree : ℤ} {req : Bool} {s s' : St} {r : List (List ℕ)} (h : step ds degree req s = .inr s')
    (h' : Halts ds degree req s' r) : Halts ds degree req s r := by
  obtain ⟨k, hk⟩ := h'
  refine ⟨k + 1, fun f hf => ?_⟩
  obtain ⟨f, rfl⟩ : ∃ g, f = g + 1 := ⟨f - 1, by omega⟩
  unfold run
  rw [h]
  exact hk f (by omega)

theorem halts_break {ds : List ℕ} {degree : ℤ} {req : Bool} {s : St} {r : List (List ℕ)} (h : step ds degree req s = .inl r) :
    Halts ds degree req s r := by
  refine ⟨1, fun f hf => ?_⟩
  obtain ⟨f, rfl⟩ : ∃ g, f = g + 1 := ⟨f - 1, by omega⟩
  unfold run
  rw [h]

/-- what happens after `i -= 1` in the reset branch -/
def After (ds : List ℕ) (degree : ℤ) (req : Bool) (s : St) (r : List (List ℕ)) : Prop :=
  if s.i < 0 then s.powers = r else Halts ds degree req (St.bump ds s) r

/-- all exponent vectors by recursion: the specification of the search -/
def comb (req : Bool) : List ℕ → ℕ → List (List ℕ)
  | [], _ => []
  | [d], rem => if req = false then (List.range (1 + rem / d)).map fun j => [j] else if rem % d = 0 then [[rem / d]] else []
  | d :: d' :: ds, rem => (List.range' 0 (rem / d + 1)).flatMap fun a => (comb req (d' :: ds) (rem - a * d)).map (a :: ·)

theorem set_append_length {α : Type*} (l : List α) (a b : α) (r : List α) : (l ++ a :: r).set l.length b = l ++ b :: r := by
  induction l with
  | nil => rfl
  | cons x l ih => simp [ih]

theorem getD_append_length {α : Type*} (l : List α) (a z : α) (r : List α) : (l ++ a :: r).getD l.length z = a := by
  rw [List.getD_eq_getElem?_getD, List.getElem?_append_right (le_refl _)]
  simp

theorem pyIdx_nat (n k : ℕ) : pyIdx n (k : ℤ) = k := by
  unfold pyIdx
  rw [if_neg (by omega)]
  simp

theorem bump_at (dp : List ℕ) (d : ℕ) (dt : List ℕ) (P : List (List ℕ)) (cd : ℤ) (pre : List ℕ) (b : ℕ) (rest : List ℕ)
    (hl : pre.length = dp.length) :
    St.bump (dp ++ d :: dt) ⟨P, (pre.length : ℤ), cd, pre ++ b :: rest⟩ = ⟨P, (pre.length : ℤ), cd + (d : ℤ), pre ++ (b + 1) :: rest⟩ := by
  unfold St.bump
  simp only [pyIdx_nat]
  rw [set_append_length, getD_append_length, hl, getD_append_length]

/-- the main invariant -/
theorem level_halts (degree : ℤ) (req : Bool) : ∀ (t : List ℕ) (_ : t ≠ []) (_ : ∀ d ∈ t, 0 < d) (dp : List ℕ) (d : ℕ) (_ : 0 < d) (pre : List ℕ)
    (_ : pre.length = dp.length) (cdp : ℤ) (_ : cdp ≤ degree) (r : List (List ℕ)) (k a : ℕ) (_ : (degree - cdp).toNat / d + 1 - a = k) (l : ℕ) (P : List (List ℕ))
    (_ : ∀ l', After (dp ++ d :: t) degree req ⟨P ++ (List.range' a ((degree - cdp).toNat / d + 1 - a)).flatMap (fun a' =>
      (comb req t ((degree - cdp).toNat - a' * d)).map (fun v => pre ++ a' :: v)), (pre.length : ℤ) - 1, cdp, pre ++ 0 :: (List.replicate (t.length - 1) 0 ++ [l'])⟩ r),
    Halts (dp ++ d :: t) degree req ⟨P, (pre.length : ℤ), cdp + ((a * d : ℕ) : ℤ), pre ++ a :: (List.replicate (t.length - 1) 0 ++ [l])⟩ r := by
  intro t
  induction t with
  | nil => intro h; exact absurd rfl h
  | cons dl t ih =>
    intro _ hpos dp d hd pre hl cdp hcdp r k
    obtain ⟨R, hR⟩ : ∃ R : ℕ, degree - cdp = R := ⟨(degree - cdp).toNat, by omega⟩
    have hRt : (degree - cdp).toNat = R := by omega
    have hlen : ((dp ++ d :: dl :: t).length : ℤ) - 1 ≠ (pre.length : ℤ) := by
      simp only [List.length_append, List.length_cons]; omega
    rw [hRt]
    induction k with
    | zero =>
      intro a hk l P hA
      -- a > R / d: reset
      have hgt : cdp + ((a * d : ℕ) : ℤ) > degree := by
        have : R < a * d := by
          exact (Nat.div_lt_iff_lt_mul hd).1 (by omega : R / d < a)
        omega
      rw [show R / d + 1 - a = 0 by omega] at hA
      have hA := hA l
      simp only [List.range'_zero, List.flatMap_nil, List.append_nil] at hA
      have hst : step (dp ++ d :: dl :: t) degree req ⟨P, (pre.length : ℤ), cdp + ((a * d : ℕ) : ℤ), pre ++ a :: (List.replicate ((dl :: t).length - 1) 0 ++ [l])⟩
          = if (pre.length : ℤ) - 1 < 0 then .inl P else .inr (St.bump (dp ++ d :: dl :: t) ⟨P, (pre.length : ℤ) - 1, cdp, pre ++ 0 :: (List.replicate ((dl :: t).length - 1) 0 ++ [l])⟩) := by
        unfold step
        rw [if_neg (by simpa using hlen.symm)]
        rw [if_pos hgt]
        simp only [pyIdx_nat, set_append_length, getD_append_length]
        rw [hl, getD_append_length]
        have e : cdp + ((a * d : ℕ) : ℤ) - ((d * a : ℕ) : ℤ) = cdp := by push_cast; ring
        rw [e]
      unfold After at hA
      simp only at hA
      by_cases hi : (pre.length : ℤ) - 1 < 0
      · rw [if_pos hi] at hst hA
        subst hA
        exact halts_break hst
      · rw [if_neg hi] at hst hA
        exact halts_step hst hA
    | succ k ihk =>
      intro a hk l P hA
      have hle : a * d ≤ R := by
        have : a ≤ R / d := by omega
        calc a * d ≤ R / d * d := Nat.mul_le_mul_right _ this
          _ ≤ R := Nat.div_mul_le_self R d
      have hst : step (dp ++ d :: dl :: t) degree req ⟨P, (pre.length : ℤ), cdp + ((a * d : ℕ) : ℤ), pre ++ a :: (List.replicate ((dl :: t).length - 1) 0 ++ [l])⟩
          = .inr ⟨P, (pre.length : ℤ) + 1, cdp + ((a * d : ℕ) : ℤ), pre ++ a :: (List.replicate ((dl :: t).length - 1) 0 ++ [l])⟩ := by
        unfold step
        rw [if_neg (by simpa using hlen.symm), if_neg (by simp only; omega)]
      apply halts_step hst
      have hrange : List.range' a (R / d + 1 - a) = a :: List.range' (a + 1) (R / d + 1 - (a + 1)) := by
        rw [show R / d + 1 - a = (R / d + 1 - (a + 1)) + 1 by omega, List.range'_succ]
      have hdeg : cdp + ((a * d : ℕ) : ℤ) + (d : ℤ) = cdp + (((a + 1) * d : ℕ) : ℤ) := by push_cast; ring
      rw [hrange] at hA
      simp only [List.flatMap_cons] at hA
      cases t with
      | nil =>
        -- the next index is the last one
        simp only [List.length_cons, List.length_nil, Nat.zero_add, Nat.sub_self, List.replicate_zero, List.nil_append] at *
        set s1 : St := ⟨P, (pre.length : ℤ) + 1, cdp + ((a * d : ℕ) : ℤ), pre ++ a :: [l]⟩ with hs1
        have hn : (dp ++ [d, dl]).length - 1 = (pre ++ [a]).length := by simp [hl]
        have hgd : (dp ++ [d, dl]).getD ((dp ++ [d, dl]).length - 1) 0 = dl := by
          rw [List.getD_eq_getElem?_getD, List.getElem?_append_right (by simp)]
          simp
        have hset : ∀ x, s1.cur.set ((dp ++ [d, dl]).length - 1) x = pre ++ a :: [x] := by
          intro x
          rw [hn, hs1]
          have := set_append_length (pre ++ [a]) l x []
          simpa using this
        have hrem : (degree - s1.deg).toNat = R - a * d := by rw [hs1]; simp only; omega
        have hrow : lastRow (dp ++ [d, dl]) req s1 degree = (comb req [dl] (R - a * d)).map (fun v => pre ++ a :: v) := by
          unfold lastRow comb
          simp only [hgd, hset, hrem]
          rw [if_pos (show degree ≥ s1.deg by rw [hs1]; simp only; omega)]
          split_ifs
          · rw [List.map_map]; rfl
          · rfl
          · rfl
        have hcur : ∃ l', lastCur (dp ++ [d, dl]) req s1 degree = pre ++ a :: [l'] := by
          unfold lastCur
          rw [hrow]
          cases hg : ((comb req [dl] (R - a * d)).map (fun v => pre ++ a :: v)).getLast? with
          | none => exact ⟨l, rfl⟩
          | some x =>
            have := List.mem_of_getLast? hg
            obtain ⟨v, hv, rfl⟩ := List.mem_map.1 this
            have hv1 : ∃ w, v = [w] := by
              unfold comb at hv
              split_ifs at hv
              · obtain ⟨w, -, rfl⟩ := List.mem_map.1 hv; exact ⟨w, rfl⟩
              · exact ⟨_, by simpa using hv⟩
              · cases hv
            obtain ⟨w, rfl⟩ := hv1
            exact ⟨w, rfl⟩
        obtain ⟨l', hl'⟩ := hcur
        have hst2 : step (dp ++ [d, dl]) degree req s1 = .inr ⟨P ++ (comb req [dl] (R - a * d)).map (fun v => pre ++ a :: v), (pre.length : ℤ),
            cdp + (((a + 1) * d : ℕ) : ℤ), pre ++ (a + 1) :: [l']⟩ := by
          unfold step
          rw [if_pos (by rw [hs1]; simp only [List.length_append, List.length_cons, List.length_nil]; omega)]
          rw [hrow, hl']
          rw [show s1.i - 1 = (pre.length : ℤ) by rw [hs1]; simp only; omega, show s1.deg = cdp + ((a * d : ℕ) : ℤ) from rfl, show s1.powers = P from rfl]
          rw [bump_at dp d [dl] _ _ pre a [l'] hl, hdeg]
        apply halts_step hst2
        apply ihk (a + 1) (by omega)
        intro l''
        have := hA l''
        rw [List.append_assoc]
        exact this
      | cons d2 t =>
        -- descend one level
        have := ih (by simp) (fun x hx => hpos x (List.mem_cons_of_mem _ hx)) (dp ++ [d]) dl (hpos dl (by simp)) (pre ++ [a]) (by simp [hl])
          (cdp + ((a * d : ℕ) : ℤ)) (by omega) r ((degree - (cdp + ((a * d : ℕ) : ℤ))).toNat / dl + 1) 0 (Nat.sub_zero _) l P
        have e1 : (dp ++ [d]) ++ dl :: d2 :: t = dp ++ d :: dl :: d2 :: t := by simp
        have e2 : (((pre ++ [a]).length : ℕ) : ℤ) = (pre.length : ℤ) + 1 := by simp
        have e3 : (degree - (cdp + ((a * d : ℕ) : ℤ))).toNat = R - a * d := by omega
        rw [e1, e2, e3] at this
        simp only [Nat.zero_mul, Nat.cast_zero, add_zero, Nat.sub_zero, List.append_assoc, List.singleton_append] at this
        have e4 : ∀ x : List ℕ, (pre ++ a :: 0 :: (List.replicate ((d2 :: t).length - 1) 0 ++ x)) = pre ++ a :: (List.replicate ((dl :: d2 :: t).length - 1) 0 ++ x) := by
          intro x; simp [List.replicate_succ]
        rw [← e4]
        apply this
        intro l'
        unfold After
        have e5 : (pre.length : ℤ) + 1 - 1 = (pre.length : ℤ) := by ring
        simp only [e5]
        rw [if_neg (by omega), bump_at dp d _ _ _ pre a _ hl, hdeg]
        have e6 : (pre ++ (a + 1) :: 0 :: (List.replicate ((d2 :: t).length - 1) 0 ++ [l'])) = pre ++ (a + 1) :: (List.replicate ((dl :: d2 :: t).length - 1) 0 ++ [l']) := by
          simp [List.replicate_succ]
        rw [e6]
        apply ihk (a + 1) (by omega)
        intro l''
        have hh := hA l''
        have e7 : (comb req (dl :: d2 :: t) (R - a * d)).map (fun v => pre ++ a :: v)
            = (List.range' 0 ((R - a * d) / dl + 1)).flatMap (fun a' => (comb req (d2 :: t) (R - a * d - a' * dl)).map (fun v => pre ++ a :: a' :: v)) := by
          rw [comb, List.map_flatMap]
          congr 1
          funext a'
          rw [List.map_map]
          rfl
        rw [e7] at hh
        rw [List.append_assoc]
        exact hh

/-- the value of an exponent vector -/
def dotNat (v ds : List ℕ) : ℕ := (List.zipWith (· * ·) v ds).sum

theorem mem_comb (req : Bool) : ∀ (ds : List ℕ) (_ : ds ≠ []) (_ : ∀ d ∈ ds, 0 < d) (rem : ℕ) (v : List ℕ),
    v ∈ comb req ds rem ↔ v.length = ds.length ∧ if req then dotNat v ds = rem else dotNat v ds ≤ rem := by
  intro ds
  induction ds with
  | nil => intro h; exact absurd rfl h
  | cons d ds ih =>
    intro _ hpos rem v
    have hd : 0 < d := hpos d (by simp)
    cases ds with
    | nil =>
      unfold comb
      cases req with
      | false =>
        simp only [if_true, List.mem_map, List.mem_range, List.length_singleton]
        constructor
        · rintro ⟨j, hj, rfl⟩
          refine ⟨rfl, ?_⟩
          simp only [dotNat, List.zipWith_cons_cons, List.zipWith_nil_right, List.sum_cons, List.sum_nil, add_zero]
          calc j * d ≤ rem / d * d := Nat.mul_le_mul_right _ (by omega)
            _ ≤ rem := Nat.div_mul_le_self _ _
        · rintro ⟨hl, hs⟩
          obtain ⟨j, rfl⟩ := List.length_eq_one_iff.1 hl
          refine ⟨j, ?_, rfl⟩
          simp only [dotNat, List.zipWith_cons_cons, List.zipWith_nil_right, List.sum_cons, List.sum_nil, add_zero, Bool.false_eq_true, if_false] at hs
          have := (Nat.le_div_iff_mul_le hd).2 hs
          omega
      | true =>
        simp only [Bool.true_eq_false, if_false, if_true, List.length_singleton]
        constructor
        · intro h
          split_ifs at h with hm
          · obtain rfl : v = [rem / d] := by simpa using h
            refine ⟨rfl, ?_⟩
            simp only [dotNat, List.zipWith_cons_cons, List.zipWith_nil_right, List.sum_cons, List.sum_nil, add_zero]
            exact Nat.div_mul_cancel (Nat.dvd_of_mod_eq_zero hm)
          · cases h
        · rintro ⟨hl, hs⟩
          obtain ⟨j, rfl⟩ := List.length_eq_one_iff.1 hl
          simp only [dotNat, List.zipWith_cons_cons, List.zipWith_nil_right, List.sum_cons, List.sum_nil, add_zero] at hs
          subst hs
          rw [if_pos (Nat.mul_mod_left j d), Nat.mul_div_cancel _ hd]
          simp
    | cons d' ds =>
      rw [comb]
      simp only [List.mem_flatMap, List.mem_map, List.mem_range'_1, Nat.zero_le, true_and, Nat.zero_add]
      have ih' := ih (by simp) (fun x hx => hpos x (List.mem_cons_of_mem _ hx))
      constructor
      · rintro ⟨a, ha, w, hw, rfl⟩
        rw [ih'] at hw
        have hle : a * d ≤ rem := by
          calc a * d ≤ rem / d * d := Nat.mul_le_mul_right _ (by omega)
            _ ≤ rem := Nat.div_mul_le_self _ _
        refine ⟨by simp [hw.1], ?_⟩
        have e : dotNat (a :: w) (d :: d' :: ds) = a * d + dotNat w (d' :: ds) := by simp [dotNat]
        rw [e]
        have h2 := hw.2
        split_ifs at h2 ⊢ <;> omega
      · rintro ⟨hl, hs⟩
        cases v with
        | nil => simp at hl
        | cons a w =>
          have e : dotNat (a :: w) (d :: d' :: ds) = a * d + dotNat w (d' :: ds) := by simp [dotNat]
          rw [e] at hs
          refine ⟨a, ?_, w, ?_, rfl⟩
          · have : a * d ≤ rem := by split_ifs at hs <;> omega
            have := (Nat.le_div_iff_mul_le hd).2 this
            omega
          · rw [ih']
            refine ⟨by simpa using hl, ?_⟩
            split_ifs at hs ⊢ <;> omega

theorem comb_nodup (req : Bool) : ∀ (ds : List ℕ) (rem : ℕ), (comb req ds rem).Nodup := by
  intro ds
  induction ds with
  | nil => intro rem; exact List.nodup_nil
  | cons d ds ih =>
    intro rem
    cases ds with
    | nil =>
      unfold comb
      split_ifs
      · exact List.nodup_range.map (fun a b h => by simpa using h)
      · simp
      · simp
    | cons d' ds =>
      rw [comb, List.nodup_flatMap]
      refine ⟨fun a _ => (ih _).map (fun x y h => by simpa using h), ?_⟩
      apply (List.nodup_range' (s := 0) (n := rem / d + 1)).pairwise_of_forall_ne
      intro a _ b _ hab
      rw [Function.onFun, List.disjoint_left]
      intro v hv hw
      obtain ⟨x, -, rfl⟩ := List.mem_map.1 hv
      obtain ⟨y, -, hy⟩ := List.mem_map.1 hw
      exact hab (by simpa using (List.cons.inj hy).1.symm)

/-- **C29, partial.** For at least two positive degrees the search terminates, and lists every exponent vector with the
required total (or at most it) exactly once.  Missing: a single degree, see below. -/
theorem degreeCombinations_spec_partial (ds : List ℕ) (hlen : 2 ≤ ds.length) (hpos : ∀ d ∈ ds, 0 < d) (degree : ℤ) (req : Bool) :
    ∃ out, (∃ k, ∀ fuel, k ≤ fuel → degreeCombinations ds degree req fuel = some out) ∧ out.Nodup ∧
      ∀ v : List ℕ, v ∈ out ↔ v.length = ds.length ∧
        if req then (((List.zipWith (· * ·) v ds).sum : ℕ) : ℤ) = degree else (((List.zipWith (· * ·) v ds).sum : ℕ) : ℤ) ≤ degree := by
  match ds, hlen, hpos with
  | d :: dl :: t, hlen, hpos =>
    unfold degreeCombinations
    simp only [List.length_cons, Nat.add_eq_zero_iff, one_ne_zero, and_false, if_false]
    by_cases hneg : degree < 0
    · refine ⟨[], ⟨1, fun f hf => ?_⟩, List.nodup_nil, ?_⟩
      · obtain ⟨f, rfl⟩ : ∃ g, f = g + 1 := ⟨f - 1, by omega⟩
        unfold run step
        rw [if_neg (by simp only [List.length_cons]; push_cast; omega), if_pos (by simpa using hneg)]
        rfl
      · intro v
        constructor
        · intro h; cases h
        · rintro ⟨-, h⟩
          split_ifs at h <;> omega
    · have hA := level_halts degree req (dl :: t) (by simp) (fun x hx => hpos x (List.mem_cons_of_mem _ hx)) [] d (hpos d (by simp)) [] rfl 0 (by omega)
        (comb req (d :: dl :: t) degree.toNat) _ 0 rfl 0 []
      have := hA (by
        intro l'
        unfold After
        rw [if_pos (by simp)]
        simp only [sub_zero, Nat.sub_zero, List.nil_append]
        rw [comb])
      refine ⟨comb req (d :: dl :: t) degree.toNat, ?_, comb_nodup _ _ _, ?_⟩
      · obtain ⟨k, hk⟩ := this
        refine ⟨k, fun f hf => ?_⟩
        have := hk f hf
        simp only [List.nil_append, List.length_nil, Nat.zero_mul, List.length_cons] at this
        rw [← this]
        congr 2
        simp only [List.replicate_succ]
        congr 1
        rw [← List.replicate_succ, List.replicate_succ']
        simp
      · intro v
        rw [mem_comb req _ (by simp) hpos]
        unfold dotNat
        apply and_congr_right
        intro _
        split_ifs <;> omega

/-- **C29 violated.** With a single degree and an exact total of two, the search also returns vectors of total one and zero. -/
theorem degreeCombinations_single_wrong : ∀ fuel, 10 ≤ fuel →
    degreeCombinations [1] 2 true fuel = some [[2], [1], [0]] := by
  intro fuel h
  obtain ⟨f, rfl⟩ : ∃ g, fuel = g + 10 := ⟨fuel - 10, by omega⟩
  rfl

/-- **C29 violated (repetition).** With a single degree and an upper bound, vectors are listed several times: this is the
case of two variables, where there is one difference of variables. -/
theorem degreeCombinations_single_repeats : ∀ fuel, 10 ≤ fuel →
    degreeCombinations [2] 4 false fuel = some [[0], [1], [2], [0], [1], [0]] := by
  intro fuel h
  obtain ⟨f, rfl⟩ : ∃ g, fuel = g + 10 := ⟨fuel - 10, by omega⟩
  rfl

/-- **C29 (generated bases).** For at least two variables the generated monomials are exactly those with all exponents
multiples of the step and the right total degree, each once. -/
theorem generate_spec (stp nvars : ℕ) (hstp : 0 < stp) (hn : 2 ≤ nvars) (tdeg degree : ℤ) :
    ∃ out, (∃ k, ∀ fuel, k ≤ fuel → generate stp nvars tdeg degree true fuel = some out) ∧ out.Nodup ∧
      ∀ v : List ℕ, v ∈ out ↔ v.length = nvars ∧ (∀ e ∈ v, stp ∣ e) ∧ (v.sum : ℤ) + tdeg = degree := by
  unfold generate
  simp only
  have hsum : ∀ (v : List ℕ) (m : ℕ), v.length = m → (List.zipWith (· * ·) v (List.replicate m stp)).sum = (v.map (· * stp)).sum := by
    intro v
    induction v with
    | nil => intro m h; simp
    | cons a v ih =>
      intro m h
      cases m with
      | zero => simp at h
      | succ m => simp only [List.replicate_succ, List.zipWith_cons_cons, List.sum_cons, List.map_cons, ih m (by simpa using h)]
  have hdvd : ∀ v : List ℕ, (∀ e ∈ v, stp ∣ e) → stp ∣ v.sum := by
    intro v h
    induction v with
    | nil => simp
    | cons a v ih =>
      rw [List.sum_cons]
      exact Nat.dvd_add (h a (by simp)) (ih (fun e he => h e (by simp [he])))
  by_cases hc : degree - tdeg < 0 ∨ (degree - tdeg) % stp ≠ 0
  · simp only [if_pos hc]
    refine ⟨[], ⟨0, fun _ _ => rfl⟩, List.nodup_nil, fun v => ⟨fun h => (by cases h), ?_⟩⟩
    rintro ⟨-, h1, h2⟩
    exfalso
    obtain ⟨q, hq⟩ := hdvd v h1
    rcases hc with hc | hc
    · omega
    · apply hc
      have : degree - tdeg = (stp : ℤ) * q := by rw [show degree - tdeg = (v.sum : ℤ) by omega, hq]; push_cast; ring
      rw [this, Int.mul_emod_right]
  · simp only [if_neg hc]
    obtain ⟨out, ⟨k, hk⟩, hnd, hmem⟩ := degreeCombinations_spec_partial (List.replicate nvars stp) (by simpa using hn)
      (fun d hd => by rw [List.eq_of_mem_replicate hd]; exact hstp) (degree - tdeg) true
    refine ⟨out.map fun c => c.map (· * stp), ⟨k, fun f hf => by rw [hk f hf]; rfl⟩, ?_, ?_⟩
    · apply hnd.map
      intro x y hxy
      exact List.map_injective_iff.2 (fun a b h => Nat.eq_of_mul_eq_mul_right hstp h) hxy
    · intro v
      rw [List.mem_map]
      constructor
      · rintro ⟨c, hcm, rfl⟩
        rw [hmem] at hcm
        simp only [List.length_replicate, if_true] at hcm
        rw [hsum c nvars hcm.1] at hcm
        refine ⟨by simp [hcm.1], ?_, by omega⟩
        intro e he
        obtain ⟨x, -, rfl⟩ := List.mem_map.1 he
        exact Dvd.intro_left x rfl
      · rintro ⟨h1, h2, h3⟩
        have hv : (v.map (· / stp)).map (· * stp) = v := by
          rw [List.map_map]
          conv_rhs => rw [← List.map_id v]
          apply List.map_congr_left
          intro e he
          exact Nat.div_mul_cancel (h2 e he)
        refine ⟨v.map (· / stp), ?_, hv⟩
        rw [hmem]
        simp only [List.length_map, List.length_replicate, if_true]
        rw [hsum _ nvars (by simpa using h1), hv]
        exact ⟨h1, by omega⟩

/-- **C29 (products), partial.** If no expression is constant and there are at least two, `cross_exprs` lists exactly the products of total
degree at most the bound, each once. -/
theorem crossExprs_spec_partial {α : Type*} (deg : α → ℕ) (exprs : List α) (hpos : ∀ e ∈ exprs, 0 < deg e) (hlen : 2 ≤ exprs.length) (degree : ℤ) :
    ∃ out, (∃ k, ∀ fuel, k ≤ fuel → crossExprs deg exprs degree fuel = some out) ∧ out.Nodup ∧
      ∀ m : List (α × ℕ), m ∈ out ↔ m.map Prod.fst = exprs ∧ (((m.map fun t => t.2 * deg t.1).sum : ℕ) : ℤ) ≤ degree := by
  have hf : (exprs.map deg).filter (· > 0) = exprs.map deg := by
    rw [List.filter_eq_self]
    intro d hd
    obtain ⟨e, he, rfl⟩ := List.mem_map.1 hd
    simpa using hpos e he
  unfold crossExprs
  simp only [hf]
  have hne : ¬ (exprs.map deg).length = 0 := by simp only [List.length_map]; omega
  simp only [if_neg hne]
  obtain ⟨out, ⟨k, hk⟩, hnd, hmem⟩ := degreeCombinations_spec_partial (exprs.map deg) (by simpa using hlen)
    (fun d hd => by obtain ⟨e, he, rfl⟩ := List.mem_map.1 hd; exact hpos e he) degree false
  simp only [List.length_map, Bool.false_eq_true, if_false] at hmem
  have hz : ∀ (es : List α) (v : List ℕ), v.length = es.length → ((es.zip v).map fun t => t.2 * deg t.1) = List.zipWith (· * ·) v (es.map deg) := by
    intro es
    induction es with
    | nil => intro v h; simp at h; subst h; rfl
    | cons e es ih =>
      intro v h
      cases v with
      | nil => simp at h
      | cons a v => simp only [List.zip_cons_cons, List.map_cons, List.zipWith_cons_cons, ih v (by simpa using h)]
  have hsnd : ∀ (es : List α) (v : List ℕ), v.length = es.length → (es.zip v).map Prod.snd = v := by
    intro es
    induction es with
    | nil => intro v h; simp at h; subst h; rfl
    | cons e es ih =>
      intro v h
      cases v with
      | nil => simp at h
      | cons a v => simp only [List.zip_cons_cons, List.map_cons, ih v (by simpa using h)]
  have hfst : ∀ (es : List α) (v : List ℕ), v.length = es.length → (es.zip v).map Prod.fst = es := by
    intro es
    induction es with
    | nil => intro v h; simp at h; subst h; rfl
    | cons e es ih =>
      intro v h
      cases v with
      | nil => simp at h
      | cons a v => simp only [List.zip_cons_cons, List.map_cons, ih v (by simpa using h)]
  have hzip : ∀ m : List (α × ℕ), (m.map Prod.fst).zip (m.map Prod.snd) = m := by
    intro m
    induction m with
    | nil => rfl
    | cons a m ih => simp only [List.map_cons, List.zip_cons_cons, ih]
  refine ⟨out.map fun p => exprs.zip p, ⟨k, fun f hf => by rw [hk f hf]; rfl⟩, ?_, ?_⟩
  · rw [List.nodup_map_iff_inj_on hnd]
    intro x hx y hy h
    have := congrArg (List.map Prod.snd) h
    rwa [hsnd exprs x ((hmem x).1 hx).1, hsnd exprs y ((hmem y).1 hy).1] at this
  · intro m
    rw [List.mem_map]
    constructor
    · rintro ⟨v, hv, rfl⟩
      obtain ⟨h1, h2⟩ := (hmem v).1 hv
      exact ⟨hfst exprs v h1, by rw [hz exprs v h1]; exact h2⟩
    · rintro ⟨h1, h2⟩
      refine ⟨m.map Prod.snd, ?_, by rw [← h1]; exact hzip m⟩
      have hl : (m.map Prod.snd).length = exprs.length := by rw [← h1]; simp
      rw [hmem]
      refine ⟨hl, ?_⟩
      have e : m = exprs.zip (m.map Prod.snd) := by rw [← h1]; exact (hzip m).symm
      rw [e, hz exprs _ hl] at h2
      exact h2

/-- **C29 violated (constant expressions).** With a constant (`false`) before two expressions of degree one, powers are
attached to the wrong expressions: the last expression never occurs. -/
theorem crossExprs_wrong : ∃ out, (∀ fuel, 30 ≤ fuel → crossExprs (fun n : ℕ => if n = 0 then 0 else 1) [0, 1, 2] 1 fuel = some out) ∧
    out = [[(0, 0), (1, 0)], [(0, 0), (1, 1)], [(0, 1), (1, 0)]] := by
  refine ⟨_, fun fuel h => ?_, rfl⟩
  obtain ⟨f, rfl⟩ : ∃ g, fuel = g + 30 := ⟨fuel - 30, by omega⟩
  rfl

example : degreeCombinations [1, 2, 3] 4 true 200 = some [[0, 2, 0], [1, 0, 1], [2, 1, 0], [4, 0, 0]] := by decide +kernel
example : generate 2 2 1 5 true 200 = some [[0, 4], [2, 2], [4, 0]] := by decide +kernel
example : crossExprs (fun n : ℕ => n) [1, 2] 2 100 = some [[(1, 0), (2, 0)], [(1, 0), (2, 1)], [(1, 1), (2, 0)], [(1, 2), (2, 0)]] := by decide +kernel

end Verif.LinBasis
