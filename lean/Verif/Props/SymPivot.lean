import Verif.Model.SymSOS
import Verif.Props.Shared
import Mathlib.Tactic.Linarith
import Mathlib.Tactic.LinearCombination
import Mathlib.Data.Rat.Defs
import Mathlib.Algebra.Order.Ring.Rat

/-!
# C53: answers of `prove_by_pivoting`

`structural_sos_2vars` is external: its contract is `BivOk`.
-/

namespace Verif.SymSOS

open Verif Coeff TermsPoly MonoMgr Shared

set_option linter.unusedSectionVars false

section Value
variable {K : Type*} {β : Type*}

/-- The value of an answer; `bval b v` is the value of an answer of `structural_sos_2vars`. -/
def evalE [Field K] (bval : β → (ℕ → K) → K) : PivE β K → (ℕ → K) → K
  | .num c, _ => c
  | .ext b none, v => bval b v
  | .ext b (some h), v => bval b (Function.update v h 1)
  | .zero, _ => 0
  | .addTerm s g k r, v => evalE bval s v * v g ^ k + evalE bval r v

/-- The contract of `structural_sos_2vars`: on a homogeneous polynomial in two variables an answer has the value of the
polynomial everywhere, and is nonnegative where the constraints hold. -/
def BivOk [Field K] [LinearOrder K] (biv : List ℕ → Terms K → List ℕ → Option β) (bval : β → (ℕ → K) → K) : Prop :=
  ∀ gens p nn b, gens.length = 2 → gens.Nodup → IsPoly 2 p → (∃ d, HomDeg d p) → biv gens p nn = some b →
    ∀ v : ℕ → K, bval b v = evalDict p (gens.map v) ∧ ((∀ g ∈ nn, 0 ≤ v g) → 0 ≤ bval b v)

end Value

section Poly
variable {K : Type*} [Field K]

theorem evalMonom_eraseIdx : ∀ (i : ℕ) (m : List ℕ) (x : List K), m.length = x.length → i < x.length →
    evalMonom m x = x.getD i 0 ^ m.getD i 0 * evalMonom (m.eraseIdx i) (x.eraseIdx i)
  | 0, a :: m, y :: x, _, _ => by simp [evalMonom]
  | i + 1, a :: m, y :: x, h, hi => by
      have ih := evalMonom_eraseIdx i m x (by simpa using h) (by simpa using hi)
      simp only [evalMonom, List.zipWith_cons_cons, List.prod_cons, List.eraseIdx_cons_succ, List.getD_cons_succ] at ih ⊢
      rw [ih]; ring
  | _, [], _ :: _, h, _ => by simp at h
  | _, _ :: _, [], h, _ => by simp at h
  | _, [], [], _, hi => by simp at hi

theorem eraseIdx_inj : ∀ (i : ℕ) (a b : List ℕ), a.length = b.length → a.getD i 0 = b.getD i 0 → a.eraseIdx i = b.eraseIdx i → a = b
  | 0, x :: a, y :: b, _, h, h2 => by simp_all
  | i + 1, x :: a, y :: b, hl, h, h2 => by
      simp only [List.eraseIdx_cons_succ, List.cons.injEq, List.getD_cons_succ] at h h2
      rw [h2.1, eraseIdx_inj i a b (by simpa using hl) h h2.2]
  | _, [], [], _, _, _ => rfl
  | _, [], _ :: _, h, _, _ => by simp at h
  | _, _ :: _, [], h, _, _ => by simp at h

theorem sum_eraseIdx_le (i : ℕ) (a : List ℕ) : (a.eraseIdx i).sum ≤ a.sum :=
  List.Sublist.sum_le_sum (List.eraseIdx_sublist a i) (fun _ _ => Nat.zero_le _)

/-- The coefficient of a power of one generator is a proper polynomial in the others. -/
theorem isPoly_coeffAt {n : ℕ} (i k : ℕ) (hi : i < n + 1) (p : Terms K) (hp : IsPoly (n + 1) p) : IsPoly n (coeffAt i k p) := by
  refine ⟨?_, ?_, ?_⟩
  · have : dkeys (coeffAt i k p) = (dkeys (p.filter fun t => t.1.getD i 0 == k)).map fun m => m.eraseIdx i := by
      simp [dkeys, coeffAt, List.map_map, Function.comp_def]
    rw [this]
    have hsub : (dkeys (p.filter fun t => t.1.getD i 0 == k)).Sublist (dkeys p) := List.Sublist.map _ List.filter_sublist
    refine (List.nodup_map_iff_inj_on (hsub.nodup hp.nodup)).2 ?_
    intro a ha b hb h
    obtain ⟨s, hs, rfl⟩ := List.mem_map.1 ha
    obtain ⟨t, ht, rfl⟩ := List.mem_map.1 hb
    simp only [List.mem_filter, beq_iff_eq] at hs ht
    exact eraseIdx_inj i _ _ (by rw [hp.length s hs.1, hp.length t ht.1]) (by rw [hs.2, ht.2]) h
  · intro t ht
    obtain ⟨s, hs, rfl⟩ := List.mem_map.1 ht
    have := hp.length s (List.mem_filter.1 hs).1
    rw [List.length_eraseIdx_of_lt (by omega)]; omega
  · intro t ht
    obtain ⟨s, hs, rfl⟩ := List.mem_map.1 ht
    exact hp.ne_zero s (List.mem_filter.1 hs).1

theorem evalDict_split (f : List ℕ × K → Bool) (p : Terms K) (x : List K) :
    evalDict p x = evalDict (p.filter f) x + evalDict (p.filter fun t => !f t) x := by
  induction p with
  | nil => simp [evalDict_nil]
  | cons a p ih =>
    by_cases h : f a = true
    · rw [List.filter_cons_of_pos h, List.filter_cons_of_neg (by simp [h]), evalDict_cons, evalDict_cons, ih]; ring
    · rw [List.filter_cons_of_neg h, List.filter_cons_of_pos (by simpa using h), evalDict_cons, evalDict_cons, ih]; ring

theorem evalDict_coeffAt (i k : ℕ) (p : Terms K) (x : List K) (hi : i < x.length) (hp : Arity x.length p) :
    evalDict (p.filter fun t => t.1.getD i 0 == k) x = x.getD i 0 ^ k * evalDict (coeffAt i k p) (x.eraseIdx i) := by
  unfold coeffAt
  induction p with
  | nil => simp [evalDict_nil]
  | cons a p ih =>
    have ih := ih fun t ht => hp t (List.mem_cons_of_mem _ ht)
    by_cases h : a.1.getD i 0 = k
    · rw [List.filter_cons_of_pos (by rw [h]; exact beq_self_eq_true k), List.map_cons, evalDict_cons, evalDict_cons, ih,
        evalMonom_eraseIdx i a.1 x (hp a (List.mem_cons_self ..)) hi, h]; ring
    · rw [List.filter_cons_of_neg (by simpa using h), ih]

/-- The polynomial is the sum of its coefficients in one generator times the powers. -/
theorem evalDict_group (i : ℕ) (x : List K) (hi : i < x.length) : ∀ (ks : List ℕ) (p : Terms K), ks.Nodup → Arity x.length p →
    (∀ t ∈ p, t.1.getD i 0 ∈ ks) →
    evalDict p x = (ks.map fun k => evalDict (coeffAt i k p) (x.eraseIdx i) * x.getD i 0 ^ k).sum
  | [], p, _, _, h => by
      cases p with
      | nil => simp [evalDict_nil]
      | cons a p => exact absurd (h a (List.mem_cons_self ..)) (by simp)
  | k :: ks, p, hn, hp, h => by
      rw [List.nodup_cons] at hn
      have hq : Arity x.length (p.filter fun t => !(t.1.getD i 0 == k)) := fun t ht => hp t (List.mem_filter.1 ht).1
      have ih := evalDict_group i x hi ks (p.filter fun t => !(t.1.getD i 0 == k)) hn.2 hq (by
        intro t ht
        obtain ⟨h1, h2⟩ := List.mem_filter.1 ht
        rcases List.mem_cons.1 (h t h1) with h3 | h3
        · rw [h3] at h2; simp at h2
        · exact h3)
      rw [evalDict_split (fun t => t.1.getD i 0 == k) p x, evalDict_coeffAt i k p x hi hp, ih, List.map_cons, List.sum_cons, mul_comm]
      congr 2
      apply List.map_congr_left
      intro k' hk'
      have : coeffAt i k' (p.filter fun t => !(t.1.getD i 0 == k)) = coeffAt i k' p := by
        unfold coeffAt
        rw [List.filter_filter]
        congr 1
        apply List.filter_congr
        intro t _
        generalize t.1.getD i 0 = y
        by_cases h4 : y = k'
        · have : k' ≠ k := fun h5 => hn.1 (h5 ▸ hk')
          simp [h4, this]
        · simp [h4]
      rw [this]

theorem mem_expsAt (i : ℕ) (p : Terms K) (k : ℕ) : k ∈ expsAt i p ↔ ∃ t ∈ p, t.1.getD i 0 = k := by
  unfold expsAt
  rw [List.mem_insertionSort, List.mem_dedup, List.mem_map]

theorem nodup_expsAt (i : ℕ) (p : Terms K) : (expsAt i p).Nodup := by
  unfold expsAt
  exact (List.perm_insertionSort _ _).nodup_iff.2 (List.nodup_dedup _)

theorem le_degAt (i : ℕ) (p : Terms K) (t : List ℕ × K) (ht : t ∈ p) : t.1.getD i 0 ≤ degAt i p :=
  (foldl_max_le _ 0).1 _ (List.mem_map.2 ⟨t, ht, rfl⟩)

theorem drop_gen (i : ℕ) (p : Terms K) (h : degAt i p = 0) : (p.map fun t => (t.1.eraseIdx i, t.2)) = coeffAt i 0 p := by
  unfold coeffAt
  rw [List.filter_eq_self.2]
  intro t ht
  have := le_degAt i p t ht
  simp only [beq_iff_eq]; omega

theorem map_eraseIdx (v : ℕ → K) (gens : List ℕ) (i : ℕ) : (gens.eraseIdx i).map v = (gens.map v).eraseIdx i := by
  rw [List.eraseIdx_map]

end Poly

section Main
variable {K : Type*} [Field K] [LinearOrder K] [IsStrictOrderedRing K] {β : Type*}

/-- What an answer promises at every point. -/
def Sound (bval : β → (ℕ → K) → K) (nonneg gens : List ℕ) (p : Terms K) (e : PivE β K) : Prop :=
  ∀ v : ℕ → K, evalE bval e v = evalDict p (gens.map v) ∧ ((∀ g ∈ gens, g ∈ nonneg → 0 ≤ v g) → 0 ≤ evalE bval e v)

theorem mem_priority (nonneg gens : List ℕ) (p : Terms K) (a : ℕ × Bool × ℕ) (h : a ∈ priority nonneg gens p) :
    a.2.2 < gens.length ∧ a.1 = degAt a.2.2 p ∧ a.2.1 = nonneg.contains (gens.getD a.2.2 0) := by
  unfold priority at h
  rw [List.mem_insertionSort] at h
  obtain ⟨i, hi, rfl⟩ := List.mem_map.1 h
  exact ⟨List.mem_range.1 hi, rfl, rfl⟩

theorem getD_map_lt (v : ℕ → K) (gens : List ℕ) (i : ℕ) (hi : i < gens.length) : (gens.map v).getD i 0 = v (gens.getD i 0) := by
  simp [List.getD_eq_getElem?_getD, List.getElem?_map, hi]

theorem pivTerms_sound (bval : β → (ℕ → K) → K) (nonneg gens : List ℕ) (p : Terms K) (i : ℕ) (hi : i < gens.length)
    (rec : List ℕ → Terms K → Option (PivE β K))
    (hrec : ∀ k s, rec (gens.eraseIdx i) (coeffAt i k p) = some s → Sound bval nonneg (gens.eraseIdx i) (coeffAt i k p) s)
    (hpos : ∀ (v : ℕ → K) k, k ∈ expsAt i p → (∀ g ∈ gens, g ∈ nonneg → 0 ≤ v g) → 0 ≤ v (gens.getD i 0) ^ k) :
    ∀ (ks : List ℕ) (e : PivE β K), (∀ k ∈ ks, k ∈ expsAt i p) → pivTerms rec gens p i ks = some e → ∀ v : ℕ → K,
      evalE bval e v = (ks.map fun k => evalDict (coeffAt i k p) ((gens.map v).eraseIdx i) * (gens.map v).getD i 0 ^ k).sum ∧
      ((∀ g ∈ gens, g ∈ nonneg → 0 ≤ v g) → 0 ≤ evalE bval e v)
  | [], e, _, h, v => by
      simp only [pivTerms, Option.some.injEq] at h
      subst h
      simp [evalE]
  | k :: ks, e, hks, h, v => by
      unfold pivTerms at h
      cases hr : rec (gens.eraseIdx i) (coeffAt i k p) with
      | none => rw [hr] at h; simp at h
      | some s =>
        rw [hr] at h
        obtain ⟨r, h1, rfl⟩ := Option.map_eq_some_iff.1 h
        obtain ⟨ih1, ih2⟩ := pivTerms_sound bval nonneg gens p i hi rec hrec hpos ks r
          (fun k hk => hks k (List.mem_cons_of_mem _ hk)) h1 v
        obtain ⟨hs1, hs2⟩ := hrec k s hr v
        constructor
        · simp only [evalE, List.map_cons, List.sum_cons]
          rw [ih1, hs1, map_eraseIdx, getD_map_lt v gens i hi]
        · intro hv
          have h3 := hs2 fun g hg hn => hv g (List.mem_of_mem_eraseIdx hg) hn
          have h4 := hpos v k (hks k (List.mem_cons_self ..)) hv
          simp only [evalE]
          exact add_nonneg (mul_nonneg h3 h4) (ih2 hv)

theorem getD_mem (gens : List ℕ) (i : ℕ) (hi : i < gens.length) : gens.getD i 0 ∈ gens := by
  rw [List.getD_eq_getElem?_getD, List.getElem?_eq_getElem hi]; exact List.getElem_mem hi

theorem pivLoop_sound (bval : β → (ℕ → K) → K) (nonneg gens : List ℕ) (p : Terms K) (hp : Arity gens.length p)
    (rec : List ℕ → Terms K → Option (PivE β K))
    (hrec : ∀ i k s, i < gens.length → rec (gens.eraseIdx i) (coeffAt i k p) = some s →
      Sound bval nonneg (gens.eraseIdx i) (coeffAt i k p) s) :
    ∀ (pr : List (ℕ × Bool × ℕ)) (e : PivE β K),
      (∀ a ∈ pr, a.2.2 < gens.length ∧ a.1 = degAt a.2.2 p ∧ a.2.1 = nonneg.contains (gens.getD a.2.2 0)) →
      pivLoop rec gens p pr = some e → Sound bval nonneg gens p e
  | [], e, _, h => by simp [pivLoop] at h
  | (d, nn, i) :: rest, e, hpr, h => by
      obtain ⟨hi, hd, hnn⟩ := hpr _ (List.mem_cons_self ..)
      have ih := pivLoop_sound bval nonneg gens p hp rec hrec rest e fun a ha => hpr a (List.mem_cons_of_mem _ ha)
      simp only at hi hd hnn
      have hgrp : ∀ (v : ℕ → K) (ks : List ℕ), ks.Nodup → (∀ t ∈ p, t.1.getD i 0 ∈ ks) → evalDict p (gens.map v) =
          (ks.map fun k => evalDict (coeffAt i k p) ((gens.map v).eraseIdx i) * (gens.map v).getD i 0 ^ k).sum :=
        fun v ks h1 h2 => evalDict_group i (gens.map v) (by simpa using hi) ks p h1 (by simpa using hp) h2
      unfold pivLoop at h
      by_cases h0 : d = 0
      · rw [if_pos h0, drop_gen i p (by omega)] at h
        intro v
        obtain ⟨h1, h2⟩ := hrec i 0 e hi h v
        refine ⟨?_, fun hv => h2 fun g hg hn => hv g (List.mem_of_mem_eraseIdx hg) hn⟩
        rw [h1, map_eraseIdx, hgrp v [0] (by simp) (by
          intro t ht
          have := le_degAt i p t ht
          simp only [List.mem_singleton]; omega)]
        simp
      · rw [if_neg h0] at h
        by_cases hc : (nn || (expsAt i p).all (fun k => k % 2 == 0)) = true
        · rw [if_pos hc] at h
          cases ht : pivTerms rec gens p i (expsAt i p) with
          | none => rw [ht] at h; exact ih h
          | some e' =>
            rw [ht] at h
            obtain rfl : e' = e := by simpa using h
            have hpos : ∀ (v : ℕ → K) k, k ∈ expsAt i p → (∀ g ∈ gens, g ∈ nonneg → 0 ≤ v g) → 0 ≤ v (gens.getD i 0) ^ k := by
              intro v k hk hv
              rcases Bool.or_eq_true_iff.1 hc with h1 | h1
              · rw [hnn] at h1
                exact pow_nonneg (hv _ (getD_mem gens i hi) (by simpa using h1)) k
              · have := List.all_eq_true.1 h1 k hk
                exact Even.pow_nonneg (Nat.even_iff.2 (by simpa using this)) _
            intro v
            obtain ⟨h1, h2⟩ := pivTerms_sound bval nonneg gens p i hi rec (fun k s => hrec i k s hi) hpos (expsAt i p) e'
              (fun _ h => h) ht v
            exact ⟨by rw [h1, hgrp v _ (nodup_expsAt i p) fun t ht => (mem_expsAt i p _).2 ⟨t, ht, rfl⟩], h2⟩
        · rw [if_neg hc] at h
          exact ih h

theorem const_value (n : ℕ) (p : Terms K) (hp : IsPoly n p) (h : p.all (fun t => t.1.sum == 0) = true) (x : List K) :
    evalDict p x = (dget p (List.replicate n 0)).getD 0 := by
  have hk : ∀ t ∈ p, t.1 = List.replicate n 0 := by
    intro t ht
    have h1 := List.all_eq_true.1 h t ht
    rw [List.eq_replicate_iff]
    exact ⟨hp.length t ht, fun b hb => by
      have : t.1.sum = 0 := by simpa using h1
      exact List.sum_eq_zero_iff.1 this b hb⟩
  cases p with
  | nil => simp [evalDict_nil, dget]
  | cons a p =>
    have hnil : p = [] := by
      cases p with
      | nil => rfl
      | cons b p =>
        have hn := hp.nodup
        simp only [dkeys, List.map_cons, List.nodup_cons, List.mem_cons, not_or] at hn
        exact absurd ((hk a (by simp)).trans (hk b (by simp)).symm) hn.1.1
    subst hnil
    obtain ⟨m, c⟩ := a
    have := hk (m, c) (by simp)
    simp only at this
    subst this
    rw [evalDict_cons, evalDict_nil, evalMonom_zero]
    simp [dget]

/-- **C53.** Whenever `prove_by_pivoting` gives an expression, its value is the value of the polynomial at every point, and it is
nonnegative at every point where the symbols declared nonnegative are nonnegative. -/
theorem pivoting_sound (biv : List ℕ → Terms K → List ℕ → Option β) (bval : β → (ℕ → K) → K) (hb : BivOk biv bval)
    (fresh : ℕ → ℕ) (hf : ∀ g, fresh g ≠ g) (nonneg : List ℕ) :
    ∀ (n : ℕ) (gens : List ℕ) (p : Terms K) (e : PivE β K), gens.Nodup → IsPoly gens.length p →
      proveByPivoting biv fresh nonneg n gens p = some e →
      ∀ v : ℕ → K, evalE bval e v = evalDict p (gens.map v) ∧ ((∀ g ∈ gens, g ∈ nonneg → 0 ≤ v g) → 0 ≤ evalE bval e v)
  | 0, _, _, _, _, _, h => by simp [proveByPivoting] at h
  | n + 1, gens, p, e, hg, hp, h => by
      have ih := pivoting_sound biv bval hb fresh hf nonneg n
      unfold proveByPivoting at h
      by_cases h0 : p.all (fun t => t.1.sum == 0) = true
      · rw [if_pos h0] at h
        dsimp only at h
        by_cases hc : 0 ≤ (dget p (List.replicate gens.length 0)).getD 0
        · rw [if_pos hc] at h
          obtain rfl : PivE.num _ = e := by simpa using h
          exact fun v => ⟨(const_value gens.length p hp h0 _).symm, fun _ => hc⟩
        · rw [if_neg hc] at h; simp at h
      rw [if_neg h0] at h
      by_cases hodd : ((List.range gens.length).any fun i => !(nonneg.contains (gens.getD i 0)) && degAt i p % 2 == 1) = true
      · rw [if_pos hodd] at h; simp at h
      rw [if_neg hodd] at h
      by_cases h1 : gens.length = 1
      · rw [if_pos h1] at h
        obtain ⟨b, hb1, rfl⟩ := Option.map_eq_some_iff.1 h
        obtain ⟨g, rfl⟩ := List.length_eq_one_iff.1 h1
        simp only [List.getD_cons_zero, List.singleton_append] at hb1 ⊢
        have hne := hf g
        obtain ⟨hh1, hh2⟩ := homogenizeNew_hom 1 p hp
        intro v
        obtain ⟨h2, h3⟩ := hb [g, fresh g] (homogenizeNew 1 p) _ b rfl (by simp [hne.symm]) hh2 ⟨_, hh1⟩ hb1 (Function.update v (fresh g) 1)
        constructor
        · change bval b _ = _
          rw [h2]
          have : ([g, fresh g].map (Function.update v (fresh g) 1)) = [v g] ++ [1] := by
            simp [Function.update_of_ne hne.symm]
          rw [this, homogenizeNew_one 1 p [v g] rfl hp.length]; rfl
        · intro hv
          apply h3
          intro g' hg'
          rw [List.mem_filter] at hg'
          rcases List.mem_cons.1 hg'.1 with rfl | h4
          · rw [Function.update_of_ne hne.symm]
            exact hv _ (by simp) (by simpa using hg'.2)
          · rw [List.mem_singleton.1 h4, Function.update_self]; exact zero_le_one
      rw [if_neg h1] at h
      by_cases h2 : gens.length = 2 ∧ isHomogeneous p = true
      · rw [if_pos h2] at h
        obtain ⟨b, hb1, rfl⟩ := Option.map_eq_some_iff.1 h
        intro v
        obtain ⟨h3, h4⟩ := hb gens p _ b h2.1 hg (h2.1 ▸ hp) ((isHomogeneous_iff p).1 h2.2) hb1 v
        refine ⟨h3, fun hv => h4 fun g hg' => ?_⟩
        rw [List.mem_filter] at hg'
        exact hv g hg'.1 (by simpa using hg'.2)
      rw [if_neg h2] at h
      refine pivLoop_sound bval nonneg gens p hp.length _ ?_ _ e (fun a ha => mem_priority nonneg gens p a ha) h
      intro i k s hi hs
      have hlen : (gens.eraseIdx i).length + 1 = gens.length := by rw [List.length_eraseIdx_of_lt hi]; omega
      refine ih (gens.eraseIdx i) (coeffAt i k p) s (hg.sublist (List.eraseIdx_sublist gens i)) ?_ hs
      exact isPoly_coeffAt i k (by omega) p (hlen ▸ hp)

/-- **C53.** The recursion stops: it is never deeper than the number of generators, so a larger bound changes nothing. -/
theorem pivoting_terminates (biv : List ℕ → Terms K → List ℕ → Option β) (fresh : ℕ → ℕ) (nonneg : List ℕ) :
    ∀ (n m : ℕ) (gens : List ℕ) (p : Terms K), gens.length < n → gens.length < m →
      proveByPivoting biv fresh nonneg n gens p = proveByPivoting biv fresh nonneg m gens p
  | 0, _, _, _, h, _ => by omega
  | _, 0, _, _, _, h => by omega
  | n + 1, m + 1, gens, p, hn, hm => by
      have ih := pivoting_terminates biv fresh nonneg n m
      have hlen : ∀ i, i < gens.length → (gens.eraseIdx i).length + 1 = gens.length := fun i hi => by
        rw [List.length_eraseIdx_of_lt hi]; omega
      have hterms : ∀ i, i < gens.length → ∀ ks, pivTerms (proveByPivoting biv fresh nonneg n) gens p i ks =
          pivTerms (proveByPivoting biv fresh nonneg m) gens p i ks := by
        intro i hi ks
        induction ks with
        | nil => rfl
        | cons k ks ihk =>
          unfold pivTerms
          rw [ih (gens.eraseIdx i) (coeffAt i k p) (by have := hlen i hi; omega) (by have := hlen i hi; omega), ihk]
      have hloop : ∀ pr : List (ℕ × Bool × ℕ), (∀ a ∈ pr, a.2.2 < gens.length) → pivLoop (proveByPivoting biv fresh nonneg n) gens p pr =
          pivLoop (proveByPivoting biv fresh nonneg m) gens p pr := by
        intro pr hpr
        induction pr with
        | nil => rfl
        | cons a pr ihp =>
          obtain ⟨d, nn, i⟩ := a
          have hi := hpr _ (List.mem_cons_self ..)
          simp only at hi
          have := hlen i hi
          unfold pivLoop
          rw [ih (gens.eraseIdx i) _ (by omega) (by omega), hterms i hi, ihp fun a ha => hpr a (List.mem_cons_of_mem _ ha)]
      unfold proveByPivoting
      rw [hloop _ fun a ha => (mem_priority nonneg gens p a ha).1]

/-! A concrete case: `a**2*b**2 + b**2*c + c**3` in `a, b, c` with `c >= 0`; `structural_sos_2vars` is represented by a solver that
answers with sums of monomials with nonnegative coefficients. -/

/-- A solver for the example: it accepts polynomials whose exponents of free generators are even and whose coefficients are positive. -/
def monoBiv (gens : List ℕ) (p : Terms ℚ) (nn : List ℕ) : Option (List ℕ × Terms ℚ) :=
  if p.all fun t => decide (0 ≤ t.2) && (List.zip gens t.1).all fun ge => nn.contains ge.1 || ge.2 % 2 == 0 then some (gens, p) else none

theorem monoBiv_ok : BivOk monoBiv (fun b v => evalDict b.2 (b.1.map v)) := by
  intro gens p nn b hl _ hp hd h v
  unfold monoBiv at h
  by_cases hc : (p.all fun t => decide (0 ≤ t.2) && (List.zip gens t.1).all fun ge => nn.contains ge.1 || ge.2 % 2 == 0) = true
  · rw [if_pos hc] at h
    obtain rfl : (gens, p) = b := by simpa using h
    refine ⟨rfl, fun hv => ?_⟩
    have hmon : ∀ (gs : List ℕ) (m : List ℕ), ((List.zip gs m).all fun ge => nn.contains ge.1 || ge.2 % 2 == 0) = true →
        0 ≤ evalMonom m (gs.map v) := by
      intro gs
      induction gs with
      | nil => intro m _; cases m <;> simp [evalMonom]
      | cons g gs ih =>
        intro m hm
        cases m with
        | nil => simp [evalMonom]
        | cons k m =>
          rw [List.zip_cons_cons, List.all_cons, Bool.and_eq_true] at hm
          have h2 := ih m hm.2
          simp only [evalMonom, List.map_cons, List.zipWith_cons_cons, List.prod_cons] at h2 ⊢
          refine mul_nonneg ?_ h2
          rcases Bool.or_eq_true_iff.1 hm.1 with h3 | h3
          · exact pow_nonneg (hv g (by simpa using h3)) k
          · exact Even.pow_nonneg (Nat.even_iff.2 (by simpa using h3)) _
    have hall := List.all_eq_true.1 hc
    change 0 ≤ evalDict p (gens.map v)
    clear hp hc h hd
    induction p with
    | nil => simp [evalDict_nil]
    | cons a p ih =>
      rw [evalDict_cons]
      have h4 := hall a (List.mem_cons_self ..)
      rw [Bool.and_eq_true, decide_eq_true_eq] at h4
      exact add_nonneg (mul_nonneg h4.1 (hmon gens a.1 h4.2)) (ih fun t ht => hall t (List.mem_cons_of_mem _ ht))
  · rw [if_neg hc] at h; simp at h

example : (proveByPivoting monoBiv (· + 10) [2] 4 [0, 1, 2] [([2, 2, 0], 1), ([0, 2, 1], 1), ([0, 0, 3], 1)]).isSome = true := by
  decide +kernel
/-- without the sign of `c` there is no answer: the degree in `c` is odd -/
example : (proveByPivoting monoBiv (· + 10) [] 4 [0, 1, 2] [([2, 2, 0], 1), ([0, 2, 1], 1), ([0, 0, 3], 1)]).isSome = false := by
  decide +kernel
example : IsPoly 3 ([([2, 2, 0], 1), ([0, 2, 1], 1), ([0, 0, 3], 1)] : Terms ℚ) :=
  ⟨by decide, by simp, by simp⟩

end Main

end Verif.SymSOS
