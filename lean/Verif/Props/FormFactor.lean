import Verif.Model.Form
import Mathlib.Algebra.BigOperators.Group.Finset.Basic
import Mathlib.Algebra.Group.Action.Defs
import Mathlib.Algebra.Order.Ring.Rat
import Mathlib.Algebra.Ring.Parity
import Mathlib.Tactic.Ring
import Mathlib.Tactic.NormNum
import Mathlib.Data.ZMod.Basic

/-!
# `_reduce_factor_list`: the reduced factors multiply to the polynomial, up to a sign that can be wrong
-/

namespace Verif.Form

open Verif

variable {F G K P : Type*} [DecidableEq F] [Field K]

/-- `-1` or `1`. -/
def sgn (b : Bool) : K := if b then -1 else 1

theorem sgn_xor (a b : Bool) : (sgn (xor a b) : K) = sgn a * sgn b := by cases a <;> cases b <;> simp [sgn]

theorem sgn_mul_self (a : Bool) : (sgn a * sgn a : K) = 1 := by cases a <;> simp [sgn]

/-- The product of powers of factors. -/
def powVal (v : F → K) (l : List (F × ℕ)) : K := (l.map fun e => v e.1 ^ e.2).prod

/-- The value of what is printed: the sign, the remaining factors, and `p(...)` for the cyclic ones.  `perm g x` is the point with permuted coordinates. -/
def Reduced.val (v : F → P → K) (perm : G → P → P) (elems : List G) (s : Reduced F) (x : P) : K :=
  sgn s.neg * powVal (fun f => v f x) s.pow * (s.cyc.map fun e => ((elems.map fun g => v e.1 (perm g x)).prod) ^ e.2).prod

theorem powVal_dset_new {v : F → K} {l : List (F × ℕ)} {f : F} {n : ℕ} : (h : dget l f = none) → powVal v (dset l f n) = powVal v l * v f ^ n := by
  induction l with
  | nil => intro _; simp [dset, powVal]
  | cons e l ih =>
    intro h
    obtain ⟨k, m⟩ := e
    simp only [dget] at h
    split_ifs at h with hk
    simp only [dset, if_neg hk, powVal, List.map_cons, List.prod_cons] at ih ⊢
    rw [ih h]
    ring

theorem powVal_dset {v : F → K} {l : List (F × ℕ)} {f : F} {m n : ℕ} : (h : dget l f = some m) → powVal v (dset l f (m + n)) = powVal v l * v f ^ n := by
  induction l with
  | nil => intro h; cases h
  | cons e l ih =>
    intro h
    obtain ⟨k, m'⟩ := e
    simp only [dget] at h
    split_ifs at h with hk
    · obtain rfl := Option.some.inj h
      subst hk
      simp only [dset, if_true, powVal, List.map_cons, List.prod_cons, pow_add]
      ring
    · simp only [dset, if_neg hk, powVal, List.map_cons, List.prod_cons] at ih ⊢
      rw [ih h]
      ring

theorem powVal_lower {v : F → K} {l : List (F × ℕ)} {f : F} {m n : ℕ} : (h : dget l f = some (m + n)) → powVal v (dset l f m) * v f ^ n = powVal v l := by
  induction l with
  | nil => intro h; cases h
  | cons e l ih =>
    intro h
    obtain ⟨k, m'⟩ := e
    simp only [dget] at h
    split_ifs at h with hk
    · obtain rfl := Option.some.inj h
      subst hk
      simp only [dset, if_true, powVal, List.map_cons, List.prod_cons, pow_add]
      ring
    · simp only [dset, if_neg hk, powVal, List.map_cons, List.prod_cons] at ih ⊢
      rw [← ih h]
      ring

theorem powVal_ddel {v : F → K} {l : List (F × ℕ)} {f : F} {m : ℕ} : (hn : (dkeys l).Nodup) → (h : dget l f = some m) → powVal v (ddel l f) * v f ^ m = powVal v l := by
  induction l with
  | nil => intro _ h; cases h
  | cons e l ih =>
    intro hn h
    obtain ⟨k, m'⟩ := e
    simp only [dkeys, List.map_cons, List.nodup_cons] at hn
    simp only [dget] at h
    split_ifs at h with hk
    · obtain rfl := Option.some.inj h
      subst hk
      have : ddel ((k, m') :: l) k = l := by
        unfold ddel
        rw [List.filter_cons_of_neg (by simp), List.filter_eq_self]
        intro e he
        exact decide_eq_true fun h => hn.1 (List.mem_map.2 ⟨e, he, h⟩)
      rw [this]
      simp only [powVal, List.map_cons, List.prod_cons]
      ring
    · have : ddel ((k, m') :: l) f = (k, m') :: ddel l f := by
        unfold ddel
        rw [List.filter_cons_of_pos (by simpa using hk)]
      rw [this]
      have ih := ih hn.2 h
      simp only [powVal, List.map_cons, List.prod_cons] at ih ⊢
      rw [← ih]
      ring

/-- What the inner loop has counted. -/
structure Counted (pow sub : List (F × ℕ)) : Prop where
  nodup : (dkeys sub).Nodup
  bound : ∀ f n, dget sub f = some n → 0 < n ∧ ∃ k, dget pow f = some k ∧ n ≤ k

theorem orbitLoop_spec {O : Orbit F G} {pow : List (F × ℕ)} {base : F} (v : F → K) : ∀ (gs : List G) {sub : List (F × ℕ)} {sign : Bool} {rep : F} {sub' : List (F × ℕ)} {sign' : Bool} {rep' : F},
    orbitLoop O pow base gs sub sign rep = some (sub', sign', rep') → Counted pow sub →
      powVal v sub' = powVal v sub * (gs.map fun g => v (O.act g base).1).prod ∧ (sgn sign' : K) = sgn sign * (gs.map fun g => sgn (O.act g base).2).prod ∧
        (rep' = rep ∨ ∃ g ∈ gs, rep' = (O.act g base).1) ∧ Counted pow sub' ∧ (sub = [] → gs ≠ [] → sub' ≠ []) ∧ (sub ≠ [] → sub' ≠ [])
  | [], sub, sign, rep, sub', sign', rep', h, hc => by
    simp only [orbitLoop, Option.some.injEq, Prod.mk.injEq] at h
    obtain ⟨rfl, rfl, rfl⟩ := h
    exact ⟨by simp, by simp, Or.inl rfl, hc, fun _ h => absurd rfl h, id⟩
  | g :: gs, sub, sign, rep, sub', sign', rep', h, hc => by
    simp only [orbitLoop] at h
    cases hp : dget pow (O.act g base).1 with
    | none => rw [hp] at h; cases h
    | some k =>
      rw [hp] at h
      dsimp only at h
      by_cases hk : k < (dget sub (O.act g base).1).getD 0 + 1
      · rw [if_pos hk] at h
        cases h
      rw [if_neg hk] at h
      have hne : dset sub (O.act g base).1 ((dget sub (O.act g base).1).getD 0 + 1) ≠ [] := by
        intro h0
        have := (mem_dkeys_dset sub (O.act g base).1 ((dget sub (O.act g base).1).getD 0 + 1) (O.act g base).1).2 (Or.inl rfl)
        rw [h0] at this
        cases this
      obtain ⟨h1, h2, h3, h4, _, h6⟩ := orbitLoop_spec v gs h ⟨dkeys_nodup_dset _ _ _ hc.nodup, by
        intro f n hf
        rw [dget_dset] at hf
        split_ifs at hf with he
        · obtain rfl := Option.some.inj hf
          exact ⟨Nat.succ_pos _, k, he ▸ hp, not_lt.1 hk⟩
        · exact hc.bound f n hf⟩
      refine ⟨?_, ?_, ?_, h4, fun _ _ => h6 hne, fun _ => h6 hne⟩
      · rw [h1, List.map_cons, List.prod_cons, ← mul_assoc]
        congr 1
        cases hs : dget sub (O.act g base).1 with
        | none => rw [Option.getD_none, powVal_dset_new hs, zero_add, pow_one]
        | some m => rw [Option.getD_some, powVal_dset hs, pow_one]
      · rw [h2, sgn_xor, List.map_cons, List.prod_cons, mul_assoc]
      · rcases h3 with h3 | ⟨g', hg', h3⟩
        · split_ifs at h3
          · exact Or.inr ⟨g, List.mem_cons_self, h3⟩
          · exact Or.inl h3
        · exact Or.inr ⟨g', List.mem_cons_of_mem _ hg', h3⟩

theorem foldl_min_le : ∀ (l : List ℕ) (x : ℕ), l.foldl min x ≤ x ∧ ∀ y ∈ l, l.foldl min x ≤ y
  | [], x => ⟨le_refl x, fun _ h => by cases h⟩
  | a :: l, x => by
    obtain ⟨h1, h2⟩ := foldl_min_le l (min x a)
    refine ⟨h1.trans (min_le_left _ _), fun y hy => ?_⟩
    rcases List.mem_cons.1 hy with rfl | hy
    · exact h1.trans (min_le_right _ _)
    · exact h2 y hy

theorem foldl_min_pos : ∀ (l : List ℕ) (x : ℕ), 0 < x → (∀ y ∈ l, 0 < y) → 0 < l.foldl min x
  | [], _, h, _ => h
  | a :: l, x, h, hl => foldl_min_pos l (min x a) (lt_min h (hl a List.mem_cons_self)) fun y hy => hl y (List.mem_cons_of_mem _ hy)

theorem commonPow_le {pow sub : List (F × ℕ)} (hc : Counted pow sub) {e : F × ℕ} (he : e ∈ sub) : ∃ k, dget pow e.1 = some k ∧ commonPow pow sub * e.2 ≤ k := by
  obtain ⟨h0, k, hk, _⟩ := hc.bound e.1 e.2 ((dget_eq_some_iff sub hc.nodup _ _).2 he)
  refine ⟨k, hk, ?_⟩
  have hle : commonPow pow sub ≤ k / e.2 := by
    have hm : k / e.2 ∈ sub.map fun e => (dget pow e.1).getD 0 / e.2 := List.mem_map.2 ⟨e, he, by rw [hk]; rfl⟩
    unfold commonPow
    cases hl : sub.map fun e => (dget pow e.1).getD 0 / e.2 with
    | nil => exact Nat.zero_le _
    | cons x l =>
      rw [hl] at hm
      rcases List.mem_cons.1 hm with h | h
      · exact h ▸ (foldl_min_le l x).1
      · exact (foldl_min_le l x).2 _ h
  calc commonPow pow sub * e.2 ≤ k / e.2 * e.2 := Nat.mul_le_mul_right _ hle
    _ ≤ k := Nat.div_mul_le_self _ _

/-- A completed inner loop takes out at least one full orbit. -/
theorem commonPow_pos {pow sub : List (F × ℕ)} (hc : Counted pow sub) (hne : sub ≠ []) : 0 < commonPow pow sub := by
  have hall : ∀ y ∈ sub.map (fun e => (dget pow e.1).getD 0 / e.2), 0 < y := by
    intro y hy
    obtain ⟨e, he, rfl⟩ := List.mem_map.1 hy
    obtain ⟨h0, k, hk, hle⟩ := hc.bound e.1 e.2 ((dget_eq_some_iff sub hc.nodup _ _).2 he)
    rw [hk]
    exact Nat.div_pos hle h0
  unfold commonPow
  cases hl : sub.map fun e => (dget pow e.1).getD 0 / e.2 with
  | nil => exact absurd (List.map_eq_nil_iff.1 hl) hne
  | cons x l =>
    rw [hl] at hall
    exact foldl_min_pos l x (hall x List.mem_cons_self) fun y hy => hall y (List.mem_cons_of_mem _ hy)

theorem removePow_spec (v : F → K) (d : ℕ) : ∀ (sub pow : List (F × ℕ)), (dkeys sub).Nodup → (dkeys pow).Nodup → (∀ e ∈ sub, ∃ k, dget pow e.1 = some k ∧ d * e.2 ≤ k) →
    powVal v (removePow d pow sub) * powVal v sub ^ d = powVal v pow ∧ (dkeys (removePow d pow sub)).Nodup
  | [], pow, _, hp, _ => by simp [removePow, powVal, hp]
  | e :: sub, pow, hs, hp, h => by
    obtain ⟨k, hk, hle⟩ := h e List.mem_cons_self
    simp only [dkeys, List.map_cons, List.nodup_cons] at hs
    have hsub : ∀ e' ∈ sub, e.1 ≠ e'.1 := fun e' he' heq => hs.1 (List.mem_map.2 ⟨e', he', heq.symm⟩)
    unfold removePow
    dsimp only
    rw [hk, Option.getD_some]
    have hv : ∀ w : List (F × ℕ), powVal v (e :: w) = v e.1 ^ e.2 * powVal v w := fun w => by simp [powVal]
    have key : ∀ pow', powVal v pow' * v e.1 ^ (d * e.2) = powVal v pow → (dkeys pow').Nodup → (∀ e' ∈ sub, ∃ k, dget pow' e'.1 = some k ∧ d * e'.2 ≤ k) →
        powVal v (removePow d pow' sub) * powVal v (e :: sub) ^ d = powVal v pow ∧ (dkeys (removePow d pow' sub)).Nodup := by
      intro pow' h1 h2 h3
      obtain ⟨h4, h5⟩ := removePow_spec v d sub pow' hs.2 h2 h3
      refine ⟨?_, h5⟩
      rw [hv, ← h1, ← h4, mul_pow, ← pow_mul, mul_comm e.2 d]
      ring
    split_ifs with h0
    · have hkd : k = d * e.2 := by omega
      refine key _ (powVal_ddel hp (hkd ▸ hk)) (dkeys_nodup_ddel _ _ hp) fun e' he' => ?_
      rw [dget_ddel, if_neg (hsub e' he')]
      exact h e' (List.mem_cons_of_mem _ he')
    · refine key _ (powVal_lower (n := d * e.2) (by rw [hk]; congr 1; omega)) (dkeys_nodup_dset _ _ _ hp) fun e' he' => ?_
      rw [dget_dset, if_neg (hsub e' he')]
      exact h e' (List.mem_cons_of_mem _ he')

section Value

variable [Group G] [MulAction G P]

/-- What the normalised factors mean: `v f x` is the value of the factor `f` at the point `x`. -/
def Meaning (O : Orbit F G) (v : F → P → K) : Prop := ∀ g f x, v f (g • x) = sgn (O.act g f).2 * v (O.act g f).1 x

/-- The product over the group of the permuted factor. -/
def cycVal (v : F → P → K) (elems : List G) (f : F) (x : P) : K := (elems.map fun g => v f (g • x)).prod

theorem list_prod_mul {ι : Type*} (l : List ι) (a b : ι → K) : (l.map fun i => a i * b i).prod = (l.map a).prod * (l.map b).prod := by
  induction l with
  | nil => simp
  | cons i l ih => simp only [List.map_cons, List.prod_cons, ih]; ring

/-- A representative differs from the factor by the sign of the permutation to the power of the group order. -/
theorem cycVal_act {O : Orbit F G} {v : F → P → K} (hm : Meaning O v) {elems : List G} (hn : elems.Nodup) (hall : ∀ g, g ∈ elems) (g : G) (f : F) (x : P) :
    cycVal v elems (O.act g f).1 x = sgn (O.act g f).2 ^ elems.length * cycVal v elems f x := by
  have h1 : ∀ y, v (O.act g f).1 y = sgn (O.act g f).2 * v f (g • y) := by
    intro y
    rw [hm g f y, ← mul_assoc, sgn_mul_self, one_mul]
  unfold cycVal
  rw [List.map_congr_left (g := fun h => sgn (O.act g f).2 * v f ((g * h) • x)) (fun h _ => by rw [h1, mul_smul]), list_prod_mul, List.map_const', List.prod_replicate]
  congr 1
  refine List.Perm.prod_eq ?_
  have : (elems.map fun h => v f ((g * h) • x)) = (elems.map fun h => g * h).map fun h => v f (h • x) := by rw [List.map_map]; rfl
  rw [this]
  refine List.Perm.map _ ((List.perm_ext_iff_of_nodup (hn.map (mul_right_injective g)) hn).2 fun h => ?_)
  exact ⟨fun _ => hall h, fun _ => List.mem_map.2 ⟨g⁻¹ * h, hall _, mul_inv_cancel_left g h⟩⟩

theorem reduceStep_spec {O : Orbit F G} {v : F → P → K} (hm : Meaning O v) {elems : List G} (hn : elems.Nodup) (hall : ∀ g, g ∈ elems) (s : Reduced F) (base : F) (hs : (dkeys s.pow).Nodup) :
    (dkeys (reduceStep O elems s base).pow).Nodup ∧
      (∀ x, (reduceStep O elems s base).val v (· • ·) elems x = s.val v (· • ·) elems x ∨ (reduceStep O elems s base).val v (· • ·) elems x = -s.val v (· • ·) elems x) ∧
        ((Even elems.length ∨ ∀ g f, (O.act g f).2 = false) → ∀ x, (reduceStep O elems s base).val v (· • ·) elems x = s.val v (· • ·) elems x) := by
  unfold reduceStep
  cases h : orbitLoop O s.pow base elems [] false base with
  | none => exact ⟨hs, fun x => Or.inl rfl, fun _ x => rfl⟩
  | some r =>
    obtain ⟨sub, sign, rep⟩ := r
    dsimp only
    have hc0 : Counted s.pow ([] : List (F × ℕ)) := ⟨List.nodup_nil, fun f n h => by cases h⟩
    have hc := (orbitLoop_spec (K := K) (fun _ => 1) elems h hc0).2.2.2.1
    have hrm := fun w : F → K => removePow_spec w (commonPow s.pow sub) sub s.pow hc.nodup hs fun e he => commonPow_le hc he
    refine ⟨(hrm (fun _ => 1)).2, ?_⟩
    have hval : ∀ x, ∃ e : K, (e = 1 ∨ e = -1) ∧ ((Even elems.length ∨ ∀ g f, (O.act g f).2 = false) → e = 1) ∧
        Reduced.val v (· • ·) elems ⟨xor s.neg (sign && commonPow s.pow sub % 2 == 1), removePow (commonPow s.pow sub) s.pow sub, s.cyc ++ [(rep, commonPow s.pow sub)]⟩ x = e * s.val v (· • ·) elems x := by
      intro x
      obtain ⟨h1, h2, h3, _, _⟩ := orbitLoop_spec (fun f => v f x) elems h hc0
      have hr := (hrm fun f => v f x).1
      generalize commonPow s.pow sub = d at *
      have hcyc : cycVal v elems base x = sgn sign * powVal (fun f => v f x) sub := by
        unfold cycVal
        rw [List.map_congr_left (fun g _ => hm g base x), list_prod_mul, h1, h2]
        simp [powVal, sgn]
      obtain ⟨e, he, he1, hrep⟩ : ∃ e : K, (e = 1 ∨ e = -1) ∧ ((Even elems.length ∨ ∀ g f, (O.act g f).2 = false) → e = 1) ∧ cycVal v elems rep x = e * cycVal v elems base x := by
        rcases h3 with rfl | ⟨g, _, rfl⟩
        · exact ⟨1, Or.inl rfl, fun _ => rfl, by rw [one_mul]⟩
        · refine ⟨_, ?_, ?_, cycVal_act hm hn hall g base x⟩
          · cases (O.act g base).2
            · left; simp [sgn]
            · rcases Nat.even_or_odd elems.length with hp | hp
              · left; simp [sgn, hp]
              · right; simp [sgn, hp]
          · rintro (hp | hf)
            · cases (O.act g base).2 <;> simp [sgn, hp]
            · rw [hf]; simp [sgn]
      have hsd : (sgn (sign && d % 2 == 1) : K) * sgn sign ^ d = 1 := by
        cases sign
        · simp [sgn]
        · rcases Nat.mod_two_eq_zero_or_one d with hd | hd
          · have hev : Even d := Nat.even_iff.2 hd
            simp [sgn, hd, hev]
          · have hod : Odd d := Nat.odd_iff.2 hd
            simp [sgn, hd, hod]
      refine ⟨e ^ d, ?_, fun hp => by rw [he1 hp, one_pow], ?_⟩
      · rcases he with rfl | rfl
        · exact Or.inl (one_pow d)
        · exact (neg_one_pow_eq_or K d)
      · unfold Reduced.val
        dsimp only
        rw [List.map_append, List.prod_append, List.map_singleton, List.prod_singleton, sgn_xor]
        change _ * _ * (_ * cycVal v elems rep x ^ d) = _
        rw [hrep, hcyc, ← hr, mul_pow, mul_pow]
        generalize (s.cyc.map fun e => ((elems.map fun g => v e.1 (g • x)).prod) ^ e.2).prod = c
        calc _ = (sgn (sign && d % 2 == 1) * sgn sign ^ d) * (e ^ d * (sgn s.neg * (powVal (fun f => v f x) (removePow d s.pow sub) * powVal (fun f => v f x) sub ^ d) * c)) := by ring
          _ = _ := by rw [hsd, one_mul]
    refine ⟨fun x => ?_, fun hp x => ?_⟩
    · obtain ⟨e, he, _, hx⟩ := hval x
      rw [hx]
      rcases he with rfl | rfl
      · exact Or.inl (one_mul _)
      · exact Or.inr (neg_one_mul _)
    · obtain ⟨e, _, he, hx⟩ := hval x
      rw [hx, he hp, one_mul]

theorem reduceFold_spec {O : Orbit F G} {v : F → P → K} (hm : Meaning O v) {elems : List G} (hn : elems.Nodup) (hall : ∀ g, g ∈ elems) : ∀ (bases : List F) (s : Reduced F), (dkeys s.pow).Nodup →
    (∀ x, (bases.foldl (reduceStep O elems) s).val v (· • ·) elems x = s.val v (· • ·) elems x ∨ (bases.foldl (reduceStep O elems) s).val v (· • ·) elems x = -s.val v (· • ·) elems x) ∧
      ((Even elems.length ∨ ∀ g f, (O.act g f).2 = false) → ∀ x, (bases.foldl (reduceStep O elems) s).val v (· • ·) elems x = s.val v (· • ·) elems x)
  | [], s, _ => ⟨fun x => Or.inl rfl, fun _ x => rfl⟩
  | b :: bs, s, hs => by
    obtain ⟨h1, h2, h3⟩ := reduceStep_spec hm hn hall s b hs
    obtain ⟨h4, h5⟩ := reduceFold_spec hm hn hall bs (reduceStep O elems s b) h1
    refine ⟨fun x => ?_, fun hp x => (h5 hp x).trans (h3 hp x)⟩
    rw [List.foldl_cons]
    rcases h4 x with h4 | h4 <;> rcases h2 x with h2 | h2
    · exact Or.inl (h4.trans h2)
    · exact Or.inr (h4.trans h2)
    · exact Or.inr (by rw [h4, h2])
    · exact Or.inl (by rw [h4, h2, neg_neg])

/-- **The reduced factors denote the polynomial**, for a group of even order, or if no permuted factor is the negative of a factor. -/
theorem reduceFactors_value_partial {O : Orbit F G} {v : F → P → K} (hm : Meaning O v) {elems : List G} (hn : elems.Nodup) (hall : ∀ g, g ∈ elems) {factors : List (F × ℕ)} (hs : (dkeys factors).Nodup)
    (hp : Even elems.length ∨ ∀ g f, (O.act g f).2 = false) (x : P) : (reduceFactors O elems factors).val v (· • ·) elems x = powVal (fun f => v f x) factors := by
  unfold reduceFactors
  rw [(reduceFold_spec hm hn hall _ ⟨false, factors, []⟩ hs).2 hp x]
  simp [Reduced.val, sgn]

/-- In general the reduced factors denote the polynomial or its negative. -/
theorem reduceFactors_value_sign {O : Orbit F G} {v : F → P → K} (hm : Meaning O v) {elems : List G} (hn : elems.Nodup) (hall : ∀ g, g ∈ elems) {factors : List (F × ℕ)} (hs : (dkeys factors).Nodup)
    (x : P) : (reduceFactors O elems factors).val v (· • ·) elems x = powVal (fun f => v f x) factors ∨ (reduceFactors O elems factors).val v (· • ·) elems x = -powVal (fun f => v f x) factors := by
  unfold reduceFactors
  have := (reduceFold_spec hm hn hall (factors.map Prod.fst) ⟨false, factors, []⟩ hs).1 x
  have h0 : Reduced.val v (· • ·) elems ⟨false, factors, []⟩ x = powVal (fun f => v f x) factors := by simp [Reduced.val, sgn]
  rwa [h0] at this

end Value

/-! ### A wrong sign -/

/-- The rotations of three coordinates. -/
abbrev Rot := Multiplicative (ZMod 3)

instance : MulAction Rot (ZMod 3 → ℚ) where
  smul g x := fun i => x (i + Multiplicative.toAdd g)
  one_smul x := by funext i; exact congrArg x (add_zero i)
  mul_smul g h x := by
    funext i
    show x (i + (Multiplicative.toAdd g + Multiplicative.toAdd h)) = x (i + Multiplicative.toAdd g + Multiplicative.toAdd h)
    rw [add_assoc]

/-- The factors `2b-c`, `a-2c`, `2a-b` of `(2a-b)(2b-c)(2c-a)`, numbered in this order; under a rotation `2a-b` becomes `2b-c`, and `2b-c` becomes `-(a-2c)`. -/
def lin : Fin 3 → (ZMod 3 → ℚ) → ℚ
  | 0, x => 2 * x 1 - x 2
  | 1, x => x 0 - 2 * x 2
  | 2, x => 2 * x 0 - x 1

/-- The action on them, with `a-2c` the smallest, as in the order of the dense representations `[[[1]],...] < [[[2]],...] < [[[2],[-1,0]]]`. -/
def linOrbit : Orbit (Fin 3) Rot where
  act g f := match (Multiplicative.toAdd g : ZMod 3), f with
    | 0, f => (f, false)
    | 1, 0 => (1, true)
    | 1, 1 => (2, true)
    | 1, 2 => (0, false)
    | 2, 0 => (2, false)
    | 2, 1 => (0, true)
    | 2, 2 => (1, true)
  less f g := f == 1 && g != 1

theorem linOrbit_meaning : Meaning linOrbit lin := by
  have h : ∀ (g : ZMod 3) (f : Fin 3) (x : ZMod 3 → ℚ), lin f (fun i => x (i + g)) = sgn (linOrbit.act (Multiplicative.ofAdd g) f).2 * lin (linOrbit.act (Multiplicative.ofAdd g) f).1 x := by
    intro g f x
    have e1 : (1 : ZMod 3) + 1 = 2 := by decide
    have e2 : (2 : ZMod 3) + 1 = 0 := by decide
    have e3 : (1 : ZMod 3) + 2 = 0 := by decide
    have e4 : (2 : ZMod 3) + 2 = 1 := by decide
    have h0 : ∀ g : ZMod 3, g = 0 ∨ g = 1 ∨ g = 2 := by decide
    rcases h0 g with rfl | rfl | rfl <;> fin_cases f <;> (show _ = sgn _ * _) <;> simp [lin, linOrbit, sgn, e1, e2, e3, e4]
  exact fun g f x => h (Multiplicative.toAdd g) f x

/-- The elements of the group. -/
def rots : List Rot := [Multiplicative.ofAdd 0, Multiplicative.ofAdd 1, Multiplicative.ofAdd 2]

theorem rots_all (g : Rot) : g ∈ rots := by
  have h : ∀ g : ZMod 3, g = 0 ∨ g = 1 ∨ g = 2 := by decide
  rcases h (Multiplicative.toAdd g) with h | h | h <;> (obtain rfl : g = Multiplicative.ofAdd _ := h; unfold rots; decide)

/-- **The printed factor form of `(2a-b)(2b-c)(2c-a) = -(2b-c)(a-2c)(2a-b)` is its negative.**  The sign belongs to the factor the loop started from, the
printed representative is another one. -/
theorem reduceFactors_wrong_sign : ∃ x : ZMod 3 → ℚ, (reduceFactors linOrbit rots [(0, 1), (1, 1), (2, 1)]).val lin (· • ·) rots x ≠ powVal (fun f => lin f x) [(0, 1), (1, 1), (2, 1)] := by
  refine ⟨fun _ => 1, ?_⟩
  have h : reduceFactors linOrbit rots [(0, 1), (1, 1), (2, 1)] = ⟨true, [], [(1, 1)]⟩ := by
    have h : (reduceFactors linOrbit rots [(0, 1), (1, 1), (2, 1)]).neg = true ∧ (reduceFactors linOrbit rots [(0, 1), (1, 1), (2, 1)]).pow = [] ∧ (reduceFactors linOrbit rots [(0, 1), (1, 1), (2, 1)]).cyc = [(1, 1)] := by
      decide +kernel
    obtain ⟨h1, h2, h3⟩ := h
    rw [show reduceFactors linOrbit rots [(0, 1), (1, 1), (2, 1)] = ⟨(reduceFactors linOrbit rots [(0, 1), (1, 1), (2, 1)]).neg, (reduceFactors linOrbit rots [(0, 1), (1, 1), (2, 1)]).pow, (reduceFactors linOrbit rots [(0, 1), (1, 1), (2, 1)]).cyc⟩ from rfl, h1, h2, h3]
  rw [h]
  unfold Reduced.val powVal rots
  simp only [List.map_cons, List.map_nil, List.prod_cons, List.prod_nil]
  have hx : ∀ g : Rot, (g • fun _ => (1 : ℚ) : ZMod 3 → ℚ) = fun _ => 1 := fun _ => rfl
  rw [hx, hx, hx]
  norm_num [lin, sgn]

/-- The hypotheses of the theorems are met: the sign theorem by the case above, and the partial one by a group of order two that swaps `2a-b` and `2b-a` up to sign. -/
example (x : ZMod 3 → ℚ) : (reduceFactors linOrbit rots [(0, 1), (1, 1), (2, 1)]).val lin (· • ·) rots x = powVal (fun f => lin f x) [(0, 1), (1, 1), (2, 1)] ∨
    (reduceFactors linOrbit rots [(0, 1), (1, 1), (2, 1)]).val lin (· • ·) rots x = -powVal (fun f => lin f x) [(0, 1), (1, 1), (2, 1)] :=
  reduceFactors_value_sign linOrbit_meaning (by decide +kernel) rots_all (by decide +kernel) x

/-- The swap of two coordinates. -/
abbrev Swap := Multiplicative (ZMod 2)

instance : MulAction Swap (ZMod 2 → ℚ) where
  smul g x := fun i => x (i + Multiplicative.toAdd g)
  one_smul x := by funext i; exact congrArg x (add_zero i)
  mul_smul g h x := by
    funext i
    show x (i + (Multiplicative.toAdd g + Multiplicative.toAdd h)) = x (i + Multiplicative.toAdd g + Multiplicative.toAdd h)
    rw [add_assoc]

/-- The factors `a-2b`, `2a-b`. -/
def two : Fin 2 → (ZMod 2 → ℚ) → ℚ
  | 0, x => x 0 - 2 * x 1
  | 1, x => 2 * x 0 - x 1

/-- The swap turns either into the negative of the other. -/
def twoOrbit : Orbit (Fin 2) Swap where
  act g f := match (Multiplicative.toAdd g : ZMod 2), f with
    | 0, f => (f, false)
    | 1, 0 => (1, true)
    | 1, 1 => (0, true)
  less f g := f == 0 && g != 0

/-- The elements of the group. -/
def swaps : List Swap := [Multiplicative.ofAdd 0, Multiplicative.ofAdd 1]

theorem swaps_all (g : Swap) : g ∈ swaps := by
  have h : ∀ g : ZMod 2, g = 0 ∨ g = 1 := by decide
  rcases h (Multiplicative.toAdd g) with h | h <;> (obtain rfl : g = Multiplicative.ofAdd _ := h; unfold swaps; decide)

theorem twoOrbit_meaning : Meaning twoOrbit two := by
  have h : ∀ (g : ZMod 2) (f : Fin 2) (x : ZMod 2 → ℚ), two f (fun i => x (i + g)) = sgn (twoOrbit.act (Multiplicative.ofAdd g) f).2 * two (twoOrbit.act (Multiplicative.ofAdd g) f).1 x := by
    intro g f x
    have e1 : (1 : ZMod 2) + 1 = 0 := by decide
    have h0 : ∀ g : ZMod 2, g = 0 ∨ g = 1 := by decide
    rcases h0 g with rfl | rfl <;> fin_cases f <;> (show _ = sgn _ * _) <;> simp [two, twoOrbit, sgn, e1]
  exact fun g f x => h (Multiplicative.toAdd g) f x

example (x : ZMod 2 → ℚ) : (reduceFactors twoOrbit swaps [(0, 3), (1, 1)]).val two (· • ·) swaps x = powVal (fun f => two f x) [(0, 3), (1, 1)] :=
  reduceFactors_value_partial twoOrbit_meaning (by decide +kernel) swaps_all (by decide +kernel) (Or.inl (by decide)) x

end Verif.Form
