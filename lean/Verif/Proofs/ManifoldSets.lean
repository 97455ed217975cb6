import Verif.Proofs.Manifold
import Mathlib.Data.List.Nodup
import Mathlib.Tactic.Tauto

/-!
# The sets that `_bilinear.diff` builds
-/

set_option linter.unusedSectionVars false

namespace Verif.Manifold

open Verif Verif.Coeff Verif.TermsPoly

/-- `x` is in the set of the monomial `k`. -/
def Has (b : Bil) (k : List ℕ) (x : Pair) : Prop := ∃ S, (k, S) ∈ b ∧ x ∈ S

/-- Every monomial has one nonempty set. -/
def Wf (b : Bil) : Prop := (b.map Prod.fst).Nodup ∧ ∀ t ∈ b, t.2 ≠ []

theorem has_cons (t : List ℕ × List Pair) (b : Bil) (k : List ℕ) (x : Pair) : Has (t :: b) k x ↔ (t.1 = k ∧ x ∈ t.2) ∨ Has b k x := by
  unfold Has
  constructor
  · rintro ⟨S, hS, hx⟩
    rcases List.mem_cons.1 hS with h | h
    · rw [← h]; exact Or.inl ⟨rfl, hx⟩
    · exact Or.inr ⟨S, h, hx⟩
  · rintro (⟨rfl, h⟩ | ⟨S, h, hx⟩)
    · exact ⟨t.2, List.mem_cons_self .., h⟩
    · exact ⟨S, List.mem_cons_of_mem _ h, hx⟩

theorem has_addPair (b : Bil) (k : List ℕ) (p : Pair) (k' : List ℕ) (x : Pair) : Has (addPair b k p) k' x ↔ Has b k' x ∨ (k' = k ∧ x = p) := by
  induction b with
  | nil =>
    simp only [addPair, has_cons, List.mem_singleton]
    constructor
    · rintro (⟨h1, h2⟩ | h)
      · exact Or.inr ⟨h1.symm, h2⟩
      · exact Or.inl h
    · rintro (h | ⟨h1, h2⟩)
      · exact Or.inr h
      · exact Or.inl ⟨h1.symm, h2⟩
  | cons t b ih =>
    unfold addPair
    split
    · rename_i h
      rw [has_cons, has_cons]
      dsimp only
      by_cases hp : p ∈ t.2
      · rw [if_pos hp]
        constructor
        · exact fun h' => Or.inl h'
        · rintro (h' | ⟨h1, h2⟩)
          · exact h'
          · exact Or.inl ⟨h.trans h1.symm, h2 ▸ hp⟩
      · rw [if_neg hp, List.mem_append, List.mem_singleton]
        constructor
        · rintro (⟨h1, h2 | h2⟩ | h')
          · exact Or.inl (Or.inl ⟨h1, h2⟩)
          · exact Or.inr ⟨h1.symm.trans h, h2⟩
          · exact Or.inl (Or.inr h')
        · rintro ((⟨h1, h2⟩ | h') | ⟨h1, h2⟩)
          · exact Or.inl ⟨h1, Or.inl h2⟩
          · exact Or.inr h'
          · exact Or.inl ⟨h.trans h1.symm, Or.inr h2⟩
    · rw [has_cons, has_cons, ih]
      tauto

theorem keys_addPair (b : Bil) (k : List ℕ) (p : Pair) : (addPair b k p).map Prod.fst = if k ∈ b.map Prod.fst then b.map Prod.fst else b.map Prod.fst ++ [k] := by
  induction b with
  | nil => simp [addPair]
  | cons t b ih =>
    unfold addPair
    split
    · rename_i h
      simp [h]
    · rename_i h
      rw [List.map_cons, ih, List.map_cons]
      dsimp only
      by_cases hk : k ∈ b.map Prod.fst
      · rw [if_pos hk, if_pos (List.mem_cons_of_mem _ hk)]
      · rw [if_neg hk, if_neg (by rw [List.mem_cons]; rintro (h' | h'); exacts [h h'.symm, hk h'])]
        rfl

theorem wf_addPair {b : Bil} (h : Wf b) (k : List ℕ) (p : Pair) : Wf (addPair b k p) := by
  constructor
  · rw [keys_addPair]
    split
    · exact h.1
    · rename_i hk
      exact List.nodup_append.2 ⟨h.1, List.nodup_singleton k, by
        intro x hx y hy
        rw [List.mem_singleton.1 hy]
        rintro rfl
        exact hk hx⟩
  · have := h.2
    clear h
    induction b with
    | nil => intro t ht; rw [List.mem_singleton.1 ht]; simp
    | cons s b ih =>
      unfold addPair
      split
      · intro t ht
        rcases List.mem_cons.1 ht with rfl | ht
        · dsimp only
          split
          · exact this s (List.mem_cons_self ..)
          · simp
        · exact this t (List.mem_cons_of_mem _ ht)
      · intro t ht
        rcases List.mem_cons.1 ht with rfl | ht
        · exact this _ (List.mem_cons_self ..)
        · exact ih (fun t ht => this t (List.mem_cons_of_mem _ ht)) t ht

theorem wf_unique {b : Bil} (h : Wf b) {k : List ℕ} {S : List Pair} (hS : (k, S) ∈ b) (x : Pair) : x ∈ S ↔ Has b k x := by
  constructor
  · exact fun hx => ⟨S, hS, hx⟩
  · rintro ⟨S', hS', hx⟩
    have : S' = S := by
      have h1 := List.inj_on_of_nodup_map h.1 hS hS' rfl
      exact (Prod.mk.inj h1).2.symm
    rwa [← this]

/-- Adding the pairs of a list. -/
theorem fold_one (S : List Pair) (g : Bil → Pair → Bil) (Q : Pair → List ℕ → Pair → Prop)
    (hg : ∀ b p, Wf b → Wf (g b p) ∧ ∀ k x, Has (g b p) k x ↔ Has b k x ∨ Q p k x) {b : Bil} (hb : Wf b) :
    Wf (S.foldl g b) ∧ ∀ k x, Has (S.foldl g b) k x ↔ Has b k x ∨ ∃ p ∈ S, Q p k x := by
  induction S generalizing b with
  | nil => exact ⟨hb, fun k x => by simp⟩
  | cons p S ih =>
    obtain ⟨h1, h2⟩ := hg b p hb
    obtain ⟨h3, h4⟩ := ih h1
    refine ⟨h3, fun k x => ?_⟩
    rw [List.foldl_cons, h4, h2]
    simp only [List.mem_cons, exists_eq_or_imp]
    tauto

/-- What one term contributes to the derivative. -/
def Gives (i : ℕ) (m : List ℕ) (p : Pair) (k : List ℕ) (x : Pair) : Prop :=
  (m.getD i 0 ≠ 0 ∧ k = m.modify i (· - 1) ∧ x = p) ∨ (k = m ∧ (x = reg (p.1.modify i (· + 1)) p.2 ∨ x = reg p.1 (p.2.modify i (· + 1))))

theorem diff_spec (i : ℕ) (b : Bil) : Wf (diff i b) ∧ ∀ k x, Has (diff i b) k x ↔ ∃ t ∈ b, ∃ p ∈ t.2, Gives i t.1 p k x := by
  have key : ∀ (b : Bil) (d : Bil), Wf d → Wf (b.foldl (fun d t =>
      let d := if t.1.getD i 0 ≠ 0 then t.2.foldl (fun d p => addPair d (t.1.modify i (· - 1)) p) d else d
      t.2.foldl (fun d p => addPair (addPair d t.1 (reg (p.1.modify i (· + 1)) p.2)) t.1 (reg p.1 (p.2.modify i (· + 1)))) d) d) ∧
      ∀ k x, Has (b.foldl (fun d t =>
      let d := if t.1.getD i 0 ≠ 0 then t.2.foldl (fun d p => addPair d (t.1.modify i (· - 1)) p) d else d
      t.2.foldl (fun d p => addPair (addPair d t.1 (reg (p.1.modify i (· + 1)) p.2)) t.1 (reg p.1 (p.2.modify i (· + 1)))) d) d) k x ↔
        Has d k x ∨ ∃ t ∈ b, ∃ p ∈ t.2, Gives i t.1 p k x := by
    intro b
    induction b with
    | nil => intro d hd; exact ⟨hd, fun k x => by simp⟩
    | cons t b ih =>
      intro d hd
      rw [List.foldl_cons]
      dsimp only
      have s1 : Wf (if t.1.getD i 0 ≠ 0 then t.2.foldl (fun d p => addPair d (t.1.modify i (· - 1)) p) d else d) ∧
          ∀ k x, Has (if t.1.getD i 0 ≠ 0 then t.2.foldl (fun d p => addPair d (t.1.modify i (· - 1)) p) d else d) k x ↔
            Has d k x ∨ (t.1.getD i 0 ≠ 0 ∧ ∃ p ∈ t.2, k = t.1.modify i (· - 1) ∧ x = p) := by
        by_cases h : t.1.getD i 0 ≠ 0
        · rw [if_pos h]
          obtain ⟨h1, h2⟩ := fold_one t.2 (fun d p => addPair d (t.1.modify i (· - 1)) p) (fun p k x => k = t.1.modify i (· - 1) ∧ x = p)
            (fun b p hb => ⟨wf_addPair hb _ _, fun k x => has_addPair ..⟩) hd
          exact ⟨h1, fun k x => by rw [h2]; tauto⟩
        · rw [if_neg h]
          exact ⟨hd, fun k x => by tauto⟩
      generalize (if t.1.getD i 0 ≠ 0 then t.2.foldl (fun d p => addPair d (t.1.modify i (· - 1)) p) d else d) = d1 at s1 ⊢
      obtain ⟨s1, s2⟩ := s1
      obtain ⟨s3, s4⟩ := fold_one t.2 (fun d p => addPair (addPair d t.1 (reg (p.1.modify i (· + 1)) p.2)) t.1 (reg p.1 (p.2.modify i (· + 1))))
        (fun p k x => k = t.1 ∧ (x = reg (p.1.modify i (· + 1)) p.2 ∨ x = reg p.1 (p.2.modify i (· + 1))))
        (fun b p hb => ⟨wf_addPair (wf_addPair hb _ _) _ _, fun k x => by rw [has_addPair, has_addPair]; tauto⟩) s1
      obtain ⟨s5, s6⟩ := ih _ s3
      refine ⟨s5, fun k x => ?_⟩
      rw [s6, s4, s2]
      simp only [List.mem_cons, exists_eq_or_imp, Gives]
      constructor
      · rintro (((h | ⟨h0, p, hp, h⟩) | ⟨p, hp, h⟩) | h)
        · exact Or.inl h
        · exact Or.inr (Or.inl ⟨p, hp, Or.inl ⟨h0, h⟩⟩)
        · exact Or.inr (Or.inl ⟨p, hp, Or.inr h⟩)
        · exact Or.inr (Or.inr h)
      · rintro (h | ⟨p, hp, ⟨h0, h⟩ | h⟩ | h)
        · exact Or.inl (Or.inl (Or.inl h))
        · exact Or.inl (Or.inl (Or.inr ⟨h0, p, hp, h⟩))
        · exact Or.inl (Or.inr ⟨p, hp, h⟩)
        · exact Or.inr h
  obtain ⟨h1, h2⟩ := key b [] ⟨by simp, by simp⟩
  refine ⟨h1, fun k x => (h2 k x).trans ?_⟩
  simp [Has]

/-! ### Orders in one direction -/

theorem dirOrder_length (n i j : ℕ) : (dirOrder n i j).length = n := by simp [dirOrder]

theorem dirOrder_zero (n i : ℕ) : dirOrder n i 0 = List.replicate n 0 := by
  induction n generalizing i with
  | zero => simp [dirOrder]
  | succ n ih =>
    cases i with
    | zero => rfl
    | succ i => rw [dirOrder_cons_succ, ih]; rfl

theorem dirOrder_modify {n i : ℕ} (hi : i < n) (j : ℕ) : (dirOrder n i j).modify i (· + 1) = dirOrder n i (j + 1) := by
  induction n generalizing i with
  | zero => omega
  | succ n ih =>
    cases i with
    | zero => rfl
    | succ i => rw [dirOrder_cons_succ, dirOrder_cons_succ, List.modify_succ_cons, ih (by omega)]

theorem dirOrder_inj {n i p q : ℕ} (hi : i < n) (h : dirOrder n i p = dirOrder n i q) : p = q := by
  have := congrArg (fun l => l.getD i 0) h
  simpa [dirOrder, hi] using this

theorem dirOrder_lt {n i p q : ℕ} (hi : i < n) : dirOrder n i p < dirOrder n i q ↔ p < q := by
  induction n generalizing i with
  | zero => omega
  | succ n ih =>
    cases i with
    | zero => rw [dirOrder_cons_zero, dirOrder_cons_zero, List.cons_lt_cons_iff]; simp
    | succ i => rw [dirOrder_cons_succ, dirOrder_cons_succ, List.cons_lt_cons_iff, ih (by omega)]; simp

theorem reg_dir {n i : ℕ} (hi : i < n) (p q : ℕ) : reg (dirOrder n i p) (dirOrder n i q) = (dirOrder n i (min p q), dirOrder n i (max p q)) := by
  unfold reg
  by_cases h : p < q
  · rw [if_pos ((dirOrder_lt hi).2 h), min_eq_left h.le, max_eq_right h.le]
  · rw [if_neg (fun h' => h ((dirOrder_lt hi).1 h')), min_eq_right (by omega), max_eq_left (by omega)]

/-- All pairs of orders in direction `i` whose sum is `s`. -/
def Full (n i s : ℕ) (x : Pair) : Prop := ∃ p q, p ≤ q ∧ p + q = s ∧ x = (dirOrder n i p, dirOrder n i q)

theorem full_succ {n i : ℕ} (hi : i < n) (s : ℕ) (x : Pair) :
    Full n i (s + 1) x ↔ ∃ p, Full n i s p ∧ (x = reg (p.1.modify i (· + 1)) p.2 ∨ x = reg p.1 (p.2.modify i (· + 1))) := by
  constructor
  · rintro ⟨p, q, h1, h2, rfl⟩
    by_cases h : p < q
    · refine ⟨(dirOrder n i p, dirOrder n i (q - 1)), ⟨p, q - 1, by omega, by omega, rfl⟩, Or.inr ?_⟩
      rw [dirOrder_modify hi, reg_dir hi, min_eq_left (by omega), max_eq_right (by omega)]
      congr 2
      omega
    · refine ⟨(dirOrder n i (p - 1), dirOrder n i q), ⟨p - 1, q, by omega, by omega, rfl⟩, Or.inl ?_⟩
      rw [dirOrder_modify hi, reg_dir hi, min_eq_left (by omega), max_eq_right (by omega)]
      congr 2
      omega
  · rintro ⟨_, ⟨p, q, h1, h2, rfl⟩, h | h⟩
    · rw [h, dirOrder_modify hi, reg_dir hi]
      exact ⟨min (p + 1) q, max (p + 1) q, by omega, by omega, rfl⟩
    · rw [h, dirOrder_modify hi, reg_dir hi]
      exact ⟨min p (q + 1), max p (q + 1), by omega, by omega, rfl⟩

theorem full_exists (n i s : ℕ) : ∃ x, Full n i s x := ⟨_, 0, s, by omega, by omega, rfl⟩

theorem modify_sub (m : List ℕ) (i t u : ℕ) : (m.modify i (· - t)).modify i (· - u) = m.modify i (· - (t + u)) := by
  rw [List.modify_modify_eq]
  congr 1
  funext x
  simp [Nat.sub_sub]

theorem modify_sub_zero (m : List ℕ) (i : ℕ) : m.modify i (· - 0) = m := by
  have : (fun x : ℕ => x - 0) = id := by funext x; simp
  rw [this, List.modify_id]

/-- **What `diff` builds**: after `j` derivatives in direction `i` the sets are those of all pairs of the right total order. -/
theorem diff_iterate {n i : ℕ} (hi : i < n) {m : List ℕ} (hm : m.length = n) (j : ℕ) :
    Wf ((diff i)^[j] [(m, [(List.replicate n 0, List.replicate n 0)])]) ∧
      ∀ k x, Has ((diff i)^[j] [(m, [(List.replicate n 0, List.replicate n 0)])]) k x →
        ∃ t, t ≤ m.getD i 0 ∧ t ≤ j ∧ k = m.modify i (· - t) ∧ ∀ y, Has ((diff i)^[j] [(m, [(List.replicate n 0, List.replicate n 0)])]) k y ↔ Full n i (j - t) y := by
  induction j with
  | zero =>
    refine ⟨⟨by simp, by simp⟩, ?_⟩
    rintro k x ⟨S, hS, -⟩
    have e := List.mem_singleton.1 hS
    obtain ⟨rfl, rfl⟩ := Prod.mk.inj e
    refine ⟨0, by omega, le_refl _, (modify_sub_zero k i).symm, fun y => ?_⟩
    rw [Function.iterate_zero, id, has_cons]
    constructor
    · rintro (⟨-, h⟩ | ⟨S, h, -⟩)
      · exact ⟨0, 0, le_refl _, rfl, by rw [List.mem_singleton.1 h, dirOrder_zero]⟩
      · simp at h
    · rintro ⟨p, q, h1, h2, rfl⟩
      have hp : p = 0 := by omega
      have hq : q = 0 := by omega
      subst hp
      subst hq
      exact Or.inl ⟨rfl, by rw [dirOrder_zero]; exact List.mem_singleton.2 rfl⟩
  | succ j ih =>
    rw [Function.iterate_succ_apply']
    generalize (diff i)^[j] [(m, [(List.replicate n 0, List.replicate n 0)])] = b at ih ⊢
    obtain ⟨hw, ih⟩ := ih
    obtain ⟨h1, h2⟩ := diff_spec i b
    refine ⟨h1, fun k x hx => ?_⟩
    have lift : ∀ k y, Has (diff i b) k y ↔ ∃ k' p, Has b k' p ∧ Gives i k' p k y := by
      intro k y
      rw [h2]
      constructor
      · rintro ⟨t, ht, p, hp, h⟩
        exact ⟨t.1, p, ⟨t.2, ht, hp⟩, h⟩
      · rintro ⟨k', p, ⟨S, hS, hp⟩, h⟩
        exact ⟨(k', S), hS, p, hp, h⟩
    have gd : ∀ t, (m.modify i (· - t)).getD i 0 = m.getD i 0 - t := fun t => getD_modify m i _ (by omega)
    -- every source of a key with index `t` gives exactly the full set
    have src : ∀ k' p, Has b k' p → ∀ t, t ≤ m.getD i 0 → k = m.modify i (· - t) → ∀ y, Gives i k' p k y →
        t ≤ j + 1 ∧ Full n i (j + 1 - t) y ∧ ∀ y', Full n i (j + 1 - t) y' → ∃ p', Has b k' p' ∧ Gives i k' p' k y' := by
      intro k' p hp t ht hk y hy
      obtain ⟨t', ht', hj', hk', hf⟩ := ih k' p hp
      have gk : k.getD i 0 = m.getD i 0 - t := by rw [hk, gd]
      have gk' : k'.getD i 0 = m.getD i 0 - t' := by rw [hk', gd]
      rcases hy with ⟨g1, g2, g3⟩ | ⟨g1, g2⟩
      · have : m.getD i 0 - t = m.getD i 0 - t' - 1 := by rw [← gk, ← gk', g2, getD_modify _ _ _ (by rw [hk']; simpa [hm] using hi)]
        have e : t = t' + 1 := by omega
        have e' : j + 1 - t = j - t' := by omega
        refine ⟨by omega, ?_, fun y' hy' => ⟨y', (hf y').2 (e' ▸ hy'), Or.inl ⟨g1, g2, rfl⟩⟩⟩
        rw [e', g3]
        exact (hf p).1 hp
      · have : m.getD i 0 - t = m.getD i 0 - t' := by rw [← gk, ← gk', g1]
        have e : t = t' := by omega
        subst e
        have e' : j + 1 - t = (j - t) + 1 := by omega
        refine ⟨by omega, ?_, fun y' hy' => ?_⟩
        · rw [e', full_succ hi]
          exact ⟨p, (hf p).1 hp, g2⟩
        · rw [e', full_succ hi] at hy'
          obtain ⟨p', hp', h⟩ := hy'
          exact ⟨p', (hf p').2 hp', Or.inr ⟨g1, h⟩⟩
    obtain ⟨k', p, hp, hg⟩ := (lift k x).1 hx
    -- the index of the key
    obtain ⟨t, ht, hk⟩ : ∃ t, t ≤ m.getD i 0 ∧ k = m.modify i (· - t) := by
      obtain ⟨t', ht', hj', hk', hf⟩ := ih k' p hp
      rcases hg with ⟨g1, g2, -⟩ | ⟨g1, -⟩
      · refine ⟨t' + 1, ?_, by rw [g2, hk', modify_sub]⟩
        rw [hk', gd] at g1
        omega
      · exact ⟨t', ht', g1.trans hk'⟩
    obtain ⟨s1, s2, s3⟩ := src k' p hp t ht hk x hg
    refine ⟨t, ht, s1, hk, fun y => ?_⟩
    rw [lift]
    constructor
    · rintro ⟨k'', p'', hp'', h⟩
      exact (src k'' p'' hp'' t ht hk y h).2.1
    · intro hy
      obtain ⟨p', h1, h2⟩ := s3 y hy
      exact ⟨k', p', h1, h2⟩

theorem diffMonomial_dir {n i : ℕ} (hi : i < n) (b : Bil) (j : ℕ) : diffMonomial b (dirOrder n i j) = (diff i)^[j] b := by
  have z : ∀ (n k : ℕ) (b : Bil), ((List.replicate n 0).zipIdx k).foldl (fun b t => (diff t.2)^[t.1] b) b = b := by
    intro n
    induction n with
    | zero => intro k b; rfl
    | succ n ih => intro k b; rw [List.replicate_succ, List.zipIdx_cons, List.foldl_cons]; exact ih _ _
  have key : ∀ (n i k : ℕ) (b : Bil), i < n → ((dirOrder n i j).zipIdx k).foldl (fun b t => (diff t.2)^[t.1] b) b = (diff (k + i))^[j] b := by
    intro n
    induction n with
    | zero => intro i k b h; omega
    | succ n ih =>
      intro i k b h
      cases i with
      | zero => rw [dirOrder_cons_zero, List.zipIdx_cons, List.foldl_cons]; exact z _ _ _
      | succ i =>
        rw [dirOrder_cons_succ, List.zipIdx_cons, List.foldl_cons]
        rw [show k + (i + 1) = (k + 1) + i by omega]
        exact ih i (k + 1) _ (by omega)
  have := key n i 0 b hi
  rwa [Nat.zero_add] at this

theorem diffMonomial_zero (n : ℕ) (b : Bil) : diffMonomial b (List.replicate n 0) = b := by
  cases n with
  | zero => rfl
  | succ n => rw [← dirOrder_zero (n + 1) 0, diffMonomial_dir (by omega)]; rfl

/-! ### The worklist -/

/-- What a set says about the values of the bilinear form: if all other terms vanish, a square vanishes. -/
def Forces (Z : Pair → Prop) (S : List Pair) : Prop := ∀ u, (u, u) ∈ S → (∀ x ∈ S, x ≠ (u, u) → Z x) → Z (u, u)

theorem stepSet_spec {Z : Pair → Prop} {zero : Option (List ℕ)} (hz : ∀ z ∈ zero, ∀ w, Z (z, w) ∧ Z (w, z)) {S : List Pair} (h : Forces Z S) :
    Forces Z (stepSet zero S).1 ∧ ∀ u, (stepSet zero S).2 = some u → Z (u, u) := by
  have h' : Forces Z (S.filter fun p => ¬ (some p.1 = zero ∨ some p.2 = zero)) := by
    intro u hu ho
    refine h u (List.mem_filter.1 hu).1 fun x hx hne => ?_
    by_cases hx' : some x.1 = zero ∨ some x.2 = zero
    · rcases hx' with e | e
      · exact (hz x.1 e.symm x.2).1
      · exact (hz x.2 e.symm x.1).2
    · exact ho x (List.mem_filter.2 ⟨hx, by simpa using hx'⟩) hne
  unfold stepSet
  generalize (S.filter fun p => ¬ (some p.1 = zero ∨ some p.2 = zero)) = S' at h' ⊢
  split
  · rename_i p
    refine ⟨fun u hu => by simp at hu, fun u hu => ?_⟩
    dsimp only at hu
    split at hu
    · rename_i e
      obtain rfl := Option.some.inj hu
      have hp : p = (p.1, p.1) := Prod.ext rfl e.symm
      refine h' p.1 (List.mem_singleton.2 hp.symm) fun x hx hne => absurd ((List.mem_singleton.1 hx).trans hp) hne
    · simp at hu
  · exact ⟨h', fun u hu => by simp at hu⟩

theorem work_sound {Z : Pair → Prop} (hZ : ∀ u, Z (u, u) → ∀ w, Z (u, w) ∧ Z (w, u)) (fuel : ℕ) : ∀ (queue : List (Option (List ℕ))) (handled : List (List ℕ)) (sets : List (List Pair)),
    (∀ z, some z ∈ queue → Z (z, z)) → (∀ z ∈ handled, Z (z, z)) → (∀ S ∈ sets, Forces Z S) → ∀ z ∈ work fuel queue handled sets, Z (z, z) := by
  induction fuel with
  | zero => intro queue handled sets _ h2 _ z hz; exact h2 z hz
  | succ fuel ih =>
    intro queue handled sets h1 h2 h3 z hz
    cases queue with
    | nil => exact h2 z hz
    | cons zero queue =>
      unfold work at hz
      split at hz
      · exact ih queue handled sets (fun z hz => h1 z (List.mem_cons_of_mem _ hz)) h2 h3 z hz
      · dsimp only at hz
        have hzero : ∀ z ∈ zero, ∀ w, Z (z, w) ∧ Z (w, z) := fun z hz => hZ z (h1 z (by rw [Option.mem_def.1 hz]; exact List.mem_cons_self ..))
        refine ih _ _ _ ?_ ?_ ?_ z hz
        · intro y hy
          rcases List.mem_append.1 hy with hy | hy
          · exact h1 y (List.mem_cons_of_mem _ hy)
          · obtain ⟨y', hy', e⟩ := List.mem_map.1 hy
            obtain rfl := Option.some.inj e
            obtain ⟨w, hw, e⟩ := List.mem_filterMap.1 hy'
            obtain ⟨S, hS, rfl⟩ := List.mem_map.1 hw
            exact (stepSet_spec hzero (h3 S hS)).2 _ e
        · intro y hy
          cases zero with
          | none => exact h2 y hy
          | some z0 =>
            rcases List.mem_append.1 hy with hy | hy
            · exact h2 y hy
            · rw [List.mem_singleton.1 hy]
              exact h1 z0 (List.mem_cons_self ..)
        · intro S hS
          obtain ⟨w, hw, rfl⟩ := List.mem_map.1 hS
          obtain ⟨S', hS', rfl⟩ := List.mem_map.1 hw
          exact (stepSet_spec hzero (h3 S' hS')).1

/-- The number of sets that are not yet empty. -/
def live (sets : List (List Pair)) : ℕ := sets.countP fun S => !S.isEmpty

theorem live_step (zero : Option (List ℕ)) (sets : List (List Pair)) :
    live ((sets.map (stepSet zero)).map Prod.fst) + ((sets.map (stepSet zero)).filterMap Prod.snd).length ≤ live sets := by
  induction sets with
  | nil => simp [live]
  | cons S sets ih =>
    have h1 : ((stepSet zero S).2 = none ∧ ((stepSet zero S).1 ≠ [] → S ≠ [])) ∨ (S ≠ [] ∧ (stepSet zero S).1 = []) := by
      unfold stepSet
      split
      · rename_i p e
        refine Or.inr ⟨?_, rfl⟩
        rintro rfl
        simp at e
      · refine Or.inl ⟨rfl, ?_⟩
        intro h
        rintro rfl
        simp at h
    unfold live at ih ⊢
    rw [List.map_cons, List.map_cons, List.countP_cons, List.countP_cons]
    rcases h1 with ⟨h2, h3⟩ | ⟨h2, h3⟩
    · rw [List.filterMap_cons_none h2]
      by_cases h4 : (stepSet zero S).1 = []
      · rw [h4]; simp at ih ⊢; omega
      · have := h3 h4
        simp [h4, this] at ih ⊢
        omega
    · rw [h3]
      cases h5 : (stepSet zero S).2 with
      | none => rw [List.filterMap_cons_none h5]; simp at ih ⊢; omega
      | some u => rw [List.filterMap_cons_some h5]; simp [h2] at ih ⊢; omega

/-- The loop ends within the number of steps the model allows. -/
theorem work_steps (fuel : ℕ) : ∀ (queue : List (Option (List ℕ))) (handled : List (List ℕ)) (sets : List (List Pair)),
    queue.length + live sets ≤ fuel → ∀ more, work (fuel + more) queue handled sets = work fuel queue handled sets := by
  induction fuel with
  | zero =>
    intro queue handled sets h more
    have : queue = [] := List.length_eq_zero_iff.1 (by omega)
    subst this
    cases more <;> rfl
  | succ fuel ih =>
    intro queue handled sets h more
    rw [show fuel + 1 + more = (fuel + more) + 1 by omega]
    cases queue with
    | nil => rfl
    | cons zero queue =>
      unfold work
      rw [List.length_cons] at h
      split
      · exact ih queue handled sets (by omega) more
      · dsimp only
        refine ih _ _ _ ?_ more
        have := live_step zero sets
        rw [List.length_append, List.length_map]
        omega

end Verif.Manifold
