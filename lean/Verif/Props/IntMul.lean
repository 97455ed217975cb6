import Verif.Model.IntMul
import Mathlib.Tactic.Ring
import Mathlib.Tactic.Linarith
import Mathlib.Tactic.NormNum
import Mathlib.Tactic.FieldSimp
import Mathlib.Data.Rat.Lemmas
import Mathlib.Algebra.BigOperators.Ring.Finset
import Mathlib.Algebra.Order.BigOperators.Group.Finset
import Mathlib.Algebra.Order.BigOperators.Ring.Finset

/-!
# C55: exact matrix products through machine integers
-/

namespace Verif.IntMul

open Verif Finset

theorem mem_entries {r c : ℕ} {M : ℕ → ℕ → ℤ} {z : ℤ} : z ∈ entries r c M ↔ ∃ i < r, ∃ j < c, M i j = z := by
  unfold entries
  simp only [List.mem_flatMap, List.mem_map, List.mem_range]

theorem wrap_eq {z : ℤ} (h1 : -2 ^ 63 ≤ z) (h2 : z < 2 ^ 63) : wrap z = z := by
  unfold wrap
  rw [Int.emod_eq_of_lt (by linarith) (by norm_num at h2 ⊢; linarith)]
  ring

theorem foldl_max_ge (l : List ℤ) (x : ℤ) : x ≤ l.foldl max x ∧ ∀ y ∈ l, y ≤ l.foldl max x := by
  induction l generalizing x with
  | nil => simp
  | cons a l ih =>
    obtain ⟨h1, h2⟩ := ih (max x a)
    refine ⟨le_trans (le_max_left _ _) h1, ?_⟩
    intro y hy
    rcases List.mem_cons.1 hy with rfl | hy
    · exact le_trans (le_max_right _ _) h1
    · exact h2 y hy

/-- No entry is the most negative machine integer. -/
def NoMin (r c : ℕ) (M : ℕ → ℕ → ℤ) : Prop := ∀ i < r, ∀ j < c, M i j ≠ -2 ^ 63

/-- After a successful cast the computed maximum bounds all entries, provided none of them is the most negative integer. -/
theorem npAbsMax_bound {r c : ℕ} {M : ℕ → ℕ → ℤ} (hc : castOk r c M = true) (hm : NoMin r c M) {m : ℤ} (h : npAbsMax r c M = .ok m) :
    ∀ i < r, ∀ j < c, |M i j| ≤ m := by
  intro i hi j hj
  have hmem : M i j ∈ entries r c M := mem_entries.2 ⟨i, hi, j, hj, rfl⟩
  have hr := of_decide_eq_true (List.all_eq_true.1 hc _ hmem)
  have hne := hm i hi j hj
  have habs : npAbs (M i j) = |M i j| := by
    unfold npAbs
    apply wrap_eq
    · have := abs_nonneg (M i j); linarith
    · rw [abs_lt]
      refine ⟨lt_of_le_of_ne hr.1 (Ne.symm hne), hr.2⟩
  have hmem' : |M i j| ∈ (entries r c M).map npAbs := by
    rw [← habs]; exact List.mem_map_of_mem hmem
  unfold npAbsMax at h
  split at h
  · simp at h
  · rename_i x l hl
    rw [hl] at hmem'
    have hm' := Except.ok.inj h
    rw [← hm']
    obtain ⟨h1, h2⟩ := foldl_max_ge l x
    rcases List.mem_cons.1 hmem' with e | e
    · rw [e]; exact h1
    · exact h2 _ e

theorem npAbsMax_ok {r c : ℕ} (M : ℕ → ℕ → ℤ) (hr : 0 < r) (hc : 0 < c) : ∃ m, npAbsMax r c M = .ok m := by
  unfold npAbsMax
  split
  · rename_i h
    have : M 0 0 ∈ entries r c M := mem_entries.2 ⟨0, hr, 0, hc, rfl⟩
    have := List.mem_map_of_mem (f := npAbs) this
    rw [h] at this
    simp at this
  · exact ⟨_, rfl⟩

theorem abs_dot_le {n : ℕ} {a b : ℕ → ℤ} {α β : ℤ} (ha : ∀ k < n, |a k| ≤ α) (hb : ∀ k < n, |b k| ≤ β) {t : ℕ} (ht : t ≤ n) :
    |∑ k ∈ range t, a k * b k| ≤ α * β * t := by
  refine le_trans (abs_sum_le_sum_abs _ _) ?_
  have : ∑ k ∈ range t, |a k * b k| ≤ ∑ _k ∈ range t, α * β := by
    apply sum_le_sum
    intro k hk
    have hk' : k < n := lt_of_lt_of_le (mem_range.1 hk) ht
    rw [abs_mul]
    exact mul_le_mul (ha k hk') (hb k hk') (abs_nonneg _) (le_trans (abs_nonneg _) (ha k hk'))
  refine le_trans this ?_
  rw [sum_const, card_range, nsmul_eq_mul]
  exact le_of_eq (by ring)

theorem prod_le {n : ℕ} {a b : ℕ → ℤ} {α β : ℤ} (ha : ∀ k < n, |a k| ≤ α) (hb : ∀ k < n, |b k| ≤ β) {t : ℕ} (ht : t ≤ n) : α * β * t ≤ α * β * n := by
  rcases Nat.eq_zero_or_pos n with h0 | hpos
  · have : t = 0 := by omega
    rw [this, h0]
  · have h1 : 0 ≤ α := le_trans (abs_nonneg _) (ha 0 hpos)
    have h2 : 0 ≤ β := le_trans (abs_nonneg _) (hb 0 hpos)
    exact mul_le_mul_of_nonneg_left (by exact_mod_cast ht) (mul_nonneg h1 h2)

/-- **C55 (no intermediate overflow).** Under the bound tested by the guard every product and every partial sum of a machine dot product stays within 64
bits, and the dot product is exact. -/
theorem npDot_exact {n : ℕ} {a b : ℕ → ℤ} {α β : ℤ} (ha : ∀ k < n, |a k| ≤ α) (hb : ∀ k < n, |b k| ≤ β) (hg : α * β * n ≤ int64Max) :
    (∀ k < n, |a k * b k| < 2 ^ 63) ∧ (∀ t ≤ n, |∑ k ∈ range t, a k * b k| < 2 ^ 63) ∧ npDot n a b = ∑ k ∈ range n, a k * b k := by
  have hlt : ∀ x : ℤ, x ≤ α * β * n → x < 2 ^ 63 := by
    intro x hx
    have := le_trans hx hg
    unfold int64Max at this
    linarith
  have hp : ∀ k < n, |a k * b k| < 2 ^ 63 := by
    intro k hk
    apply hlt
    have h1 : |a k * b k| ≤ α * β * (1 : ℕ) := by
      rw [abs_mul, Nat.cast_one, mul_one]
      exact mul_le_mul (ha k hk) (hb k hk) (abs_nonneg _) (le_trans (abs_nonneg _) (ha k hk))
    exact le_trans h1 (prod_le ha hb (by omega))
  have hs : ∀ t ≤ n, |∑ k ∈ range t, a k * b k| < 2 ^ 63 := fun t ht => hlt _ (le_trans (abs_dot_le ha hb ht) (prod_le ha hb ht))
  refine ⟨hp, hs, ?_⟩
  have key : ∀ t ≤ n, (List.range t).foldl (fun acc k => wrap (acc + wrap (a k * b k))) 0 = ∑ k ∈ range t, a k * b k := by
    intro t
    induction t with
    | zero => intro _; rfl
    | succ t ih =>
      intro ht
      rw [List.range_succ, List.foldl_append, ih (by omega)]
      simp only [List.foldl_cons, List.foldl_nil]
      have h1 := abs_lt.1 (hp t (by omega))
      rw [wrap_eq h1.1.le h1.2, ← sum_range_succ]
      have h2 := abs_lt.1 (hs (t + 1) ht)
      exact wrap_eq h2.1.le h2.2
  exact key n le_rfl

/-- The contract of SymPy's `primitive`: content times integer part is the matrix. -/
def IsPrim (prim : RMat → ℚ × (ℕ → ℕ → ℤ)) (A : RMat) : Prop := ∀ i < A.rows, ∀ j < A.cols, A.val i j = (prim A).1 * (prim A).2 i j

/-- The integer part does not contain the most negative machine integer. -/
def Safe (prim : RMat → ℚ × (ℕ → ℕ → ℤ)) (A : RMat) : Prop := NoMin A.rows A.cols (prim A).2

/-- The exact product, entry by entry. -/
def prodEntry (A B : RMat) (i j : ℕ) : ℚ := ∑ k ∈ range A.cols, A.val i k * B.val k j

theorem flat_div {c i j : ℕ} (hj : j < c) : (i * c + j) / c = i ∧ (i * c + j) % c = j := by
  have hc : 0 < c := by omega
  constructor
  · rw [Nat.add_comm, Nat.add_mul_div_right _ _ hc, Nat.div_eq_of_lt hj, Nat.zero_add]
  · rw [Nat.add_comm, Nat.add_mul_mod_self_right, Nat.mod_eq_of_lt hj]

theorem flat_lt {r c i j : ℕ} (hi : i < r) (hj : j < c) : i * c + j < r * c := by
  calc i * c + j < i * c + c := by omega
    _ = (i + 1) * c := by ring
    _ ≤ r * c := Nat.mul_le_mul_right _ hi

theorem npDot_rat {A B : RMat} {prim : RMat → ℚ × (ℕ → ℕ → ℤ)} (hA : IsPrim prim A) (hB : IsPrim prim B) (hsh : A.cols = B.rows) {maxA maxB : ℤ}
    (ha : ∀ i < A.rows, ∀ j < A.cols, |(prim A).2 i j| ≤ maxA) (hb : ∀ i < B.rows, ∀ j < B.cols, |(prim B).2 i j| ≤ maxB)
    (hg : maxA * maxB * B.rows ≤ int64Max) {i j : ℕ} (hi : i < A.rows) (hj : j < B.cols) :
    (npDot B.rows (fun k => (prim A).2 i k) fun k => (prim B).2 k j : ℤ) * ((prim A).1 * (prim B).1) = prodEntry A B i j := by
  have h := (npDot_exact (n := B.rows) (a := fun k => (prim A).2 i k) (b := fun k => (prim B).2 k j) (fun k hk => ha i hi k (by omega))
    (fun k hk => hb k hk j hj) hg).2.2
  rw [h]
  unfold prodEntry
  push_cast
  rw [sum_mul, hsh]
  refine sum_congr rfl fun k hk => ?_
  have hk' := mem_range.1 hk
  rw [hA i hi k (by omega), hB k hk' j hj]
  ring

/-- **C55 (`matmul`, partial).** For rational matrices whose integer parts do not contain `-2^63` the result is the exact product, read row by row into the
requested shape.  Missing: an entry `-2^63`, see `matmul_overflow_wrong`. -/
theorem matmul_exact_partial (prim : RMat → ℚ × (ℕ → ℕ → ℤ)) (A B : RMat) (hA : IsPrim prim A) (hB : IsPrim prim B) (sA : Safe prim A) (sB : Safe prim B)
    (hsh : A.cols = B.rows) (shape : Option (ℕ × ℕ)) (hshape : ∀ s ∈ shape, s.1 * s.2 = A.rows * B.cols) :
    ∃ M, matmul prim A B shape = .ok M ∧ (M.rows, M.cols) = shape.getD (A.rows, B.cols) ∧
      ∀ i < M.rows, ∀ j < M.cols, M.val i j = prodEntry A B ((i * M.cols + j) / B.cols) ((i * M.cols + j) % B.cols) := by
  have hdef : ∃ M, (Except.ok (reshapeOpt (exactMul A B) shape) : Except PyErr RMat) = .ok M ∧ (M.rows, M.cols) = shape.getD (A.rows, B.cols) ∧
      ∀ i < M.rows, ∀ j < M.cols, M.val i j = prodEntry A B ((i * M.cols + j) / B.cols) ((i * M.cols + j) % B.cols) := by
    refine ⟨_, rfl, ?_, ?_⟩
    · cases shape <;> rfl
    · cases shape with
      | none =>
        intro i hi j hj
        have hj' : j < B.cols := hj
        change (∑ k ∈ range B.rows, A.val i k * B.val k j) = prodEntry A B ((i * B.cols + j) / B.cols) ((i * B.cols + j) % B.cols)
        rw [(flat_div hj').1, (flat_div hj').2, prodEntry, hsh]
      | some s =>
        intro i hi j hj
        change (∑ k ∈ range B.rows, _) = prodEntry A B ((i * s.2 + j) / B.cols) ((i * s.2 + j) % B.cols)
        rw [prodEntry, hsh]
        rfl
  unfold matmul
  split
  · rename_i h0
    refine ⟨_, rfl, rfl, ?_⟩
    intro i hi j hj
    change (0 : ℚ) = _
    have hin : i * (shape.getD (A.rows, B.cols)).2 + j < (shape.getD (A.rows, B.cols)).1 * (shape.getD (A.rows, B.cols)).2 := flat_lt hi hj
    have htot : (shape.getD (A.rows, B.cols)).1 * (shape.getD (A.rows, B.cols)).2 = A.rows * B.cols := by
      cases shape with
      | none => rfl
      | some s => exact hshape s rfl
    rw [htot] at hin
    rcases h0 with h | h | h
    · rw [h] at hin; simp at hin
    · unfold prodEntry; rw [hsh, h]; simp
    · rw [h] at hin; simp at hin
  · rename_i h0
    push Not at h0
    obtain ⟨hr, hbr, hbc⟩ := h0
    obtain ⟨maxA, hmA⟩ := npAbsMax_ok (r := A.rows) (c := A.cols) (prim A).2 (by omega) (by omega)
    obtain ⟨maxB, hmB⟩ := npAbsMax_ok (r := B.rows) (c := B.cols) (prim B).2 (by omega) (by omega)
    rw [hmA]
    split
    · exact hdef
    · rename_i hcA
      change ∃ M, (if int64Max < maxA then _ else _) = Except.ok M ∧ _
      split
      · exact hdef
      · split
        · exact hdef
        · rename_i hcB
          rw [hmB]
          change ∃ M, (if int64Max < maxB ∨ int64Max < maxA * maxB * B.rows then _ else _) = Except.ok M ∧ _
          split
          · exact hdef
          · rename_i hg
            push Not at hg
            refine ⟨_, rfl, rfl, ?_⟩
            intro i hi j hj
            have hin := flat_lt hi hj
            have htot : (shape.getD (A.rows, B.cols)).1 * (shape.getD (A.rows, B.cols)).2 = A.rows * B.cols := by
              cases shape with
              | none => rfl
              | some s => exact hshape s rfl
            have hin' : i * (shape.getD (A.rows, B.cols)).2 + j < A.rows * B.cols := lt_of_lt_of_eq hin htot
            refine npDot_rat hA hB hsh (npAbsMax_bound (by simpa using hcA) sA hmA) (npAbsMax_bound (by simpa using hcB) sB hmB) hg.2 ?_ ?_
            · exact Nat.div_lt_of_lt_mul (lt_of_lt_of_eq hin' (Nat.mul_comm _ _))
            · exact Nat.mod_lt _ (by omega)

/-- Without a requested shape: the product, entry by entry. -/
theorem matmul_entries_partial (prim : RMat → ℚ × (ℕ → ℕ → ℤ)) (A B : RMat) (hA : IsPrim prim A) (hB : IsPrim prim B) (sA : Safe prim A) (sB : Safe prim B)
    (hsh : A.cols = B.rows) :
    ∃ M, matmul prim A B none = .ok M ∧ M.rows = A.rows ∧ M.cols = B.cols ∧ ∀ i < A.rows, ∀ j < B.cols, M.val i j = prodEntry A B i j := by
  obtain ⟨M, h1, h2, h3⟩ := matmul_exact_partial prim A B hA hB sA sB hsh none (by simp)
  have hr : M.rows = A.rows := congrArg Prod.fst h2
  have hc : M.cols = B.cols := congrArg Prod.snd h2
  refine ⟨M, h1, hr, hc, ?_⟩
  intro i hi j hj
  have := h3 i (by omega) j (by omega)
  rw [hc, (flat_div hj).1, (flat_div hj).2] at this
  exact this

/-- An integer matrix is its own integer part. -/
def primInt (A : RMat) : ℚ × (ℕ → ℕ → ℤ) := (1, fun i j => (A.val i j).num)

/-- **C55 (violated).** The absolute value of `-2^63` is negative in 64 bits, so the guard does not see it: `[[-2^63, 1]] * [[2], [1]]` is computed as `1`
instead of `1 - 2^64`. -/
theorem matmul_overflow_wrong : ∃ A B : RMat, IsPrim primInt A ∧ IsPrim primInt B ∧ A.cols = B.rows ∧
    ∃ M, matmul primInt A B none = .ok M ∧ M.val 0 0 = 1 ∧ prodEntry A B 0 0 = 1 - 2 ^ 64 := by
  refine ⟨⟨1, 2, fun _ j => if j = 0 then -2 ^ 63 else 1⟩, ⟨2, 1, fun i _ => if i = 0 then 2 else 1⟩, ?_, ?_, rfl, ?_⟩
  · unfold IsPrim; decide +kernel
  · unfold IsPrim; decide +kernel
  · have h : (match matmul primInt ⟨1, 2, fun _ j => if j = 0 then -2 ^ 63 else 1⟩ ⟨2, 1, fun i _ => if i = 0 then 2 else 1⟩ none with
        | .ok M => decide (M.val 0 0 = 1)
        | .error _ => false) = true := by decide +kernel
    split at h
    · rename_i M hM
      exact ⟨M, hM, of_decide_eq_true h, by unfold prodEntry; simp [sum_range_succ]; norm_num⟩
    · simp at h

example : Safe primInt ⟨2, 2, fun i j => (i : ℚ) - j⟩ ∧ IsPrim primInt ⟨2, 2, fun i j => (i : ℚ) - j⟩ := by
  unfold Safe NoMin IsPrim
  decide +kernel

/-- A common denominator of the entries. -/
def commonDen (A : RMat) : ℕ := ∏ i ∈ range A.rows, ∏ j ∈ range A.cols, (A.val i j).den

/-- One function that meets the contract of `primitive` on every matrix. -/
def primDen (A : RMat) : ℚ × (ℕ → ℕ → ℤ) := (1 / commonDen A, fun i j => (A.val i j * commonDen A).num)

theorem primDen_isPrim (A : RMat) : IsPrim primDen A := by
  intro i hi j hj
  have hdvd : (A.val i j).den ∣ commonDen A :=
    dvd_trans (dvd_prod_of_mem (fun j => (A.val i j).den) (mem_range.2 hj)) (dvd_prod_of_mem (fun i => ∏ j ∈ range A.cols, (A.val i j).den) (mem_range.2 hi))
  have hpos : (commonDen A : ℚ) ≠ 0 := by
    have : commonDen A ≠ 0 := prod_ne_zero_iff.2 fun i _ => prod_ne_zero_iff.2 fun j _ => (A.val i j).den_nz
    exact_mod_cast this
  obtain ⟨t, ht⟩ := hdvd
  have hint : A.val i j * commonDen A = (((A.val i j).num * t : ℤ) : ℚ) := by
    rw [ht]
    push_cast
    rw [← mul_assoc, Rat.mul_den_eq_num]
  have hnum : (((A.val i j * commonDen A).num : ℤ) : ℚ) = A.val i j * commonDen A := by
    rw [hint, Rat.num_intCast]
  change A.val i j = 1 / (commonDen A : ℚ) * (((A.val i j * commonDen A).num : ℤ) : ℚ)
  rw [hnum]
  field_simp

/-- The hypotheses of the theorems below hold for a concrete matrix with fractions. -/
example : Safe primDen ⟨2, 2, fun i j => (i : ℚ) / 2 - j / 3⟩ := by
  unfold Safe NoMin
  decide +kernel

theorem collectRows_ok (c : ℕ) (P : ℕ → ℕ → ℚ) : ∀ (l : List ℕ) (f : ℕ → Except PyErr RMat), (∀ t ∈ l, ∃ M, f t = .ok M ∧ ∀ j < c, M.val 0 j = P t j) →
    ∃ rows, collectRows (l.map f) = .ok rows ∧ rows.length = l.length ∧ ∀ i < l.length, ∀ j < c, (rows.map fun m => m.val 0 j).getD i 0 = P (l.getD i 0) j := by
  intro l f
  induction l with
  | nil => intro _; exact ⟨[], rfl, rfl, by simp⟩
  | cons t l ih =>
    intro h
    obtain ⟨M, hM, hv⟩ := h t (by simp)
    obtain ⟨rows, h1, h2, h3⟩ := ih (fun s hs => h s (by simp [hs]))
    refine ⟨M :: rows, ?_, by simp [h2], ?_⟩
    · change (f t).bind (fun m => (collectRows (l.map f)).map (m :: ·)) = _
      rw [hM, h1]; rfl
    · intro i hi j hj
      cases i with
      | zero => simpa using hv j hj
      | succ i =>
        have := h3 i (by simpa using hi) j hj
        simpa using this

theorem getD_range {n i : ℕ} (h : i < n) : (List.range n).getD i 0 = i := by
  rw [List.getD_eq_getElem?_getD, List.getElem?_range h]; rfl

/-- The fallback collects the exact products of the rows. -/
theorem multipleDefault_exact {prim : RMat → ℚ × (ℕ → ℕ → ℤ)} {A B : RMat} (hprim : ∀ M, IsPrim prim M) (sB : Safe prim B)
    (sR : ∀ t < A.rows, Safe prim (rowMat B.rows A t)) : ∃ M, multipleDefault prim A B = .ok M ∧ M.rows = A.rows ∧ M.cols = B.rows * B.cols ∧
      ∀ t < A.rows, ∀ c < B.rows * B.cols, M.val t c = ∑ k ∈ range B.rows, A.val t (c / B.cols * B.rows + k) * B.val k (c % B.cols) := by
  have hrow : ∀ t ∈ List.range A.rows, ∃ M, matmul prim (rowMat B.rows A t) B (some (1, B.rows * B.cols)) = .ok M ∧
      ∀ c < B.rows * B.cols, M.val 0 c = ∑ k ∈ range B.rows, A.val t (c / B.cols * B.rows + k) * B.val k (c % B.cols) := by
    intro t ht
    obtain ⟨M, h1, h2, h3⟩ := matmul_exact_partial prim (rowMat B.rows A t) B (hprim _) (hprim _) (sR t (List.mem_range.1 ht)) sB rfl
      (some (1, B.rows * B.cols)) (by intro s hs; rw [← Option.some.inj hs, Nat.one_mul]; rfl)
    have hr : M.rows = 1 := congrArg Prod.fst h2
    have hc : M.cols = B.rows * B.cols := congrArg Prod.snd h2
    refine ⟨M, h1, ?_⟩
    intro c hlt
    rw [h3 0 (by omega) c (by omega), Nat.zero_mul, Nat.zero_add]
    rfl
  obtain ⟨rows, e1, e2, e3⟩ := collectRows_ok (B.rows * B.cols) (fun t c => ∑ k ∈ range B.rows, A.val t (c / B.cols * B.rows + k) * B.val k (c % B.cols))
    (List.range A.rows) _ hrow
  refine ⟨vstack (B.rows * B.cols) rows, ?_, ?_, rfl, ?_⟩
  · unfold multipleDefault
    rw [e1]; rfl
  · change rows.length = _
    rw [e2, List.length_range]
  · intro t ht c hc
    have := e3 t (by rw [List.length_range]; exact ht) c hc
    rw [getD_range ht] at this
    exact this

/-- **C55 (`matmul_multiple`, partial).** Row `t` of the result holds the product of the `n x n` matrix in row `t` of `A` with `B`, read row by row. -/
theorem matmulMultiple_exact_partial (prim : RMat → ℚ × (ℕ → ℕ → ℤ)) (A B : RMat) (hprim : ∀ M, IsPrim prim M) (sA : Safe prim A) (sB : Safe prim B)
    (sR : ∀ t < A.rows, Safe prim (rowMat B.rows A t)) (hsh : A.cols = B.rows * B.rows) :
    ∃ M, matmulMultiple prim A B = .ok M ∧ M.rows = A.rows ∧ M.cols = B.rows * B.cols ∧
      ∀ t < A.rows, ∀ i < B.rows, ∀ j < B.cols, M.val t (i * B.cols + j) = ∑ k ∈ range B.rows, A.val t (i * B.rows + k) * B.val k j := by
  have hdef : ∃ M, multipleDefault prim A B = .ok M ∧ M.rows = A.rows ∧ M.cols = B.rows * B.cols ∧
      ∀ t < A.rows, ∀ i < B.rows, ∀ j < B.cols, M.val t (i * B.cols + j) = ∑ k ∈ range B.rows, A.val t (i * B.rows + k) * B.val k j := by
    obtain ⟨M, h1, h2, h3, h4⟩ := multipleDefault_exact hprim sB sR
    refine ⟨M, h1, h2, h3, ?_⟩
    intro t ht i hi j hj
    rw [h4 t ht _ (flat_lt hi hj), (flat_div hj).1, (flat_div hj).2]
  unfold matmulMultiple
  split
  · rename_i h0
    refine ⟨_, rfl, rfl, rfl, ?_⟩
    intro t ht i hi j hj
    rcases h0 with h | h | h <;> omega
  · rename_i h0
    push Not at h0
    obtain ⟨hr, hbr, hbc⟩ := h0
    obtain ⟨maxA, hmA⟩ := npAbsMax_ok (r := A.rows) (c := A.cols) (prim A).2 (by omega) (by rw [hsh]; exact Nat.mul_pos (by omega) (by omega))
    obtain ⟨maxB, hmB⟩ := npAbsMax_ok (r := B.rows) (c := B.cols) (prim B).2 (by omega) (by omega)
    rw [hmA]
    split
    · exact hdef
    · rename_i hcA
      change ∃ M, (if int64Max < maxA then _ else _) = Except.ok M ∧ _
      split
      · exact hdef
      · split
        · exact hdef
        · rename_i hcB
          rw [hmB]
          change ∃ M, (if int64Max < maxB ∨ int64Max < maxA * maxB * B.rows then _ else _) = Except.ok M ∧ _
          split
          · exact hdef
          · rename_i hg
            push Not at hg
            refine ⟨_, rfl, rfl, rfl, ?_⟩
            intro t ht i hi j hj
            change ((npDot B.rows (fun k => (prim A).2 t ((i * B.cols + j) / B.cols * B.rows + k)) fun k => (prim B).2 k ((i * B.cols + j) % B.cols) : ℤ) : ℚ) *
              ((prim A).1 * (prim B).1) = _
            rw [(flat_div hj).1, (flat_div hj).2]
            have hbA := npAbsMax_bound (by simpa using hcA) sA hmA
            have hbB := npAbsMax_bound (by simpa using hcB) sB hmB
            rw [(npDot_exact (n := B.rows) (α := maxA) (β := maxB) (fun k hk => hbA t ht _ (by rw [hsh]; exact flat_lt hi hk)) (fun k hk => hbB k hk j hj) hg.2).2.2]
            push_cast
            rw [sum_mul]
            refine sum_congr rfl fun k hk => ?_
            have hk' := mem_range.1 hk
            rw [hprim A t ht (i * B.rows + k) (by rw [hsh]; exact flat_lt hi hk'), hprim B k hk' j hj]
            ring

/-- The exact value of `Uᵀ X U`. -/
def bilin (U X : RMat) (i j : ℕ) : ℚ := ∑ l ∈ range U.rows, (∑ k ∈ range U.rows, U.val k i * X.val k l) * U.val l j

/-- `M` has the shape and the entries of `N`. -/
def Same (M N : RMat) : Prop := M.rows = N.rows ∧ M.cols = N.cols ∧ ∀ i < N.rows, ∀ j < N.cols, M.val i j = N.val i j

/-- **C55 (`symmetric_bilinear`, partial).** The result is `Uᵀ X U`. -/
theorem symmetricBilinear_exact_partial (prim : RMat → ℚ × (ℕ → ℕ → ℤ)) (U X : RMat) (hprim : ∀ M, IsPrim prim M) (sU : Safe prim U)
    (sT : Safe prim (transpose U)) (sX : Safe prim X) (sXU : ∀ M, Same M (exactMul X U) → Safe prim M) (hr : X.rows = U.rows) (hc : X.cols = U.rows)
    (shape : Option (ℕ × ℕ)) (hshape : ∀ s ∈ shape, s.1 * s.2 = U.cols * U.cols) :
    ∃ M, symmetricBilinear prim U X shape = .ok M ∧ (M.rows, M.cols) = shape.getD (U.cols, U.cols) ∧
      ∀ i < M.rows, ∀ j < M.cols, M.val i j = bilin U X ((i * M.cols + j) / U.cols) ((i * M.cols + j) % U.cols) := by
  obtain ⟨P, p1, p2, p3, p4⟩ := matmul_entries_partial prim X U (hprim _) (hprim _) sX sU hc
  have hsame : Same P (exactMul X U) := by
    refine ⟨p2, p3, ?_⟩
    intro i hi j hj
    rw [p4 i hi j hj, prodEntry, hc]
    rfl
  obtain ⟨Q, q1, q2, q3, q4⟩ := matmul_entries_partial prim (transpose U) P (hprim _) (hprim _) sT (sXU P hsame) (by rw [p2, hr]; rfl)
  have hq2 : Q.rows = U.cols := q2
  have hq3 : Q.cols = U.cols := by rw [q3, p3]
  have hval : ∀ i < U.cols, ∀ j < U.cols, Q.val i j = bilin U X i j := by
    intro i hi j hj
    rw [q4 i hi j (by omega)]
    unfold prodEntry bilin
    change ∑ k ∈ range U.rows, U.val k i * P.val k j = _
    have : ∀ k ∈ range U.rows, U.val k i * P.val k j = ∑ l ∈ range U.rows, U.val k i * X.val k l * U.val l j := by
      intro k hk
      rw [p4 k (by have := mem_range.1 hk; omega) j hj, prodEntry, hc, mul_sum]
      exact sum_congr rfl fun l _ => by ring
    rw [sum_congr rfl this, sum_comm]
    refine sum_congr rfl fun l _ => ?_
    rw [sum_mul]
  refine ⟨reshapeOpt Q shape, ?_, ?_, ?_⟩
  · unfold symmetricBilinear
    rw [p1]
    change (matmul prim (transpose U) P none).map _ = _
    rw [q1]; rfl
  · cases shape with
    | none => change (Q.rows, Q.cols) = _; rw [hq2, hq3]; rfl
    | some s => rfl
  · cases shape with
    | none =>
      intro i hi j hj
      have hi' : i < U.cols := by rw [← hq2]; exact hi
      have hj' : j < U.cols := by rw [← hq3]; exact hj
      change Q.val i j = bilin U X ((i * Q.cols + j) / U.cols) ((i * Q.cols + j) % U.cols)
      rw [hq3, (flat_div hj').1, (flat_div hj').2]
      exact hval i hi' j hj'
    | some s =>
      intro i hi j hj
      have hin : i * s.2 + j < U.cols * U.cols := lt_of_lt_of_eq (flat_lt hi hj) (hshape s rfl)
      change Q.val ((i * s.2 + j) / Q.cols) ((i * s.2 + j) % Q.cols) = bilin U X ((i * s.2 + j) / U.cols) ((i * s.2 + j) % U.cols)
      rw [hq3]
      have hpos : 0 < U.cols := by
        rcases Nat.eq_zero_or_pos U.cols with h | h
        · rw [h] at hin; simp at hin
        · exact h
      exact hval _ (Nat.div_lt_of_lt_mul hin) _ (Nat.mod_lt _ hpos)

/-- **C55 (`symmetric_bilinear_multiple`, partial).** For nonempty shapes row `t` of the result holds `Uᵀ X U` for the matrix `X` in row `t` of `A`. -/
theorem bilinearMultiple_exact_partial (prim : RMat → ℚ × (ℕ → ℕ → ℤ)) (U A : RMat) (hprim : ∀ M, IsPrim prim M) (sA : Safe prim A) (sU : Safe prim U)
    (sT : Safe prim (transpose U)) (sR : ∀ t < A.rows, Safe prim (rowMat U.rows A t))
    (sXU : ∀ t < A.rows, ∀ M, Same M (exactMul (rowMat U.rows A t) U) → Safe prim M) (hsh : A.cols = U.rows * U.rows) (hn : 0 < U.rows) (hm : 0 < U.cols) :
    ∃ M, bilinearMultiple prim U A = .ok M ∧ M.rows = A.rows ∧ M.cols = U.cols * U.cols ∧
      ∀ t < A.rows, ∀ i < U.cols, ∀ j < U.cols, M.val t (i * U.cols + j) = bilin U (rowMat U.rows A t) i j := by
  have hdef : ∃ M, bilinearDefault prim U A = .ok M ∧ M.rows = A.rows ∧ M.cols = U.cols * U.cols ∧
      ∀ t < A.rows, ∀ i < U.cols, ∀ j < U.cols, M.val t (i * U.cols + j) = bilin U (rowMat U.rows A t) i j := by
    have hrow : ∀ t ∈ List.range A.rows, ∃ M, symmetricBilinear prim U (rowMat U.rows A t) (some (1, U.cols * U.cols)) = .ok M ∧
        ∀ c < U.cols * U.cols, M.val 0 c = bilin U (rowMat U.rows A t) (c / U.cols) (c % U.cols) := by
      intro t ht
      have ht' := List.mem_range.1 ht
      obtain ⟨M, h1, h2, h3⟩ := symmetricBilinear_exact_partial prim U (rowMat U.rows A t) hprim sU sT (sR t ht') (sXU t ht') rfl rfl
        (some (1, U.cols * U.cols)) (by intro s hs; rw [← Option.some.inj hs, Nat.one_mul])
      have hr : M.rows = 1 := congrArg Prod.fst h2
      have hc : M.cols = U.cols * U.cols := congrArg Prod.snd h2
      refine ⟨M, h1, ?_⟩
      intro c hlt
      rw [h3 0 (by omega) c (by omega), Nat.zero_mul, Nat.zero_add]
    obtain ⟨rows, e1, e2, e3⟩ := collectRows_ok (U.cols * U.cols) (fun t c => bilin U (rowMat U.rows A t) (c / U.cols) (c % U.cols)) (List.range A.rows) _ hrow
    refine ⟨vstack (U.cols * U.cols) rows, ?_, ?_, rfl, ?_⟩
    · unfold bilinearDefault
      rw [e1]; rfl
    · change rows.length = _
      rw [e2, List.length_range]
    · intro t ht i hi j hj
      have := e3 t (by rw [List.length_range]; exact ht) (i * U.cols + j) (flat_lt hi hj)
      rw [getD_range ht, (flat_div hj).1, (flat_div hj).2] at this
      exact this
  unfold bilinearMultiple
  split
  · rename_i h0
    refine ⟨_, rfl, h0.symm, rfl, ?_⟩
    intro t ht
    omega
  · rename_i h0
    obtain ⟨maxA, hmA⟩ := npAbsMax_ok (r := A.rows) (c := A.cols) (prim A).2 (by omega) (by rw [hsh]; exact Nat.mul_pos hn hn)
    obtain ⟨maxU, hmU⟩ := npAbsMax_ok (r := U.rows) (c := U.cols) (prim U).2 hn hm
    rw [hmA]
    split
    · exact hdef
    · rename_i hcA
      change ∃ M, (if int64Max < maxA then _ else _) = Except.ok M ∧ _
      split
      · exact hdef
      · split
        · exact hdef
        · rename_i hcU
          rw [hmU]
          change ∃ M, (if int64Max < maxU ∨ int64Max < maxA * maxU ^ 2 * (U.rows : ℤ) ^ 2 then _ else _) = Except.ok M ∧ _
          split
          · exact hdef
          · rename_i hg
            push Not at hg
            have hbA := npAbsMax_bound (by simpa using hcA) sA hmA
            have hbU := npAbsMax_bound (by simpa using hcU) sU hmU
            refine ⟨_, rfl, rfl, rfl, ?_⟩
            intro t ht i hi j hj
            change ((npDot U.rows (fun l => npDot U.rows (fun k => (prim U).2 k ((i * U.cols + j) / U.cols)) fun k => (prim A).2 t (k * U.rows + l))
              fun l => (prim U).2 l ((i * U.cols + j) % U.cols) : ℤ) : ℚ) * ((prim A).1 * (prim U).1 ^ 2) = _
            rw [(flat_div hj).1, (flat_div hj).2]
            have hU0 : 0 ≤ maxU := le_trans (abs_nonneg _) (hbU 0 hn 0 hm)
            have hA0 : 0 ≤ maxA := le_trans (abs_nonneg _) (hbA t ht 0 (by rw [hsh]; exact Nat.mul_pos hn hn))
            have hn1 : (1 : ℤ) ≤ U.rows := by exact_mod_cast hn
            have hinner : maxU * maxA * U.rows ≤ int64Max := by
              rcases eq_or_lt_of_le hU0 with h | h
              · rw [← h]; simp [int64Max]
              · refine le_trans ?_ hg.2
                have h1 : maxU * maxA * U.rows * 1 ≤ maxU * maxA * U.rows * (maxU * U.rows) := by
                  apply mul_le_mul_of_nonneg_left
                  · nlinarith
                  · positivity
                nlinarith
            have hin : ∀ l < U.rows, npDot U.rows (fun k => (prim U).2 k i) (fun k => (prim A).2 t (k * U.rows + l)) =
                ∑ k ∈ range U.rows, (prim U).2 k i * (prim A).2 t (k * U.rows + l) := fun l hl =>
              (npDot_exact (n := U.rows) (α := maxU) (β := maxA) (fun k hk => hbU k hk i hi) (fun k hk => hbA t ht _ (by rw [hsh]; exact flat_lt hk hl)) hinner).2.2
            have hbound : ∀ l < U.rows, |npDot U.rows (fun k => (prim U).2 k i) (fun k => (prim A).2 t (k * U.rows + l))| ≤ maxU * maxA * U.rows := by
              intro l hl
              rw [hin l hl]
              exact abs_dot_le (fun k hk => hbU k hk i hi) (fun k hk => hbA t ht _ (by rw [hsh]; exact flat_lt hk hl)) le_rfl
            have hgo : maxU * maxA * U.rows * maxU * U.rows ≤ int64Max := by
              refine le_trans (le_of_eq ?_) hg.2
              ring
            rw [(npDot_exact (n := U.rows) (α := maxU * maxA * U.rows) (β := maxU) hbound (fun l hl => hbU l hl j hj) hgo).2.2]
            unfold bilin
            push_cast
            rw [sum_mul]
            refine sum_congr rfl fun l hl => ?_
            have hl' := mem_range.1 hl
            rw [hin l hl']
            have hsum : ∑ k ∈ range U.rows, U.val k i * (rowMat U.rows A t).val k l =
                (∑ k ∈ range U.rows, (prim U).2 k i * (prim A).2 t (k * U.rows + l) : ℤ) * ((prim U).1 * (prim A).1) := by
              push_cast
              rw [sum_mul]
              refine sum_congr rfl fun k hk => ?_
              have hk' := mem_range.1 hk
              change U.val k i * A.val t (k * U.rows + l) = _
              rw [hprim U k hk' i hi, hprim A t ht (k * U.rows + l) (by rw [hsh]; exact flat_lt hk' hl')]
              ring
            rw [hsum, hprim U l hl' j hj]
            push_cast
            ring

/-- Matrices of size zero raise `ValueError` instead of giving the empty result. -/
theorem bilinearMultiple_empty_raises (prim : RMat → ℚ × (ℕ → ℕ → ℤ)) (U A : RMat) (hA : A.rows ≠ 0) (hc : A.cols = 0) :
    bilinearMultiple prim U A = .error .valueError := by
  have he : entries A.rows A.cols (prim A).2 = [] := by
    rw [hc]
    apply List.eq_nil_iff_forall_not_mem.2
    intro z hz
    obtain ⟨_, _, j, hj, _⟩ := mem_entries.1 hz
    omega
  unfold bilinearMultiple
  rw [if_neg hA, if_neg (by unfold castOk; rw [he]; simp)]
  unfold npAbsMax
  rw [he]
  rfl

end Verif.IntMul
