import Verif.Proofs.HomForm
import Mathlib.Tactic.Ring
import Mathlib.Tactic.FieldSimp
import Mathlib.Tactic.LinearCombination
import Mathlib.Tactic.NormNum

/-!
# The value of a symmetric form of degree four in any number of variables
-/

namespace Verif.SymForms

open Verif.Coeff

variable {K : Type*} [Field K] [DecidableEq K]

/-- All exponent lists of length `n` and sum `d`. -/
def allM : ℕ → ℕ → List (List ℕ)
  | 0, d => if d = 0 then [[]] else []
  | n + 1, d => (List.range (d + 1)).flatMap fun k => (allM n (d - k)).map (k :: ·)

theorem mem_allM : ∀ (n d : ℕ) (m : List ℕ), m ∈ allM n d ↔ m.length = n ∧ m.sum = d
  | 0, d, m => by
    unfold allM
    split
    · rename_i h
      subst h
      constructor
      · intro h
        rw [List.mem_singleton.1 h]
        simp
      · rintro ⟨h, _⟩
        rw [List.length_eq_zero_iff.1 h]
        simp
    · rename_i h
      constructor
      · intro h'
        exact absurd h' (by simp)
      · rintro ⟨h1, h2⟩
        rw [List.length_eq_zero_iff.1 h1] at h2
        exact absurd h2.symm h
  | n + 1, d, m => by
    unfold allM
    simp only [List.mem_flatMap, List.mem_range, List.mem_map]
    constructor
    · rintro ⟨k, hk, m', hm', rfl⟩
      obtain ⟨h1, h2⟩ := (mem_allM n (d - k) m').1 hm'
      simp [h1, h2]
      omega
    · rintro ⟨h1, h2⟩
      cases m with
      | nil => simp at h1
      | cons k m' =>
        simp only [List.length_cons, List.sum_cons] at h1 h2
        exact ⟨k, by omega, m', (mem_allM n (d - k) m').2 ⟨by omega, by omega⟩, rfl⟩

theorem nodup_allM : ∀ n d : ℕ, (allM n d).Nodup
  | 0, d => by
    unfold allM
    split <;> simp
  | n + 1, d => by
    unfold allM
    rw [List.nodup_flatMap]
    refine ⟨fun k _ => (nodup_allM n (d - k)).map fun a b h => (List.cons.inj h).2, ?_⟩
    refine List.Pairwise.imp_of_mem ?_ List.nodup_range
    intro a b _ _ hab
    simp only [Function.onFun, List.disjoint_left, List.mem_map, not_exists, not_and]
    rintro _ ⟨m, _, rfl⟩ m' _ h
    exact hab (List.cons.inj h).1.symm

/-- The sum of the terms of degree `d`. -/
def formSum (n d : ℕ) (g : List ℕ → K) (x : List K) : K := ((allM n d).map fun m => g m * evalMonom m x).sum

theorem formSum_succ (n d : ℕ) (g : List ℕ → K) (a : K) (x : List K) :
    formSum (n + 1) d g (a :: x) = ((List.range (d + 1)).map fun k => a ^ k * formSum n (d - k) (fun m => g (k :: m)) x).sum := by
  unfold formSum
  rw [allM, List.map_flatMap]
  have h : ∀ l : List ℕ, ((l.flatMap fun k => ((allM n (d - k)).map (k :: ·)).map fun m => g m * evalMonom m (a :: x))).sum =
      (l.map fun k => a ^ k * ((allM n (d - k)).map fun m => g (k :: m) * evalMonom m x).sum).sum := by
    intro l
    induction l with
    | nil => rfl
    | cons k l ih =>
      rw [List.flatMap_cons, List.sum_append, ih, List.map_cons, List.sum_cons, List.map_map]
      congr 1
      rw [← List.sum_map_mul_left]
      congr 1
      apply List.map_congr_left
      intro m _
      simp only [Function.comp, evalMonom, List.zipWith_cons_cons, List.prod_cons]
      ring
  exact h _

/-- The nonzero exponents. -/
def nz (m : List ℕ) : List ℕ := m.filter (· ≠ 0)

/-- The coefficients of type `l` are `c`. -/
def Typed (n : ℕ) (g : List ℕ → K) (l : List ℕ) (c : K) : Prop := ∀ m, m.length = n → (nz m).Perm l → g m = c

theorem Typed.zero {n : ℕ} {g : List ℕ → K} {l : List ℕ} {c : K} (h : Typed (n + 1) g l c) : Typed n (fun m => g (0 :: m)) l c := by
  intro m hm hp
  refine h (0 :: m) (by simp [hm]) ?_
  simpa [nz] using hp

theorem Typed.succ {n k : ℕ} {g : List ℕ → K} {l l' : List ℕ} {c : K} (h : Typed (n + 1) g l' c) (hl : (l').Perm ((k + 1) :: l)) :
    Typed n (fun m => g ((k + 1) :: m)) l c := by
  intro m hm hp
  refine h ((k + 1) :: m) (by simp [hm]) (List.Perm.trans ?_ hl.symm)
  simpa [nz] using hp

/-- Power sums. -/
def psum (x : List K) (k : ℕ) : K := (x.map fun a => a ^ k).sum

theorem psum_cons (a : K) (x : List K) (k : ℕ) : psum (a :: x) k = a ^ k + psum x k := by simp [psum]

theorem psum_nil (k : ℕ) : psum ([] : List K) k = 0 := by simp [psum]

theorem form0 : ∀ (x : List K) (g : List ℕ → K) (c : K), Typed x.length g [] c → formSum x.length 0 g x = c
  | [], g, c, h => by
    have := h [] rfl (by simp [nz])
    simp [formSum, allM, evalMonom, this]
  | a :: x, g, c, h => by
    rw [List.length_cons, formSum_succ]
    simp [form0 x _ c h.zero]

theorem form1 : ∀ (x : List K) (g : List ℕ → K) (c : K), Typed x.length g [1] c → formSum x.length 1 g x = c * psum x 1
  | [], g, c, h => by simp [formSum, allM, psum]
  | a :: x, g, c, h => by
    rw [List.length_cons, formSum_succ]
    simp only [List.range_succ, List.range_zero, List.nil_append, List.cons_append, List.map_cons, List.map_nil, List.sum_cons, List.sum_nil, Nat.sub_self, Nat.sub_zero]
    rw [form1 x _ c h.zero, form0 x _ c (h.succ (List.Perm.refl _)), psum_cons]
    ring

variable [CharZero K]

theorem form2 : ∀ (x : List K) (g : List ℕ → K) (c2 c11 : K), Typed x.length g [2] c2 → Typed x.length g [1, 1] c11 →
    formSum x.length 2 g x = c2 * psum x 2 + c11 * ((psum x 1 ^ 2 - psum x 2) / 2)
  | [], g, c2, c11, _, _ => by simp [formSum, allM, psum]
  | a :: x, g, c2, c11, h2, h11 => by
    rw [List.length_cons, formSum_succ]
    simp only [List.range_succ, List.range_zero, List.nil_append, List.cons_append, List.map_cons, List.map_nil, List.sum_cons, List.sum_nil, Nat.reduceSub, Nat.reduceAdd]
    rw [form2 x _ c2 c11 h2.zero h11.zero, form1 x _ c11 (h11.succ (List.Perm.refl _)), form0 x _ c2 (h2.succ (List.Perm.refl _)), psum_cons, psum_cons]
    ring

theorem form3 : ∀ (x : List K) (g : List ℕ → K) (c3 c21 c111 : K), Typed x.length g [3] c3 → Typed x.length g [2, 1] c21 → Typed x.length g [1, 1, 1] c111 →
    formSum x.length 3 g x = c3 * psum x 3 + c21 * (psum x 2 * psum x 1 - psum x 3) + c111 * ((psum x 1 ^ 3 - 3 * psum x 1 * psum x 2 + 2 * psum x 3) / 6)
  | [], g, c3, c21, c111, _, _, _ => by simp [formSum, allM, psum]
  | a :: x, g, c3, c21, c111, h3, h21, h111 => by
    rw [List.length_cons, formSum_succ]
    simp only [List.range_succ, List.range_zero, List.nil_append, List.cons_append, List.map_cons, List.map_nil, List.sum_cons, List.sum_nil, Nat.reduceSub, Nat.reduceAdd]
    rw [form3 x _ c3 c21 c111 h3.zero h21.zero h111.zero, form2 x _ c21 c111 (h21.succ (List.Perm.swap 1 2 [])) (h111.succ (List.Perm.refl _)),
      form1 x _ c21 (h21.succ (List.Perm.refl _)), form0 x _ c3 (h3.succ (List.Perm.refl _)), psum_cons, psum_cons, psum_cons]
    ring

theorem form4 : ∀ (x : List K) (g : List ℕ → K) (c4 c31 c22 c211 c1 : K), Typed x.length g [4] c4 → Typed x.length g [3, 1] c31 → Typed x.length g [2, 2] c22 →
    Typed x.length g [2, 1, 1] c211 → Typed x.length g [1, 1, 1, 1] c1 →
    formSum x.length 4 g x = c4 * psum x 4 + c31 * (psum x 3 * psum x 1 - psum x 4) + c22 * ((psum x 2 ^ 2 - psum x 4) / 2) +
      c211 * ((psum x 2 * psum x 1 ^ 2 - psum x 2 ^ 2 - 2 * psum x 3 * psum x 1 + 2 * psum x 4) / 2) +
      c1 * ((psum x 1 ^ 4 - 6 * psum x 1 ^ 2 * psum x 2 + 3 * psum x 2 ^ 2 + 8 * psum x 3 * psum x 1 - 6 * psum x 4) / 24)
  | [], g, c4, c31, c22, c211, c1, _, _, _, _, _ => by simp [formSum, allM, psum]
  | a :: x, g, c4, c31, c22, c211, c1, h4, h31, h22, h211, h1 => by
    rw [List.length_cons, formSum_succ]
    simp only [List.range_succ, List.range_zero, List.nil_append, List.cons_append, List.map_cons, List.map_nil, List.sum_cons, List.sum_nil, Nat.reduceSub, Nat.reduceAdd]
    rw [form4 x _ c4 c31 c22 c211 c1 h4.zero h31.zero h22.zero h211.zero h1.zero,
      form3 x _ c31 c211 c1 (h31.succ (List.Perm.swap 1 3 [])) (h211.succ (List.Perm.swap 1 2 [1])) (h1.succ (List.Perm.refl _)),
      form2 x _ c22 c211 (h22.succ (List.Perm.refl _)) (h211.succ (List.Perm.refl _)),
      form1 x _ c31 (h31.succ (List.Perm.refl _)), form0 x _ c4 (h4.succ (List.Perm.refl _)), psum_cons, psum_cons, psum_cons, psum_cons]
    ring

omit [CharZero K] in
/-- A symmetric dictionary has one coefficient for each type. -/
theorem typed_of_sym {co : Coeff K} (h : co.WF) (hn : co.nvars ≠ 0) (hs : co.isSymmetricDefault = .ok true) (l : List ℕ) (hl : l.length ≤ co.nvars) :
    Typed co.nvars co.call l (co.call (l ++ List.replicate (co.nvars - l.length) 0)) := by
  obtain ⟨b, hb, hb2⟩ := isSymmetricDefault_iff co h hn
  rw [hs] at hb
  have hp := hb2.1 (Except.ok.inj hb).symm
  intro m hm hml
  refine hp m _ hm ?_
  have h1 : (m.filter (· ≠ 0) ++ m.filter (fun a => !decide (a ≠ 0))).Perm m := List.filter_append_perm _ _
  have h2 : m.filter (fun a => !decide (a ≠ 0)) = List.replicate (co.nvars - l.length) 0 := by
    rw [List.eq_replicate_iff]
    constructor
    · have := h1.length_eq
      have h3 := hml.length_eq
      unfold nz at h3
      rw [List.length_append] at this
      omega
    · intro a ha
      simpa using (List.mem_filter.1 ha).2
  rw [h2] at h1
  exact h1.symm.trans (hml.append_right _)

/-- The value of a symmetric quartic. -/
theorem symQuartic {co : Coeff K} (h : co.WF) (hn : 4 ≤ co.nvars) (hd : co.Hom 4) (hs : co.isSymmetricDefault = .ok true) (x : List K) (hx : x.length = co.nvars) :
    evalDict co.coeffs x = co.call ([4] ++ List.replicate (co.nvars - 1) 0) * psum x 4 +
      co.call ([3, 1] ++ List.replicate (co.nvars - 2) 0) * (psum x 3 * psum x 1 - psum x 4) +
      co.call ([2, 2] ++ List.replicate (co.nvars - 2) 0) * ((psum x 2 ^ 2 - psum x 4) / 2) +
      co.call ([2, 1, 1] ++ List.replicate (co.nvars - 3) 0) * ((psum x 2 * psum x 1 ^ 2 - psum x 2 ^ 2 - 2 * psum x 3 * psum x 1 + 2 * psum x 4) / 2) +
      co.call ([1, 1, 1, 1] ++ List.replicate (co.nvars - 4) 0) *
        ((psum x 1 ^ 4 - 6 * psum x 1 ^ 2 * psum x 2 + 3 * psum x 2 ^ 2 + 8 * psum x 3 * psum x 1 - 6 * psum x 4) / 24) := by
  have h0 : evalDict co.coeffs x = formSum x.length 4 co.call x := by
    rw [hx]
    refine evalDict_eq_sum_of_keys co.coeffs h.nodup (allM co.nvars 4) (nodup_allM _ _) (fun k hk => ?_) x
    obtain ⟨kv, hkv, rfl⟩ := List.mem_map.1 hk
    exact (mem_allM _ _ _).2 ⟨h.length kv hkv, hd kv hkv⟩
  rw [h0]
  have ht : ∀ l : List ℕ, l.length ≤ co.nvars → Typed x.length co.call l (co.call (l ++ List.replicate (co.nvars - l.length) 0)) := by
    intro l hl
    rw [hx]
    exact typed_of_sym h (by omega) hs l hl
  exact form4 x _ _ _ _ _ _ (ht [4] (by simp; omega)) (ht [3, 1] (by simp; omega)) (ht [2, 2] (by simp; omega)) (ht [2, 1, 1] (by simp; omega)) (ht [1, 1, 1, 1] (by simp; omega))

end Verif.SymForms
