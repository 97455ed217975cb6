import Verif.Model.TernarySolver
import Verif.Props.Coeff
import Verif.Props.TernaryHeuristic

/-!
# Coefficient tables of ternary forms are closed under the extraction of factors
-/

set_option linter.unusedSectionVars false

namespace Verif.Ternary

open Verif

variable {K : Type*} [Field K] [LinearOrder K] [IsStrictOrderedRing K]

/-- The table of a ternary form that is not zero: keys of length three and of the same degree in decreasing order, no zero entries. -/
structure Table (co : Coeff K) : Prop where
  nvars : co.nvars = 3
  ne : co.coeffs ≠ []
  len : ∀ kv ∈ co.coeffs, kv.1.length = 3
  hom : ∀ kv ∈ co.coeffs, kv.1.sum = co.degree
  nz : ∀ kv ∈ co.coeffs, kv.2 ≠ 0
  sorted : co.coeffs.Pairwise fun x y => y.1 < x.1

/-- The form does not change under the rotation of the variables. -/
def Turns (co : Coeff K) : Prop := ∀ i j k v, ([i, j, k], v) ∈ co.coeffs → ([j, k, i], v) ∈ co.coeffs

theorem Table.nodup {co : Coeff K} (h : Table co) : (dkeys co.coeffs).Nodup := by
  unfold dkeys
  exact List.Pairwise.map _ (fun x y hxy => ne_of_gt hxy) h.sorted

theorem Table.wf {co : Coeff K} (h : Table co) : co.WF := ⟨h.nodup, fun kv hkv => by rw [h.nvars]; exact h.len kv hkv⟩

theorem Table.cyc {co : Coeff K} (h : Table co) (ht : Turns co) (i j k : ℕ) : co.call [j, k, i] = co.call [i, j, k] := by
  by_cases h1 : co.call [i, j, k] = 0
  · by_contra h2
    rw [h1] at h2
    have m := ht _ _ _ _ (ht _ _ _ _ (Coeff.mem_of_call_ne_zero h.wf h2))
    have := Coeff.call_eq_of_mem h.wf m
    exact h2 (this.symm.trans h1)
  · exact Coeff.call_eq_of_mem h.wf (ht _ _ _ _ (Coeff.mem_of_call_ne_zero h.wf h1))

theorem Table.cycIn {co : Coeff K} (h : Table co) (ht : Turns co) : CycIn co co.degree := ⟨h.len, h.hom, h.cyc ht, h.nz, h.sorted⟩

theorem Table.isCyclic {co : Coeff K} (h : Table co) : co.isCyclicDefault = true ↔ Turns co := by
  rw [Coeff.isCyclicDefault_iff co h.wf (by rw [h.nvars]; omega)]
  constructor
  · intro hr i j k v hv
    have e := hr [i, j, k] 1 (by rw [h.nvars]; rfl)
    have e1 := Coeff.call_eq_of_mem h.wf hv
    rw [e1] at e
    have hz : co.call ([i, j, k].rotate 1) ≠ 0 := by rw [e]; exact h.nz _ hv
    have := Coeff.mem_of_call_ne_zero h.wf hz
    rw [e] at this
    exact this
  · intro ht m k hm
    rw [h.nvars] at hm
    have e1 : ∀ m : List ℕ, m.length = 3 → co.call (m.rotate 1) = co.call m := by
      intro m hm
      match m, hm with
      | [i, j, k], _ => exact h.cyc ht i j k
    induction k with
    | zero => simp
    | succ k ih => rw [← List.rotate_rotate, e1 _ (by simpa using hm), ih]

/-- A change of the keys that keeps length and order and makes the degree constant gives a table again. -/
theorem Table.change {co : Coeff K} (h : Table co) (f : List ℕ → List ℕ) (d : ℕ) (hl : ∀ kv ∈ co.coeffs, (f kv.1).length = 3) (hs : ∀ kv ∈ co.coeffs, (f kv.1).sum = d)
    (hm : ∀ x ∈ co.coeffs, ∀ y ∈ co.coeffs, y.1 < x.1 → f y.1 < f x.1) :
    let co' := Coeff.ofDict (dictOf ((co.coeffs.filter fun kv => decide (kv.2 ≠ 0)).map fun kv => (f kv.1, kv.2)))
    Table co' ∧ co'.degree = d ∧ co'.coeffs = co.coeffs.map fun kv => (f kv.1, kv.2) := by
  intro co'
  have hfil : (co.coeffs.filter fun kv => decide (kv.2 ≠ 0)) = co.coeffs := by
    rw [List.filter_eq_self]; intro a ha; simpa using h.nz a ha
  have hp : (co.coeffs.map fun kv => (f kv.1, kv.2)).Pairwise fun x y => y.1 < x.1 := by
    rw [List.pairwise_map]
    exact h.sorted.imp_of_mem fun hx hy hxy => hm _ hx _ hy hxy
  have hc : co'.coeffs = co.coeffs.map fun kv => (f kv.1, kv.2) := by
    show dictOf _ = _
    rw [hfil]
    refine Coeff.dictOf_eq_of_nodup _ ?_
    unfold dkeys
    exact List.Pairwise.map _ (fun x y hxy => ne_of_gt hxy) hp
  have hne : co'.coeffs ≠ [] := by rw [hc]; simpa using h.ne
  have hmem : ∀ kv' ∈ co'.coeffs, ∃ kv ∈ co.coeffs, (f kv.1, kv.2) = kv' := by
    intro kv' hkv'
    rw [hc] at hkv'
    exact List.mem_map.1 hkv'
  have hlen : ∀ kv ∈ co'.coeffs, kv.1.length = 3 := by
    intro kv' hkv'
    obtain ⟨kv, hkv, rfl⟩ := hmem _ hkv'
    exact hl kv hkv
  have hsum : ∀ kv ∈ co'.coeffs, kv.1.sum = d := by
    intro kv' hkv'
    obtain ⟨kv, hkv, rfl⟩ := hmem _ hkv'
    exact hs kv hkv
  have hdeg : co'.degree = d := by
    unfold Coeff.degree
    cases hcc : co'.coeffs with
    | nil => exact absurd hcc hne
    | cons kv r => exact hsum kv (by rw [hcc]; simp)
  have hn : co'.nvars = 3 := by
    have : co'.nvars = match co'.coeffs with | [] => 0 | (k, _) :: _ => k.length := rfl
    rw [this]
    cases hcc : co'.coeffs with
    | nil => exact absurd hcc hne
    | cons kv r => exact hlen kv (by rw [hcc]; simp)
  refine ⟨⟨hn, hne, hlen, fun kv hkv => (hsum kv hkv).trans hdeg.symm, ?_, by rw [hc]; exact hp⟩, hdeg, hc⟩
  intro kv' hkv'
  obtain ⟨kv, hkv, rfl⟩ := hmem _ hkv'
  exact h.nz kv hkv

theorem Turns.change {co co' : Coeff K} (h : Table co) (ht : Turns co) (f : List ℕ → List ℕ) (hc : co'.coeffs = co.coeffs.map fun kv => (f kv.1, kv.2))
    (hf : ∀ i j k, ∃ x y z, f [i, j, k] = [x, y, z] ∧ f [j, k, i] = [y, z, x]) : Turns co' := by
  intro x y z v hv
  rw [hc] at hv ⊢
  obtain ⟨⟨k, w⟩, hkv, e⟩ := List.mem_map.1 hv
  have hl := h.len _ hkv
  match k, hl with
  | [i, j, l], _ =>
    obtain ⟨x', y', z', e1, e2⟩ := hf i j l
    simp only [e1, Prod.mk.injEq, List.cons.injEq, and_true] at e
    obtain ⟨⟨rfl, rfl, rfl⟩, rfl⟩ := e
    exact List.mem_map.2 ⟨_, ht _ _ _ _ hkv, by simp only [e2]⟩

theorem three {l : List ℕ} (h : l.length = 3) : ∃ i j k, l = [i, j, k] := by
  match l, h with
  | [i, j, k], _ => exact ⟨i, j, k, rfl⟩

theorem ltTriple {i j k x y z : ℕ} : ([i, j, k] : List ℕ) < [x, y, z] ↔ i < x ∨ i = x ∧ (j < y ∨ j = y ∧ k < z) := by
  simp [List.cons_lt_cons_iff]

/-- Taking out a common monomial. -/
theorem Table.cancelAbc {co : Coeff K} (h : Table co) : Table co.cancelAbc.2 ∧ (Turns co → Turns co.cancelAbc.2) := by
  unfold Coeff.cancelAbc
  split_ifs with h0
  · exact ⟨h, id⟩
  split
  · exact ⟨h, id⟩
  rename_i e he
  have hlen : ∀ m ∈ dkeys co.coeffs, m.length = (List.replicate co.nvars (co.degree + 1)).length := by
    intro m hm
    unfold dkeys at hm
    obtain ⟨kv, hkv, rfl⟩ := List.mem_map.1 hm
    rw [List.length_replicate, h.nvars, h.len kv hkv]
  obtain ⟨l1, -, l2, l3⟩ := (Coeff.commonLoop_spec (dkeys co.coeffs) _ hlen).1 e he
  rw [List.length_replicate, h.nvars] at l1
  obtain ⟨p, q, r, rfl⟩ := three l1
  have hle : ∀ kv ∈ co.coeffs, ∃ i j k, kv.1 = [i, j, k] ∧ p ≤ i ∧ q ≤ j ∧ r ≤ k := by
    intro kv hkv
    obtain ⟨i, j, k, e⟩ := three (h.len kv hkv)
    have := l2 kv.1 (List.mem_map.2 ⟨kv, hkv, rfl⟩)
    rw [e] at this
    simp only [List.forall₂_cons, List.forall₂_nil_right_iff, and_true] at this
    exact ⟨i, j, k, e, this⟩
  obtain ⟨c1, c2, c3⟩ := h.change (fun k => List.zipWith (· - ·) k [p, q, r]) (co.degree - (p + q + r)) (by
      intro kv hkv
      obtain ⟨i, j, k, e, -⟩ := hle kv hkv
      rw [e]; rfl) (by
      intro kv hkv
      obtain ⟨i, j, k, e, h1, h2, h3⟩ := hle kv hkv
      have hs := h.hom kv hkv
      rw [e] at hs ⊢
      simp only [List.zipWith_cons_cons, List.zipWith_nil_right, List.sum_cons, List.sum_nil] at hs ⊢
      omega) (by
      intro x hx y hy hxy
      obtain ⟨i, j, k, e, h1, h2, h3⟩ := hle x hx
      obtain ⟨i', j', k', e', h1', h2', h3'⟩ := hle y hy
      rw [e, e', ltTriple] at hxy
      rw [e, e']
      simp only [List.zipWith_cons_cons, List.zipWith_nil_right]
      rw [ltTriple]
      omega)
  refine ⟨c1, fun ht => ?_⟩
  have hsmall : ∀ kv ∈ co.coeffs, ∀ i, kv.1.getD i 0 ≤ co.degree := by
    intro kv hkv n
    obtain ⟨i, j, k, e, -⟩ := hle kv hkv
    have hs := h.hom kv hkv
    rw [e] at hs ⊢
    simp only [List.sum_cons, List.sum_nil] at hs
    match n with
    | 0 => simp; omega
    | 1 => simp; omega
    | 2 => simp; omega
    | n + 3 => simp
  have hatt : ∀ n, n < 3 → ∃ kv ∈ co.coeffs, [p, q, r].getD n 0 = kv.1.getD n 0 := by
    intro n hn
    rcases l3 n (by simpa using hn) with e | ⟨m, hm, e⟩
    · exfalso
      obtain ⟨kv, hkv⟩ := List.exists_mem_of_ne_nil _ h.ne
      have h1 := hsmall kv hkv n
      obtain ⟨i, j, k, e', g1, g2, g3⟩ := hle kv hkv
      rw [h.nvars] at e
      rw [e'] at h1
      match n, hn with
      | 0, _ => simp at e h1; omega
      | 1, _ => simp at e h1; omega
      | 2, _ => simp at e h1; omega
    · unfold dkeys at hm
      obtain ⟨kv, hkv, rfl⟩ := List.mem_map.1 hm
      exact ⟨kv, hkv, e⟩
  have hq : q ≤ p ∧ r ≤ p := by
    obtain ⟨⟨m, v⟩, hkv, e⟩ := hatt 0 (by omega)
    obtain ⟨i, j, k, e', -⟩ := hle _ hkv
    simp only at e' e
    subst e'
    have t1 := ht _ _ _ _ hkv
    have t2 := ht _ _ _ _ t1
    obtain ⟨_, _, _, e1, a1, a2, a3⟩ := hle _ t1
    obtain ⟨_, _, _, e2, b1, b2, b3⟩ := hle _ t2
    simp only [List.cons.injEq, and_true] at e1 e2
    simp at e
    omega
  have hp : p ≤ q ∧ r ≤ q := by
    obtain ⟨⟨m, v⟩, hkv, e⟩ := hatt 1 (by omega)
    obtain ⟨i, j, k, e', -⟩ := hle _ hkv
    simp only at e' e
    subst e'
    have t1 := ht _ _ _ _ hkv
    have t2 := ht _ _ _ _ t1
    obtain ⟨_, _, _, e1, a1, a2, a3⟩ := hle _ t1
    obtain ⟨_, _, _, e2, b1, b2, b3⟩ := hle _ t2
    simp only [List.cons.injEq, and_true] at e1 e2
    simp at e
    omega
  have hr : p ≤ r := by
    obtain ⟨⟨m, v⟩, hkv, e⟩ := hatt 2 (by omega)
    obtain ⟨i, j, k, e', -⟩ := hle _ hkv
    simp only at e' e
    subst e'
    have t1 := ht _ _ _ _ hkv
    have t2 := ht _ _ _ _ t1
    obtain ⟨_, _, _, e1, a1, a2, a3⟩ := hle _ t1
    obtain ⟨_, _, _, e2, b1, b2, b3⟩ := hle _ t2
    simp only [List.cons.injEq, and_true] at e1 e2
    simp at e
    omega
  have e1 : q = p := by omega
  have e2 : r = p := by omega
  rw [e1, e2] at c3 ⊢
  exact Turns.change h ht (fun k => List.zipWith (· - ·) k [p, p, p]) c3 fun i j k => ⟨_, _, _, rfl, rfl⟩

/-- Taking out a common power. -/
theorem Table.cancelK {co : Coeff K} (h : Table co) : Table co.cancelK.2 ∧ (Turns co → Turns co.cancelK.2) := by
  unfold Coeff.cancelK
  split_ifs with h0
  · exact ⟨h, id⟩
  split
  · exact ⟨h, id⟩
  rename_i d hd
  split_ifs with hd0
  · exact ⟨h, id⟩
  have hdvd : ∀ kv ∈ co.coeffs, ∃ i j k, kv.1 = [d * i, d * j, d * k] := by
    have e := (Coeff.gcdLoop_spec (dkeys co.coeffs).flatten 0).1 d hd
    have key : ∀ (l : List ℕ) (n : ℕ), l.foldl Nat.gcd n ∣ n ∧ ∀ u ∈ l, l.foldl Nat.gcd n ∣ u := by
      intro l
      induction l with
      | nil => intro n; simp
      | cons u l ih =>
        intro n
        obtain ⟨i1, i2⟩ := ih (Nat.gcd n u)
        rw [List.foldl_cons]
        refine ⟨i1.trans (Nat.gcd_dvd_left _ _), ?_⟩
        intro w hw
        rcases List.mem_cons.1 hw with rfl | hw
        · exact i1.trans (Nat.gcd_dvd_right _ _)
        · exact i2 w hw
    intro kv hkv
    obtain ⟨i, j, k, e'⟩ := three (h.len kv hkv)
    have hall : ∀ u ∈ kv.1, d ∣ u := by
      intro u hu
      rw [e]
      exact (key _ 0).2 u (List.mem_flatten.2 ⟨kv.1, List.mem_map.2 ⟨kv, hkv, rfl⟩, hu⟩)
    rw [e'] at hall
    obtain ⟨i', rfl⟩ := hall i (by simp)
    obtain ⟨j', rfl⟩ := hall j (by simp)
    obtain ⟨k', rfl⟩ := hall k (by simp)
    exact ⟨i', j', k', e'⟩
  have hp : 0 < d := Nat.pos_of_ne_zero hd0
  obtain ⟨c1, c2, c3⟩ := h.change (fun k => k.map (· / d)) (co.degree / d) (by
      intro kv hkv
      rw [List.length_map]
      exact h.len kv hkv) (by
      intro kv hkv
      obtain ⟨i, j, k, e⟩ := hdvd kv hkv
      have hs := h.hom kv hkv
      rw [e] at hs ⊢
      simp only [List.map_cons, List.map_nil, Nat.mul_div_cancel_left _ hp, List.sum_cons, List.sum_nil] at hs ⊢
      rw [← hs]
      have : d * i + (d * j + (d * k + 0)) = d * (i + (j + (k + 0))) := by ring
      rw [this, Nat.mul_div_cancel_left _ hp]) (by
      intro x hx y hy hxy
      obtain ⟨i, j, k, e⟩ := hdvd x hx
      obtain ⟨i', j', k', e'⟩ := hdvd y hy
      rw [e, e', ltTriple] at hxy
      rw [e, e']
      simp only [List.map_cons, List.map_nil, Nat.mul_div_cancel_left _ hp]
      rw [ltTriple]
      simpa only [Nat.mul_lt_mul_left hp, Nat.mul_right_inj hd0] using hxy)
  exact ⟨c1, fun ht => Turns.change h ht (fun k => k.map (· / d)) c3 fun i j k => ⟨_, _, _, rfl, rfl⟩⟩

end Verif.Ternary
