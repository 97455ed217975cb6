import Verif.Model.TernaryHeuristic
import Verif.Props.TernaryPH
import Verif.Proofs.HomForm
import Mathlib.Data.List.Sort
import Mathlib.Tactic.Ring
import Mathlib.Tactic.Linarith

/-!
# C69: the heuristic solver for sparse cyclic ternary polynomials
-/

set_option linter.unusedSectionVars false
set_option linter.overlappingInstances false

namespace Verif.Ternary

open Verif

variable {K : Type*} [Field K] [LinearOrder K] [IsStrictOrderedRing K]

/-! ### Dictionaries -/

theorem dget_filter_ne (d : List (List ℕ × K)) (hd : (dkeys d).Nodup) (k : List ℕ) :
    (dget (d.filter fun t => decide (t.2 ≠ 0)) k).getD 0 = (dget d k).getD 0 := by
  induction d with
  | nil => rfl
  | cons t d ih =>
    obtain ⟨k0, v0⟩ := t
    rw [Coeff.dkeys_cons, List.nodup_cons] at hd
    have ih := ih hd.2
    by_cases hv : v0 = 0
    · subst hv
      rw [List.filter_cons_of_neg (by simp)]
      by_cases hk : k0 = k
      · subst hk
        rw [ih, (dget_eq_none_iff _ _).2 hd.1]
        simp [dget]
      · rw [ih]; simp [dget, hk]
    · rw [List.filter_cons_of_pos (by simpa using hv)]
      by_cases hk : k0 = k
      · subst hk; simp [dget]
      · simp only [dget, hk, if_false]; exact ih

theorem dget_foldl_acc (k : List ℕ) : ∀ (p d : List (List ℕ × K)),
    (dget (p.foldl (fun d t => dset d t.1 ((dget d t.1).getD 0 + t.2)) d) k).getD 0 = (dget d k).getD 0 + (p.map fun t => if t.1 = k then t.2 else 0).sum
  | [], d => by simp
  | t :: p, d => by
    rw [List.foldl_cons, dget_foldl_acc k p, dget_dset, List.map_cons, List.sum_cons]
    by_cases h : t.1 = k
    · subst h; simp [add_assoc]
    · simp [h]

theorem nodup_foldl_acc : ∀ (p d : List (List ℕ × K)), (dkeys d).Nodup → (dkeys (p.foldl (fun d t => dset d t.1 ((dget d t.1).getD 0 + t.2)) d)).Nodup
  | [], _, h => h
  | _ :: p, _, h => nodup_foldl_acc p _ (dkeys_nodup_dset _ _ _ h)

/-- The coefficient of a monomial in the accumulated dictionary is the sum of its occurrences. -/
theorem call_collect (p : List (List ℕ × K)) (k : List ℕ) :
    (Coeff.ofDict (TermsPoly.collect p)).call k = (p.map fun t => if t.1 = k then t.2 else 0).sum := by
  unfold Coeff.call Coeff.ofDict TermsPoly.collect
  dsimp only
  rw [dget_filter_ne _ (nodup_foldl_acc p [] List.nodup_nil), dget_foldl_acc]
  simp [dget]

/-- The input of the cyclic solvers: a sorted dictionary of a cyclic ternary form of degree `d` without zero entries. -/
structure CycIn (co : Coeff K) (d : ℕ) : Prop where
  len : ∀ kv ∈ co.coeffs, kv.1.length = 3
  hom : ∀ kv ∈ co.coeffs, kv.1.sum = d
  cyc : ∀ i j k, co.call [j, k, i] = co.call [i, j, k]
  nz : ∀ kv ∈ co.coeffs, kv.2 ≠ 0
  sorted : co.coeffs.Pairwise fun x y => y.1 < x.1

theorem CycIn.nodup {co : Coeff K} {d : ℕ} (h : CycIn co d) : (dkeys co.coeffs).Nodup := by
  unfold dkeys
  exact List.Pairwise.map _ (fun x y hxy => ne_of_gt hxy) h.sorted

/-- A structure that may be subtracted. -/
structure CycStruct (co : Coeff K) (d : ℕ) : Prop where
  nodup : (dkeys co.coeffs).Nodup
  len : ∀ kv ∈ co.coeffs, kv.1.length = 3
  hom : ∀ kv ∈ co.coeffs, kv.1.sum = d
  cyc : ∀ i j k, co.call [j, k, i] = co.call [i, j, k]

theorem collect_struct {l : List (List ℕ × K)} {d : ℕ} (h1 : ∀ t ∈ l, t.1.length = 3) (h2 : ∀ t ∈ l, t.1.sum = d)
    (h3 : ∀ D : ℕ → ℕ → ℕ → K, (l.map fun t => t.2 * D (t.1.getD 2 0) (t.1.getD 0 0) (t.1.getD 1 0)).sum = (l.map fun t => t.2 * D (t.1.getD 0 0) (t.1.getD 1 0) (t.1.getD 2 0)).sum) :
    CycStruct (Coeff.ofDict (TermsPoly.collect l)) d where
  nodup := (TermsPoly.collect_isPoly _).1
  len := by
    intro kv hkv
    obtain ⟨u, hu, e⟩ := TermsPoly.mem_collect _ _ hkv
    rw [← e]; exact h1 u hu
  hom := by
    intro kv hkv
    obtain ⟨u, hu, e⟩ := TermsPoly.mem_collect _ _ hkv
    rw [← e]; exact h2 u hu
  cyc := by
    intro i j k
    rw [call_collect, call_collect]
    have h3 := h3 fun x y z => if x = i ∧ y = j ∧ z = k then 1 else 0
    have e1 : (l.map fun t => if t.1 = [i, j, k] then t.2 else 0)
        = l.map fun t => t.2 * (if t.1.getD 0 0 = i ∧ t.1.getD 1 0 = j ∧ t.1.getD 2 0 = k then 1 else 0) := by
      apply List.map_congr_left
      intro t ht
      obtain ⟨k', v⟩ := t
      have := h1 _ ht
      match k', this with
      | [x, y, z], _ => simp
    have e2 : (l.map fun t => if t.1 = [j, k, i] then t.2 else 0)
        = l.map fun t => t.2 * (if t.1.getD 2 0 = i ∧ t.1.getD 0 0 = j ∧ t.1.getD 1 0 = k then 1 else 0) := by
      apply List.map_congr_left
      intro t ht
      obtain ⟨k', v⟩ := t
      have := h1 _ ht
      match k', this with
      | [x, y, z], _ =>
        have : (x = j ∧ y = k ∧ z = i) ↔ (z = i ∧ x = j ∧ y = k) := by tauto
        simp [this]
    rw [e1, e2, h3]

theorem pCoeff_struct (n r m s : ℕ) (v : K) : CycStruct (pCoeff n r m s v) (n + r + m + s) := by
  apply collect_struct
  · unfold pRaw
    simp only [List.forall_mem_cons, List.length_cons, List.length_nil, List.not_mem_nil, false_imp_iff, implies_true, and_true]
  · unfold pRaw
    simp only [List.forall_mem_cons, List.sum_cons, List.sum_nil, List.not_mem_nil, false_imp_iff, implies_true, and_true]
    and_intros <;> omega
  · intro D
    unfold pRaw
    simp only [List.map_cons, List.map_nil, List.sum_cons, List.sum_nil, List.getD_cons_zero, List.getD_cons_succ]
    ring

theorem hCoeff_struct {n : ℤ} (hn : 0 ≤ n) (m r : ℕ) (v : K) : CycStruct (hCoeff n m r v) (n.toNat + m + 2 * r) := by
  rw [hCoeff, if_pos hn]
  generalize n.toNat = n
  apply collect_struct
  · unfold hRaw
    simp only [List.forall_mem_cons, List.length_cons, List.length_nil, List.not_mem_nil, false_imp_iff, implies_true, and_true]
  · unfold hRaw
    simp only [List.forall_mem_cons, List.sum_cons, List.sum_nil, List.not_mem_nil, false_imp_iff, implies_true, and_true]
    and_intros <;> omega
  · intro D
    unfold hRaw
    simp only [List.map_cons, List.map_nil, List.sum_cons, List.sum_nil, List.getD_cons_zero, List.getD_cons_succ]
    ring

theorem hCoeff_struct_neg {n : ℤ} (hn : n < 0) (m r : ℕ) (v : K) : CycStruct (hCoeff n m r v) (2 * (-n).toNat + m + 2 * r) := by
  rw [hCoeff, if_neg (not_le.2 hn)]
  generalize (-n).toNat = n
  apply collect_struct
  · unfold hRawNeg
    simp only [List.forall_mem_cons, List.length_cons, List.length_nil, List.not_mem_nil, false_imp_iff, implies_true, and_true]
  · unfold hRawNeg
    simp only [List.forall_mem_cons, List.sum_cons, List.sum_nil, List.not_mem_nil, false_imp_iff, implies_true, and_true]
    and_intros <;> omega
  · intro D
    unfold hRawNeg
    simp only [List.map_cons, List.map_nil, List.sum_cons, List.sum_nil, List.getD_cons_zero, List.getD_cons_succ]
    ring

theorem call_eq_zero {co : Coeff K} {k : List ℕ} (h : k ∉ dkeys co.coeffs) : co.call k = 0 := by
  unfold Coeff.call; rw [(dget_eq_none_iff _ _).2 h]; rfl

theorem mem_dkeys_of {l : List (List ℕ × K)} {kv : List ℕ × K} (h : kv ∈ l) : kv.1 ∈ dkeys l := List.mem_map.2 ⟨kv, h, rfl⟩

theorem call_of_mem {co : Coeff K} (hn : (dkeys co.coeffs).Nodup) {kv : List ℕ × K} (h : kv ∈ co.coeffs) : co.call kv.1 = kv.2 := by
  unfold Coeff.call; rw [(dget_eq_some_iff _ hn kv.1 kv.2).2 h]; rfl

theorem mem_of_call {co : Coeff K} (hn : (dkeys co.coeffs).Nodup) {k : List ℕ} (h : co.call k ≠ 0) : (k, co.call k) ∈ co.coeffs := by
  unfold Coeff.call at *
  cases hd : dget co.coeffs k with
  | none => rw [hd] at h; exact absurd rfl h
  | some v => exact (dget_eq_some_iff _ hn k v).1 hd

theorem sub_cycIn {co p : Coeff K} {d : ℕ} (h : CycIn co d) (hp : CycStruct p d) : CycIn (co.sub p) d := by
  obtain ⟨h1, h2, h3⟩ := Coeff.sub_spec co p h.nodup hp.nodup
  have hnz := h2 h.nz
  have hnd : (dkeys (co.sub p).coeffs).Nodup := by
    unfold dkeys
    exact List.Pairwise.map _ (fun x y hxy => ne_of_gt hxy) h3
  have hkey : ∀ kv ∈ (co.sub p).coeffs, kv.1.length = 3 ∧ kv.1.sum = d := by
    intro kv hkv
    have hc := call_of_mem hnd hkv
    have hne := hnz kv hkv
    rw [← hc, h1] at hne
    by_cases ha : co.call kv.1 = 0
    · have hb : p.call kv.1 ≠ 0 := by intro hb; rw [ha, hb, sub_zero] at hne; exact hne rfl
      have := mem_of_call hp.nodup hb
      have l1 := hp.len _ this
      have l2 := hp.hom _ this
      exact ⟨l1, l2⟩
    · have := mem_of_call h.nodup ha
      have l1 := h.len _ this
      have l2 := h.hom _ this
      exact ⟨l1, l2⟩
  exact { len := fun kv hkv => (hkey kv hkv).1, hom := fun kv hkv => (hkey kv hkv).2, cyc := fun i j k => by rw [h1, h1, h.cyc, hp.cyc], nz := hnz, sorted := h3 }

theorem evalDict_sub3 {co p : Coeff K} {d : ℕ} (h : CycIn co d) (hp : CycStruct p d) (x : List K) :
    Coeff.evalDict co.coeffs x = Coeff.evalDict (co.sub p).coeffs x + Coeff.evalDict p.coeffs x := by
  have hs := sub_cycIn h hp
  have key : ∀ (q : List (List ℕ × K)), (∀ kv ∈ q, kv.1.length = 3) → (∀ kv ∈ q, kv.1.sum = d) → ∀ k ∈ dkeys q, k ∈ generatePartitions 3 d true := by
    intro q h1 h2 k hk
    unfold dkeys at hk
    obtain ⟨kv, hkv, rfl⟩ := List.mem_map.1 hk
    rw [(generatePartitions_mem _ _ _).2]
    exact ⟨h1 kv hkv, h2 kv hkv⟩
  rw [Coeff.evalDict_eq_sum_of_keys _ h.nodup _ (generatePartitions_nodup 3 d true) (key _ h.len h.hom),
    Coeff.evalDict_eq_sum_of_keys _ hs.nodup _ (generatePartitions_nodup 3 d true) (key _ hs.len hs.hom),
    Coeff.evalDict_eq_sum_of_keys _ hp.nodup _ (generatePartitions_nodup 3 d true) (key _ hp.len hp.hom), ← List.sum_map_add]
  congr 1
  apply List.map_congr_left
  intro m _
  have := (Coeff.sub_spec co p h.nodup hp.nodup).1 m
  unfold Coeff.call at this
  rw [this]; ring

/-! ### Contracts -/

/-- A solver for cyclic ternary forms of degree `d` is sound: an answer is the value of the form at every positive point, and nonnegative there. -/
def SoundC (d : ℕ) (f : Coeff K → Option (Val3 K)) : Prop :=
  ∀ co, CycIn co d → ∀ E, f co = some E → ∀ a b c : K, 0 < a → 0 < b → 0 < c → E a b c = Coeff.evalDict co.coeffs [a, b, c] ∧ 0 ≤ E a b c

/-- A prover for polynomials in one variable is sound on the nonnegative half line. -/
def SoundU (f : List (ℕ × K) → Option (K → K)) : Prop :=
  ∀ l, (l.map Prod.fst).Nodup → ∀ p, f l = some p → ∀ x : K, 0 ≤ x → p x = (l.map fun t => t.2 * x ^ t.1).sum ∧ 0 ≤ p x

/-! ### Subtracting a structure -/

theorem tryP_sound {recur : Coeff K → Option (Val3 K)} {d : ℕ} (hr : SoundC d recur) {co : Coeff K} (h : CycIn co d) {n r m s : ℤ} {v : K}
    (h0 : 0 ≤ r) (h1 : 0 ≤ s) (h2 : r ≤ n) (h3 : s ≤ m) (hd : n + r + m + s = d) (hv : 0 ≤ v) {E : Val3 K} (hE : tryP recur co n r m s v = some E)
    (a b c : K) (ha : 0 < a) (hb : 0 < b) (hc : 0 < c) : E a b c = Coeff.evalDict co.coeffs [a, b, c] ∧ 0 ≤ E a b c := by
  obtain ⟨e, he, rfl⟩ := Option.map_eq_some_iff.1 hE
  have hs := pCoeff_struct n.toNat r.toNat m.toNat s.toNat v
  have ed : n.toNat + r.toNat + m.toNat + s.toNat = d := by omega
  rw [ed] at hs
  obtain ⟨e1, e2⟩ := hr _ (sub_cycIn h hs) e he a b c ha hb hc
  have e3 := pnrms_nonneg (n := n.toNat) (r := r.toNat) (m := m.toNat) (s := s.toNat) (by omega) (by omega) ha.le hb.le hc.le
  dsimp only
  rw [pExpr_value]
  refine ⟨?_, add_nonneg e2 (mul_nonneg hv e3)⟩
  rw [evalDict_sub3 h hs, pCoeff_value, e1]

theorem tryH_sound {recur : Coeff K → Option (Val3 K)} {d : ℕ} (hr : SoundC d recur) {co : Coeff K} (h : CycIn co d) {n m r : ℤ} {v : K}
    (h0 : 0 ≤ r) (h1 : 0 ≤ m) (h2 : 0 ≤ n) (h3 : m ≤ n + r ∨ n = 0) (hd : n + m + 2 * r = d) (hw : m = r → r = 2 * n → n = 1 ∨ n = 0) (hv : 0 ≤ v) {E : Val3 K}
    (hE : tryH recur co n m r v = some E)
    (a b c : K) (ha : 0 < a) (hb : 0 < b) (hc : 0 < c) : E a b c = Coeff.evalDict co.coeffs [a, b, c] ∧ 0 ≤ E a b c := by
  obtain ⟨e, he, rfl⟩ := Option.map_eq_some_iff.1 hE
  have hs := hCoeff_struct h2 m.toNat r.toNat v
  have ed : n.toNat + m.toNat + 2 * r.toNat = d := by omega
  rw [ed] at hs
  obtain ⟨e1, e2⟩ := hr _ (sub_cycIn h hs) e he a b c ha hb hc
  have e3 : 0 ≤ a ^ n.toNat * (b ^ m.toNat + c ^ m.toNat) * (a ^ r.toNat - b ^ r.toNat) * (a ^ r.toNat - c ^ r.toNat)
      + b ^ n.toNat * (c ^ m.toNat + a ^ m.toNat) * (b ^ r.toNat - c ^ r.toNat) * (b ^ r.toNat - a ^ r.toNat)
      + c ^ n.toNat * (a ^ m.toNat + b ^ m.toNat) * (c ^ r.toNat - a ^ r.toNat) * (c ^ r.toNat - b ^ r.toNat) := by
    rcases h3 with h3 | h3
    · exact hnmr_nonneg (by omega) ha.le hb.le hc.le
    · subst h3
      simpa using hnmr_neg_nonneg 0 m.toNat r.toNat ha.le hb.le hc.le
  dsimp only
  rw [hExpr_value_partial h2 _ _ (fun x y => hw (by omega) (by omega))]
  refine ⟨?_, add_nonneg e2 (mul_nonneg hv e3)⟩
  rw [evalDict_sub3 h hs, hCoeff_value h2, e1]

theorem tryH_sound_neg {recur : Coeff K → Option (Val3 K)} {d : ℕ} (hr : SoundC d recur) {co : Coeff K} (h : CycIn co d) {n m r : ℤ} {v : K}
    (h0 : 0 ≤ r) (h1 : 0 ≤ m) (h2 : n < 0) (hd : -2 * n + m + 2 * r = d) (hv : 0 ≤ v) {E : Val3 K} (hE : tryH recur co n m r v = some E)
    (a b c : K) (ha : 0 < a) (hb : 0 < b) (hc : 0 < c) : E a b c = Coeff.evalDict co.coeffs [a, b, c] ∧ 0 ≤ E a b c := by
  obtain ⟨e, he, rfl⟩ := Option.map_eq_some_iff.1 hE
  have hs := hCoeff_struct_neg h2 m.toNat r.toNat v
  have ed : 2 * (-n).toNat + m.toNat + 2 * r.toNat = d := by omega
  rw [ed] at hs
  obtain ⟨e1, e2⟩ := hr _ (sub_cycIn h hs) e he a b c ha hb hc
  have e3 := hnmr_neg_nonneg (-n).toNat m.toNat r.toNat ha.le hb.le hc.le
  dsimp only
  rw [hExpr_value_neg h2]
  refine ⟨?_, add_nonneg e2 (mul_nonneg hv e3)⟩
  rw [evalDict_sub3 h hs, hCoeff_value_neg h2, e1]

theorem or_some {α : Type*} {x y : Option α} {e : α} (h : x.or y = some e) : x = some e ∨ y = some e := by
  cases x with
  | none => right; simpa using h
  | some z => left; simpa using h

theorem hexOuter_sound {recur : Coeff K → Option (Val3 K)} {d : ℕ} (hr : SoundC d recur) {co : Coeff K} (h : CycIn co d) {j0 r : ℤ} {c0 : K} (h0 : 0 ≤ r) (hc0 : 0 ≤ c0)
    (hd7 : 7 ∣ d → d = 7) (hd0 : 0 < d) {E : Val3 K} (hE : hexOuter recur co d j0 c0 r = some E) (a b c : K) (ha : 0 < a) (hb : 0 < b) (hc : 0 < c) :
    E a b c = Coeff.evalDict co.coeffs [a, b, c] ∧ 0 ≤ E a b c := by
  unfold hexOuter at hE
  rcases or_some hE with hE | hE
  · split at hE
    · rename_i hh
      refine tryH_sound hr h h0 hh.2.1 hh.1 (Or.inl hh.2.2) (by omega) ?_ ?_ hE a b c ha hb hc
      · intro x y
        left
        have : d = 7 := hd7 (by omega)
        omega
      · split
        · exact hc0
        · linarith
    · cases hE
  · split at hE
    · rename_i hh
      exact tryP_sound hr h h0 (by omega) (by omega) (by omega) (by omega) hc0 hE a b c ha hb hc
    · cases hE

theorem hexInner_sound {recur : Coeff K → Option (Val3 K)} {d : ℕ} (hr : SoundC d recur) {co : Coeff K} (h : CycIn co d) {j0 r : ℤ} {c0 : K} (h0 : 0 ≤ r) (hc0 : 0 ≤ c0)
    {E : Val3 K} (hE : hexInner recur co d j0 c0 r = some E) (a b c : K) (ha : 0 < a) (hb : 0 < b) (hc : 0 < c) :
    E a b c = Coeff.evalDict co.coeffs [a, b, c] ∧ 0 ≤ E a b c := by
  unfold hexInner at hE
  dsimp only at hE
  split at hE
  · rename_i hh
    have hv : 0 ≤ (if 2 * j0 - (d : ℤ) ≠ 0 then c0 else c0 / 2) := by
      split
      · exact hc0
      · linarith
    rcases hh.1.lt_or_eq with hn | hn
    · exact tryH_sound_neg hr h h0 hh.2 (by omega) (by omega) hv hE a b c ha hb hc
    · exact tryH_sound hr h h0 hh.2 (by omega) (Or.inr (by omega)) (by omega) (fun _ _ => Or.inr (by omega)) hv hE a b c ha hb hc
  · cases hE

/-! ### Borders -/

theorem lt3 {x y z x' y' z' : ℕ} (h : [x, y, z] < [x', y', z']) : x < x' ∨ x = x' ∧ (y < y' ∨ y = y' ∧ z < z') := by
  rw [List.cons_lt_cons_iff] at h
  rcases h with h | ⟨h, h'⟩
  · exact Or.inl h
  · rw [List.cons_lt_cons_iff] at h'
    rcases h' with h' | ⟨h', h''⟩
    · exact Or.inr ⟨h, Or.inl h'⟩
    · rw [List.cons_lt_cons_iff] at h''
      rcases h'' with h'' | ⟨h'', h'''⟩
      · exact Or.inr ⟨h, Or.inr ⟨h', h''⟩⟩
      · exact absurd h''' (lt_irrefl _)

/-- A part of the dictionary on which the first exponent is constant, as the code stores it. -/
def strip (l : List (List ℕ × K)) : List (ℕ × K) := l.map fun kv => (kv.1.getD 1 0, kv.2)

theorem filter_nz {l : List (List ℕ × K)} (h : ∀ kv ∈ l, kv.2 ≠ 0) : (l.filter fun kv => decide (kv.2 ≠ 0)) = l :=
  List.filter_eq_self.2 (by intro kv hkv; simpa using h kv hkv)

/-- The entries of the first border. -/
def part1 (l : List (List ℕ × K)) : List (List ℕ × K) := (l.reverse.takeWhile fun kv => decide (kv.1.getD 0 0 = 0)).reverse

/-- The entries of the second border. -/
def part2 (i0 : ℕ) (l : List (List ℕ × K)) : List (List ℕ × K) := l.takeWhile fun kv => decide (kv.1.getD 0 0 = i0)

theorem part1_sublist (l : List (List ℕ × K)) : (part1 l).Sublist l := by
  unfold part1
  have := (List.takeWhile_sublist (fun kv : List ℕ × K => decide (kv.1.getD 0 0 = 0)) (l := l.reverse)).reverse
  rwa [List.reverse_reverse] at this

theorem part2_sublist (i0 : ℕ) (l : List (List ℕ × K)) : (part2 i0 l).Sublist l := List.takeWhile_sublist _

theorem border1_eq {l : List (List ℕ × K)} (h : ∀ kv ∈ l, kv.2 ≠ 0) : border1 l = strip (part1 l) := by
  unfold border1 part1 strip
  rw [filter_nz, List.map_reverse]
  intro kv hkv
  exact h kv (List.mem_reverse.1 (List.takeWhile_sublist _ |>.subset hkv))

theorem border2_eq {i0 : ℕ} {l : List (List ℕ × K)} (h : ∀ kv ∈ l, kv.2 ≠ 0) : border2 i0 l = strip (part2 i0 l) := by
  unfold border2 part2 strip
  rw [filter_nz]
  intro kv hkv
  exact h kv (List.takeWhile_sublist _ |>.subset hkv)

theorem takeWhile_all {α : Type*} (p : α → Bool) : ∀ (l : List α) {x : α}, x ∈ l.takeWhile p → p x = true
  | [], _, h => by simp at h
  | y :: l, x, h => by
    rw [List.takeWhile_cons] at h
    split at h
    · rcases List.mem_cons.1 h with rfl | h
      · assumption
      · exact takeWhile_all p l h
    · simp at h

theorem part1_mem {l : List (List ℕ × K)} {kv : List ℕ × K} (h : kv ∈ part1 l) : kv.1.getD 0 0 = 0 := by
  unfold part1 at h
  simpa using takeWhile_all _ _ (List.mem_reverse.1 h)

theorem part2_mem {i0 : ℕ} {l : List (List ℕ × K)} {kv : List ℕ × K} (h : kv ∈ part2 i0 l) : kv.1.getD 0 0 = i0 := by
  unfold part2 at h
  simpa using takeWhile_all _ _ h

/-- A key of a form of degree `d` with given first exponent. -/
theorem CycIn.key {co : Coeff K} {d : ℕ} (h : CycIn co d) {kv : List ℕ × K} (hk : kv ∈ co.coeffs) :
    ∃ i j k, kv.1 = [i, j, k] ∧ i + j + k = d := by
  have h1 := h.len kv hk
  have h2 := h.hom kv hk
  match hm : kv.1, h1 with
  | [i, j, k], _ =>
    rw [hm] at h2
    exact ⟨i, j, k, rfl, by simpa [add_assoc] using h2⟩

/-- The exponents of a part of the dictionary with constant first exponent strictly decrease. -/
theorem strip_desc {co : Coeff K} {d : ℕ} (h : CycIn co d) {p : List (List ℕ × K)} (hp : p.Sublist co.coeffs) {i : ℕ} (hi : ∀ kv ∈ p, kv.1.getD 0 0 = i) :
    ((strip p).map Prod.fst).Pairwise fun x y => y < x := by
  have h1 := h.sorted.sublist hp
  unfold strip
  rw [List.map_map, List.pairwise_map]
  refine List.Pairwise.imp_of_mem ?_ h1
  intro x y hx hy hlt
  obtain ⟨i1, j1, k1, e1, s1⟩ := h.key (hp.subset hx)
  obtain ⟨i2, j2, k2, e2, s2⟩ := h.key (hp.subset hy)
  have hx := hi x hx
  have hy := hi y hy
  simp only [Function.comp, e1, e2, List.getD_cons_zero, List.getD_cons_succ] at hx hy hlt ⊢
  rcases lt3 hlt with h | ⟨-, h | ⟨h, h'⟩⟩ <;> omega

theorem rot_key {co : Coeff K} {d : ℕ} (h : CycIn co d) {i j k : ℕ} {v : K} (hk : ([i, j, k], v) ∈ co.coeffs) : ([j, k, i], v) ∈ co.coeffs := by
  have h1 := call_of_mem h.nodup hk
  have h2 := h.nz _ hk
  dsimp only at h1 h2
  have h3 := h.cyc i j k
  rw [h1] at h3
  have := mem_of_call h.nodup (k := [j, k, i]) (by rw [h3]; exact h2)
  rwa [h3] at this

/-- If the rotations of a part of the dictionary are different and exhaust it, the form is the cyclic sum of the part. -/
theorem evalDict_part {co : Coeff K} {d : ℕ} (h : CycIn co d) {p : List (List ℕ × K)} (hp : p.Sublist co.coeffs) {i : ℕ} (hi : ∀ kv ∈ p, kv.1.getD 0 0 = i)
    (hne : ∀ kv ∈ p, kv.1.getD 1 0 ≠ i ∧ kv.1.getD 2 0 ≠ i) (hl : p.length * 3 = co.coeffs.length) (a b c : K) :
    Coeff.evalDict co.coeffs [a, b, c] = cyc3 (fun a b c => ((strip p).map fun t => t.2 * (a ^ i * b ^ t.1 * c ^ (d - i - t.1))).sum) a b c := by
  set R : List (List ℕ) := dkeys p ++ (p.map fun kv => [kv.1.getD 1 0, kv.1.getD 2 0, kv.1.getD 0 0]) ++ p.map fun kv => [kv.1.getD 2 0, kv.1.getD 0 0, kv.1.getD 1 0] with hR
  have hshape : ∀ kv ∈ p, ∃ j k, kv.1 = [i, j, k] ∧ i + j + k = d ∧ j ≠ i ∧ k ≠ i := by
    intro kv hkv
    obtain ⟨i1, j1, k1, e1, s1⟩ := h.key (hp.subset hkv)
    have hx := hi kv hkv
    have hy := hne kv hkv
    rw [e1] at hx hy
    simp only [List.getD_cons_zero, List.getD_cons_succ] at hx hy
    subst hx
    exact ⟨j1, k1, e1, s1, hy.1, hy.2⟩
  have hnd : (dkeys p).Nodup := by
    have := h.nodup
    unfold dkeys at *
    exact this.sublist (hp.map _)
  have hnd2 : (p.map Prod.fst).Nodup := hnd
  have inj : ∀ f : List ℕ → List ℕ, (∀ j k j' k', f [i, j, k] = f [i, j', k'] → j = j' ∧ k = k') → (p.map fun kv => f kv.1).Nodup := by
    intro f hf
    have : (p.map fun kv => f kv.1) = (p.map Prod.fst).map f := by rw [List.map_map]; rfl
    rw [this]
    refine List.Nodup.map_on ?_ hnd2
    intro x hx y hy hxy
    obtain ⟨kx, hxm, rfl⟩ := List.mem_map.1 hx
    obtain ⟨ky, hym, rfl⟩ := List.mem_map.1 hy
    obtain ⟨j, k, e, -, -, -⟩ := hshape kx hxm
    obtain ⟨j', k', e', -, -, -⟩ := hshape ky hym
    rw [e, e'] at hxy ⊢
    obtain ⟨rfl, rfl⟩ := hf _ _ _ _ hxy
    rfl
  have hRn : R.Nodup := by
    rw [hR, List.nodup_append, List.nodup_append]
    refine ⟨⟨hnd, ?_, ?_⟩, ?_, ?_⟩
    · exact inj (fun k => [k.getD 1 0, k.getD 2 0, k.getD 0 0]) (by intro j k j' k' hh; simpa using hh)
    · intro x hx y hy hxy
      unfold dkeys at hx
      obtain ⟨kx, hxm, rfl⟩ := List.mem_map.1 hx
      obtain ⟨ky, hym, rfl⟩ := List.mem_map.1 hy
      obtain ⟨j, k, e, -, h1, h2⟩ := hshape kx hxm
      obtain ⟨j', k', e', -, h1', h2'⟩ := hshape ky hym
      rw [e, e'] at hxy
      simp at hxy
      omega
    · exact inj (fun k => [k.getD 2 0, k.getD 0 0, k.getD 1 0]) (by intro j k j' k' hh; simp at hh; omega)
    · intro x hx y hy hxy
      obtain ⟨ky, hym, rfl⟩ := List.mem_map.1 hy
      obtain ⟨j', k', e', -, h1', h2'⟩ := hshape ky hym
      rw [List.mem_append] at hx
      rcases hx with hx | hx
      · unfold dkeys at hx
        obtain ⟨kx, hxm, rfl⟩ := List.mem_map.1 hx
        obtain ⟨j, k, e, -, h1, h2⟩ := hshape kx hxm
        rw [e, e'] at hxy
        simp at hxy
        omega
      · obtain ⟨kx, hxm, rfl⟩ := List.mem_map.1 hx
        obtain ⟨j, k, e, -, h1, h2⟩ := hshape kx hxm
        rw [e, e'] at hxy
        simp at hxy
        omega
  have hsub : R ⊆ dkeys co.coeffs := by
    intro x hx
    rw [hR, List.mem_append, List.mem_append] at hx
    have key : ∀ kv ∈ p, ∃ j k v, kv = ([i, j, k], v) ∧ ([i, j, k], v) ∈ co.coeffs := by
      intro kv hkv
      obtain ⟨j, k, e, -⟩ := hshape kv hkv
      refine ⟨j, k, kv.2, ?_, ?_⟩
      · rw [← e]
      · rw [← e]; exact hp.subset hkv
    rcases hx with (hx | hx) | hx
    · unfold dkeys at hx
      obtain ⟨kx, hxm, rfl⟩ := List.mem_map.1 hx
      exact mem_dkeys_of (hp.subset hxm)
    · obtain ⟨kx, hxm, rfl⟩ := List.mem_map.1 hx
      obtain ⟨j, k, v, rfl, hm⟩ := key kx hxm
      exact mem_dkeys_of (rot_key h hm)
    · obtain ⟨kx, hxm, rfl⟩ := List.mem_map.1 hx
      obtain ⟨j, k, v, rfl, hm⟩ := key kx hxm
      exact mem_dkeys_of (rot_key h (rot_key h hm))
  have hperm : R.Perm (dkeys co.coeffs) := by
    apply (List.Nodup.subperm hRn hsub).perm_of_length_le
    rw [hR]
    simp only [dkeys, List.length_append, List.length_map]
    omega
  rw [Coeff.evalDict_eq_sum_of_keys _ h.nodup R hRn (fun k hk => hperm.mem_iff.2 hk), hR]
  rw [List.map_append, List.map_append, List.sum_append, List.sum_append]
  unfold cyc3 dkeys strip
  simp only [List.map_map]
  have hget : ∀ kv ∈ p, ∃ j k v, kv = ([i, j, k], v) ∧ k = d - i - j ∧ (dget co.coeffs [i, j, k]).getD 0 = v ∧ (dget co.coeffs [j, k, i]).getD 0 = v ∧ (dget co.coeffs [k, i, j]).getD 0 = v := by
    intro kv hkv
    obtain ⟨j, k, e, s, -⟩ := hshape kv hkv
    have hm : ([i, j, k], kv.2) ∈ co.coeffs := by rw [← e]; exact hp.subset hkv
    exact ⟨j, k, kv.2, by rw [← e], by omega, call_of_mem h.nodup hm, call_of_mem h.nodup (rot_key h hm), call_of_mem h.nodup (rot_key h (rot_key h hm))⟩
  have s1 : (p.map ((fun m => (dget co.coeffs m).getD 0 * Coeff.evalMonom m [a, b, c]) ∘ Prod.fst)) =
      p.map ((fun t : ℕ × K => t.2 * (a ^ i * b ^ t.1 * c ^ (d - i - t.1))) ∘ fun kv : List ℕ × K => (kv.1.getD 1 0, kv.2)) := by
    apply List.map_congr_left
    intro kv hkv
    obtain ⟨j, k, v, rfl, hk, h1, h2, h3⟩ := hget kv hkv
    simp only [Function.comp, List.getD_cons_zero, List.getD_cons_succ, h1, ← hk, Coeff.evalMonom, List.zipWith_cons_cons, List.zipWith_nil_left, List.prod_cons, List.prod_nil]
    ring
  have s2 : (p.map ((fun m => (dget co.coeffs m).getD 0 * Coeff.evalMonom m [a, b, c]) ∘ fun kv : List ℕ × K => [kv.1.getD 1 0, kv.1.getD 2 0, kv.1.getD 0 0])) =
      p.map ((fun t : ℕ × K => t.2 * (c ^ i * a ^ t.1 * b ^ (d - i - t.1))) ∘ fun kv : List ℕ × K => (kv.1.getD 1 0, kv.2)) := by
    apply List.map_congr_left
    intro kv hkv
    obtain ⟨j, k, v, rfl, hk, h1, h2, h3⟩ := hget kv hkv
    simp only [Function.comp, List.getD_cons_zero, List.getD_cons_succ, h2, ← hk, Coeff.evalMonom, List.zipWith_cons_cons, List.zipWith_nil_left, List.prod_cons, List.prod_nil]
    ring
  have s3 : (p.map ((fun m => (dget co.coeffs m).getD 0 * Coeff.evalMonom m [a, b, c]) ∘ fun kv : List ℕ × K => [kv.1.getD 2 0, kv.1.getD 0 0, kv.1.getD 1 0])) =
      p.map ((fun t : ℕ × K => t.2 * (b ^ i * c ^ t.1 * a ^ (d - i - t.1))) ∘ fun kv : List ℕ × K => (kv.1.getD 1 0, kv.2)) := by
    apply List.map_congr_left
    intro kv hkv
    obtain ⟨j, k, v, rfl, hk, h1, h2, h3⟩ := hget kv hkv
    simp only [Function.comp, List.getD_cons_zero, List.getD_cons_succ, h3, ← hk, Coeff.evalMonom, List.zipWith_cons_cons, List.zipWith_nil_left, List.prod_cons, List.prod_nil]
    ring
  rw [s1, s2, s3]
  ring

theorem hexGaps_spec {l : List (ℕ × K)} (hl : (l.map Prod.fst).Pairwise fun x y => y < x) (total : ℤ) (h : (hexGaps l total).1 ≠ -1) :
    0 ≤ (hexGaps l total).1 ∧ 0 ≤ (hexGaps l total).2 ∧ ((hexGaps l total).1 ≠ 0 → (hexGaps l total).1 + (hexGaps l total).2 = 2 * bexp l 0 - total) := by
  unfold hexGaps at *
  by_cases h1 : 3 ≤ l.length ∧ (bexp l 1 : ℤ) + bexp l (l.length - 2) = total
  · rw [if_pos h1] at *
    have key : ∀ n, 0 < n → n < l.length → bexp l n < bexp l 0 := by
      intro n hn hn'
      unfold bexp
      have e0 : 0 < (l.map Prod.fst).length := by rw [List.length_map]; omega
      have en : n < (l.map Prod.fst).length := by rw [List.length_map]; omega
      simp only [List.getD_eq_getElem?_getD, List.getElem?_eq_getElem e0, List.getElem?_eq_getElem en, Option.getD_some]
      exact List.pairwise_iff_getElem.1 hl 0 n e0 en hn
    have k1 := key 1 (by omega) (by omega)
    have k2 := key (l.length - 2) (by omega) (by omega)
    dsimp only
    refine ⟨by omega, by omega, fun _ => by omega⟩
  · rw [if_neg h1] at *
    by_cases h2 : l.length ≤ 2
    · rw [if_pos h2] at *
      simp
    · rw [if_neg h2] at h
      exact absurd rfl h

theorem heurHexagon_sound {recur : Coeff K → Option (Val3 K)} {d : ℕ} (hr : SoundC d recur) {co : Coeff K} (h : CycIn co d) {j0 : ℤ} {c0 : K} (hc0 : 0 ≤ c0) (hd7 : 7 ∣ d → d = 7)
    (hd0 : 0 < d) {g1 g2 : ℤ × ℤ} (h1 : g1.1 ≠ -1 → 0 ≤ g1.1 ∧ 0 ≤ g1.2 ∧ (g1.1 ≠ 0 → g1.1 + g1.2 = 2 * j0 - d))
    (h2 : g2.1 ≠ -1 → 0 ≤ g2.1 ∧ 0 ≤ g2.2 ∧ (g2.1 ≠ 0 → g2.1 + g2.2 = d - j0)) {E : Val3 K} (hE : heurHexagon recur co d j0 c0 g1 g2 = some E) (a b c : K) (ha : 0 < a) (hb : 0 < b)
    (hc : 0 < c) : E a b c = Coeff.evalDict co.coeffs [a, b, c] ∧ 0 ≤ E a b c := by
  unfold heurHexagon at hE
  split at hE
  · rename_i hg
    obtain ⟨p1, p2, p3⟩ := h1 hg.1
    obtain ⟨q1, q2, q3⟩ := h2 hg.2
    split at hE
    · rename_i hz
      have p3 := p3 hz.1
      have q3 := q3 hz.2
      rcases or_some hE with hE | hE
      · exact tryP_sound hr h q1 q2 (by omega) (by omega) (by omega) hc0 hE a b c ha hb hc
      · exact tryP_sound hr h q1 q2 (by omega) (by omega) (by omega) hc0 hE a b c ha hb hc
    · split at hE
      · rcases or_some hE with hE | hE
        · exact hexOuter_sound hr h p1 hc0 hd7 hd0 hE a b c ha hb hc
        · exact hexOuter_sound hr h p2 hc0 hd7 hd0 hE a b c ha hb hc
      · split at hE
        · rcases or_some hE with hE | hE
          · exact hexInner_sound hr h q1 hc0 hE a b c ha hb hc
          · exact hexInner_sound hr h q2 hc0 hE a b c ha hb hc
        · cases hE
  · cases hE

theorem sum_border {l : List (ℕ × K)} {n : ℕ} (hl : ∀ t ∈ l, t.1 ≤ n) (x y : K) (hy : y ≠ 0) :
    (l.map fun t => t.2 * (x / y) ^ t.1).sum * y ^ n = (l.map fun t => t.2 * (x ^ t.1 * y ^ (n - t.1))).sum := by
  rw [← List.sum_map_mul_right]
  congr 1
  apply List.map_congr_left
  intro t ht
  obtain ⟨k, hk⟩ := Nat.exists_eq_add_of_le (hl t ht)
  rw [hk, Nat.add_sub_cancel_left, div_pow, pow_add]
  have : y ^ t.1 ≠ 0 := pow_ne_zero _ hy
  field_simp

/-- The facts about the dictionary used by both results below. -/
theorem heur_facts {co : Coeff K} {d : ℕ} (h : CycIn co d) {f l : List ℕ × K} {rest : List (List ℕ × K)} (hf : co.coeffs = f :: rest) (hl : co.coeffs.getLast? = some l)
    (hl0 : l.1.getD 0 0 = 0) :
    l ∈ part1 co.coeffs ∧ (∀ kv ∈ co.coeffs, kv.1.getD 0 0 ≤ f.1.getD 0 0 ∧ kv.1.getD 1 0 ≤ f.1.getD 0 0 ∧ kv.1.getD 2 0 ≤ f.1.getD 0 0) := by
  constructor
  · unfold part1
    rw [List.mem_reverse]
    have : co.coeffs.reverse.head? = some l := by rw [List.head?_reverse]; exact hl
    obtain ⟨r, hr⟩ := List.head?_eq_some_iff.1 this
    rw [hr, List.takeWhile_cons, if_pos (by simpa using hl0)]
    simp
  · have hmax : ∀ kv ∈ co.coeffs, kv.1.getD 0 0 ≤ f.1.getD 0 0 := by
      intro kv hkv
      have hs := h.sorted
      have hkv' := hkv
      rw [hf] at hs hkv
      rcases List.mem_cons.1 hkv with e | hkv
      · rw [e]
      · have := (List.pairwise_cons.1 hs).1 kv hkv
        obtain ⟨i1, j1, k1, e1, s1⟩ := h.key hkv'
        obtain ⟨i2, j2, k2, e2, s2⟩ := h.key (kv := f) (by rw [hf]; simp)
        rw [e1, e2] at this ⊢
        simp only [List.getD_cons_zero]
        rcases lt3 this with h | ⟨h, -⟩ <;> omega
    intro kv hkv
    obtain ⟨i, j, k, e, -⟩ := h.key hkv
    have hm : ([i, j, k], kv.2) ∈ co.coeffs := by rw [← e]; exact hkv
    have m1 := hmax _ hkv
    have m2 := hmax _ (rot_key h hm)
    have m3 := hmax _ (rot_key h (rot_key h hm))
    rw [e] at m1 ⊢
    exact ⟨m1, m2, m3⟩

/-- **C69.** The heuristic solver on a cyclic ternary form: if the solvers it calls are sound, an answer is the value of the form at every positive point and
nonnegative there.  Degrees 14, 21, ... are left out, see `heuristic_wrong`. -/
theorem heuristic_sound_partial {dense recur : Coeff K → Option (Val3 K)} {prover : List (ℕ × K) → Option (K → K)} {co : Coeff K} {d : ℕ} (hde : SoundC d dense)
    (hr : SoundC d recur) (hp : SoundU prover) (h : CycIn co d) (hd7 : 7 ∣ d → d = 7) {E : Val3 K} (hE : heuristic dense recur prover co = .ok (some E)) (a b c : K)
    (ha : 0 < a) (hb : 0 < b) (hc : 0 < c) : E a b c = Coeff.evalDict co.coeffs [a, b, c] ∧ 0 ≤ E a b c := by
  unfold heuristic at hE
  split at hE
  · cases hE
  rename_i h6
  rcases hdn : dense co with _ | e
  swap
  · rw [hdn] at hE
    cases hE
    exact hde co h E hdn a b c ha hb hc
  rw [hdn] at hE
  dsimp only at hE
  have hdeg : co.degree = d := by
    unfold Coeff.degree at h6 ⊢
    rcases hcc : co.coeffs with _ | ⟨⟨k, v⟩, rest⟩
    · rw [hcc] at h6; simp at h6
    · dsimp only
      exact h.hom (k, v) (by rw [hcc]; simp)
  rw [hdeg] at hE h6
  split at hE
  · cases hE
  rename_i hcorner
  rw [not_not] at hcorner
  rcases hf : co.coeffs.head? with _ | f
  · rw [hf] at hE; cases hE
  rcases hl : co.coeffs.getLast? with _ | l
  · rw [hf, hl] at hE; cases hE
  rw [hf, hl] at hE
  dsimp only at hE
  obtain ⟨rest, hrest⟩ := List.head?_eq_some_iff.1 hf
  split at hE
  · cases hE
  rename_i hsg
  rw [not_or, not_or, not_not] at hsg
  obtain ⟨hs1, hs2, hl0⟩ := hsg
  obtain ⟨hlm, hmax⟩ := heur_facts h hrest hl hl0
  set i0 := f.1.getD 0 0 with hi0
  have hb1 : border1 co.coeffs = strip (part1 co.coeffs) := border1_eq h.nz
  have hb2 : border2 i0 co.coeffs = strip (part2 i0 co.coeffs) := border2_eq h.nz
  rw [hb1, hb2] at hE
  have sub1 := part1_sublist co.coeffs
  have sub2 := part2_sublist i0 co.coeffs
  have in1 : ∀ kv ∈ part1 co.coeffs, kv.1.getD 0 0 = 0 := fun kv hkv => part1_mem hkv
  have in2 : ∀ kv ∈ part2 i0 co.coeffs, kv.1.getD 0 0 = i0 := fun kv hkv => part2_mem hkv
  have desc1 := strip_desc h sub1 in1
  have desc2 := strip_desc h sub2 in2
  have nod : ∀ {l : List (ℕ × K)}, ((l.map Prod.fst).Pairwise fun x y => y < x) → (l.map Prod.fst).Nodup := fun hl => hl.imp fun hxy => ne_of_gt hxy
  split at hE
  · cases hE
  rename_i hone
  have bound : ∀ {q : List (List ℕ × K)} {i : ℕ}, q.Sublist co.coeffs → (∀ kv ∈ q, kv.1.getD 0 0 = i) → ∀ t ∈ strip q, t.1 ≤ d - i ∧ i ≤ d := by
    intro q i hq hqi t ht
    obtain ⟨kv, hkv, rfl⟩ := List.mem_map.1 ht
    obtain ⟨i1, j1, k1, e1, s1⟩ := h.key (hq.subset hkv)
    have := hqi kv hkv
    rw [e1] at this ⊢
    simp only [List.getD_cons_zero, List.getD_cons_succ] at this ⊢
    omega
  split at hE
  · rename_i hlen
    rcases hpr : prover (strip (part1 co.coeffs)) with _ | p
    · rw [hpr] at hE; cases hE
    rw [hpr] at hE
    cases hE
    have hs := hp _ (nod desc1) p hpr
    have hne : ∀ kv ∈ part1 co.coeffs, kv.1.getD 1 0 ≠ 0 ∧ kv.1.getD 2 0 ≠ 0 := by
      intro kv hkv
      obtain ⟨i, j, k, e, s⟩ := h.key (sub1.subset hkv)
      have h0 := in1 kv hkv
      have hm : ([i, j, k], kv.2) ∈ co.coeffs := by rw [← e]; exact sub1.subset hkv
      have hcall := call_of_mem h.nodup hm
      have hnz := h.nz _ hm
      rw [← hcall] at hnz
      rw [e] at h0 ⊢
      simp only [List.getD_cons_zero, List.getD_cons_succ] at h0 ⊢
      subst h0
      constructor
      · intro hj
        subst hj
        have : k = d := by omega
        subst this
        exact hnz (by rw [← hcorner, h.cyc])
      · intro hk
        subst hk
        have : j = d := by omega
        subst this
        exact hnz (by rw [← hcorner, h.cyc 0 0 j, h.cyc j 0 0])
    have hl3 : (part1 co.coeffs).length * 3 = co.coeffs.length := by simpa [strip] using hlen
    have hev := evalDict_part h sub1 in1 hne hl3 a b c
    have hbd := bound sub1 in1
    have hle : ∀ t ∈ strip (part1 co.coeffs), t.1 ≤ d := fun t ht => by have := (hbd t ht).1; omega
    have v : ∀ x y : K, 0 < x → 0 < y → p (x / y) * y ^ d = ((strip (part1 co.coeffs)).map fun t => t.2 * (x ^ t.1 * y ^ (d - t.1))).sum ∧ 0 ≤ p (x / y) * y ^ d := by
      intro x y hx hy
      obtain ⟨e1, e2⟩ := hs (x / y) (div_pos hx hy).le
      refine ⟨?_, mul_nonneg e2 (pow_pos hy d).le⟩
      rw [e1, sum_border hle x y hy.ne']
    unfold cyc3
    obtain ⟨v1, w1⟩ := v a b ha hb
    obtain ⟨v2, w2⟩ := v b c hb hc
    obtain ⟨v3, w3⟩ := v c a hc ha
    refine ⟨?_, add_nonneg (add_nonneg w1 w2) w3⟩
    dsimp only
    rw [v1, v2, v3, hev]
    unfold cyc3
    simp only [pow_zero, one_mul, Nat.sub_zero]
    ring
  · split at hE
    · rename_i hlen
      rcases hpr : prover (strip (part2 i0 co.coeffs)) with _ | p
      · rw [hpr] at hE; cases hE
      rw [hpr] at hE
      cases hE
      have hs := hp _ (nod desc2) p hpr
      -- the last key
      obtain ⟨il, jl, kl, el, sl⟩ := h.key (sub1.subset hlm)
      have hml := hmax l (sub1.subset hlm)
      rw [el] at hml hl0
      simp only [List.getD_cons_zero, List.getD_cons_succ] at hml hl0
      have hnot : d ≠ 2 * i0 := by
        intro hd2
        apply hone
        have hall : ∀ x ∈ (strip (part1 co.coeffs)).map Prod.fst, x = i0 := by
          intro x hx
          obtain ⟨t, ht, rfl⟩ := List.mem_map.1 hx
          obtain ⟨kv, hkv, rfl⟩ := List.mem_map.1 ht
          obtain ⟨i, j, k, e, s⟩ := h.key (sub1.subset hkv)
          have h0 := in1 kv hkv
          have hm := hmax kv (sub1.subset hkv)
          rw [e] at h0 hm ⊢
          simp only [List.getD_cons_zero, List.getD_cons_succ] at h0 hm ⊢
          omega
        have hmem : i0 ∈ (strip (part1 co.coeffs)).map Prod.fst := by
          have : (l.1.getD 1 0) ∈ (strip (part1 co.coeffs)).map Prod.fst := List.mem_map.2 ⟨_, List.mem_map.2 ⟨l, hlm, rfl⟩, rfl⟩
          rwa [hall _ this] at this
        have hsing : (strip (part1 co.coeffs)).map Prod.fst = [i0] := by
          rcases hq : (strip (part1 co.coeffs)).map Prod.fst with _ | ⟨x, _ | ⟨y, q⟩⟩
          · rw [hq] at hmem; simp at hmem
          · rw [hq] at hall; rw [hall x (by simp)]
          · rw [hq] at hall desc1
            have hx := hall x (by simp)
            have hy := hall y (by simp)
            have := (List.pairwise_cons.1 desc1).1 y (by simp)
            omega
        refine ⟨?_, ?_⟩
        · have := congrArg List.length hsing
          simpa using this
        · unfold bexp
          rw [hsing]
          simp only [List.getD_cons_zero]
          omega
      have hne : ∀ kv ∈ part2 i0 co.coeffs, kv.1.getD 1 0 ≠ i0 ∧ kv.1.getD 2 0 ≠ i0 := by
        intro kv hkv
        obtain ⟨i, j, k, e, s⟩ := h.key (sub2.subset hkv)
        have h0 := in2 kv hkv
        rw [e] at h0 ⊢
        simp only [List.getD_cons_zero, List.getD_cons_succ] at h0 ⊢
        omega
      have hl3 : (part2 i0 co.coeffs).length * 3 = co.coeffs.length := by simpa [strip] using hlen
      have hev := evalDict_part h sub2 in2 hne hl3 a b c
      have hbd := bound sub2 in2
      have hle : ∀ t ∈ strip (part2 i0 co.coeffs), t.1 ≤ d - i0 := fun t ht => (hbd t ht).1
      have v : ∀ z x y : K, 0 < z → 0 < x → 0 < y → p (x / y) * z ^ i0 * y ^ (d - i0) = ((strip (part2 i0 co.coeffs)).map fun t => t.2 * (z ^ i0 * x ^ t.1 * y ^ (d - i0 - t.1))).sum ∧
          0 ≤ p (x / y) * z ^ i0 * y ^ (d - i0) := by
        intro z x y hz hx hy
        obtain ⟨e1, e2⟩ := hs (x / y) (div_pos hx hy).le
        refine ⟨?_, mul_nonneg (mul_nonneg e2 (pow_pos hz _).le) (pow_pos hy _).le⟩
        rw [mul_right_comm, e1, sum_border hle x y hy.ne', ← List.sum_map_mul_right]
        congr 1
        apply List.map_congr_left
        intro t _
        ring
      unfold cyc3
      obtain ⟨v1, w1⟩ := v a b c ha hb hc
      obtain ⟨v2, w2⟩ := v b c a hb hc ha
      obtain ⟨v3, w3⟩ := v c a b hc ha hb
      refine ⟨?_, add_nonneg (add_nonneg w1 w2) w3⟩
      dsimp only
      rw [v1, v2, v3, hev]
      unfold cyc3
      ring
    · unfold heurHex at hE
      rcases hfb : (strip (part1 co.coeffs)).head? with _ | fb
      · rw [hfb] at hE; cases hE
      rcases hlb : (strip (part1 co.coeffs)).getLast? with _ | lb
      · rw [hfb, hlb] at hE; cases hE
      rw [hfb, hlb] at hE
      dsimp only at hE
      split at hE
      · cases hE
      rename_i hsg
      rw [not_or, not_lt, not_lt] at hsg
      split at hE
      · rename_i hsym
        split at hE
        · rw [hdeg] at hE
          obtain ⟨rb, hrb⟩ := List.head?_eq_some_iff.1 hfb
          have hE' := Except.ok.inj hE
          have hb0 : bexp (strip (part1 co.coeffs)) 0 = fb.1 := by rw [hrb]; rfl
          refine heurHexagon_sound hr h hsg.1 hd7 (by omega) ?_ ?_ hE' a b c ha hb hc
          · intro hg
            have := hexGaps_spec desc1 d hg
            rwa [hb0] at this
          · intro hg
            have hsp := hexGaps_spec desc2 _ hg
            have hb20 : bexp (strip (part2 i0 co.coeffs)) 0 = d - i0 ∧ i0 ≤ d := by
              have hfbm : fb ∈ strip (part1 co.coeffs) := by rw [hrb]; simp
              obtain ⟨kv, hkv, rfl⟩ := List.mem_map.1 hfbm
              obtain ⟨i, j, k, e, s⟩ := h.key (sub1.subset hkv)
              have h0 := in1 kv hkv
              have hm : ([i, j, k], kv.2) ∈ co.coeffs := by rw [← e]; exact sub1.subset hkv
              have hi0' := hsym.2.2
              rw [e] at h0 hi0'
              simp only [List.getD_cons_zero, List.getD_cons_succ] at h0 hi0'
              subst h0
              have hm2 := rot_key h hm
              obtain ⟨i2, j2, k2, e2, s2⟩ := h.key (kv := f) (by rw [hrest]; simp)
              have hi2 : i0 = i2 := by rw [hi0, e2]; rfl
              have hpart : part2 i0 co.coeffs = f :: rest.takeWhile fun kv => decide (kv.1.getD 0 0 = i0) := by
                unfold part2
                rw [hrest, List.takeWhile_cons, if_pos (by simp [hi0])]
              have hbe : bexp (strip (part2 i0 co.coeffs)) 0 = j2 := by
                rw [hpart]
                simp [bexp, strip, e2]
              rw [hbe]
              have hs := h.sorted
              rw [hrest] at hs hm2
              rcases List.mem_cons.1 hm2 with e3 | hm2
              · have e4 := congrArg Prod.fst e3
                rw [e2] at e4
                simp only [List.cons.injEq, and_true] at e4
                omega
              · have hlt := (List.pairwise_cons.1 hs).1 _ hm2
                rw [e2] at hlt
                rcases lt3 hlt with h | ⟨h, h' | ⟨h', h''⟩⟩ <;> omega
            have hi0' := hsym.2.2
            refine ⟨hsp.1, hsp.2.1, fun hz => ?_⟩
            have := hsp.2.2 hz
            rw [hb20.1] at this
            omega
        · cases hE
      · cases hE

/-- The solver raises no exception on such a form. -/
theorem heuristic_total {dense recur : Coeff K → Option (Val3 K)} {prover : List (ℕ × K) → Option (K → K)} {co : Coeff K} {d : ℕ} (h : CycIn co d) (e : PyErr) :
    heuristic dense recur prover co ≠ .error e := by
  intro hE
  unfold heuristic at hE
  split at hE
  · cases hE
  rename_i h6
  split at hE
  · cases hE
  split at hE
  · cases hE
  rcases hf : co.coeffs.head? with _ | f
  · rw [List.head?_eq_none_iff] at hf
    unfold Coeff.degree at h6
    rw [hf] at h6
    simp at h6
  obtain ⟨rest, hrest⟩ := List.head?_eq_some_iff.1 hf
  rcases hl : co.coeffs.getLast? with _ | l
  · rw [List.getLast?_eq_none_iff] at hl
    rw [hl] at hf; cases hf
  rw [hf, hl] at hE
  dsimp only at hE
  split at hE
  · cases hE
  rename_i hsg
  rw [not_or, not_or, not_not] at hsg
  obtain ⟨hlm, -⟩ := heur_facts h hrest hl hsg.2.2
  split at hE
  · cases hE
  split at hE
  · cases hE
  split at hE
  · cases hE
  unfold heurHex at hE
  rw [border1_eq h.nz] at hE
  have hmem : (l.1.getD 1 0, l.2) ∈ strip (part1 co.coeffs) := List.mem_map.2 ⟨l, hlm, rfl⟩
  rcases hq : strip (part1 co.coeffs) with _ | ⟨x, q⟩
  · rw [hq] at hmem; simp at hmem
  · rw [hq] at hE
    rcases hlb : (x :: q).getLast? with _ | lb
    · simp at hlb
    rw [hlb] at hE
    dsimp only [List.head?_cons] at hE
    split at hE
    · cases hE
    split at hE
    · split at hE <;> cases hE
    · cases hE

/-! ### The wrong table entry reaches the solver -/

/-- `s(a^5*b^5*c^4)`. -/
def hwTail : Coeff ℚ := Coeff.ofDict [([5, 5, 4], 1), ([5, 4, 5], 1), ([4, 5, 5], 1)]

/-- `Hnmr(2, 4, 4) + s(a^5*b^5*c^4)`. -/
def hwInput : Coeff ℚ := hwTail.sub (hCoeff 2 4 4 (-1))

/-- A recursion that only knows `s(a^5*b^5*c^4)`. -/
def hwRec (co : Coeff ℚ) : Option (Val3 ℚ) := if co.coeffs = hwTail.coeffs then some (cyc3 fun a b c => a ^ 5 * b ^ 5 * c ^ 4) else none

theorem hwTail_cycIn : CycIn hwTail 14 where
  len := by decide
  hom := by decide
  cyc := by
    intro i j k
    unfold hwTail Coeff.ofDict Coeff.call
    simp only [dget, List.cons.injEq, and_true]
    by_cases h1 : 5 = i ∧ 5 = j ∧ 4 = k
    · obtain ⟨rfl, rfl, rfl⟩ := h1; rfl
    by_cases h2 : 5 = i ∧ 4 = j ∧ 5 = k
    · obtain ⟨rfl, rfl, rfl⟩ := h2; rfl
    by_cases h3 : 4 = i ∧ 5 = j ∧ 5 = k
    · obtain ⟨rfl, rfl, rfl⟩ := h3; rfl
    rw [if_neg h1, if_neg h2, if_neg h3, if_neg (by tauto), if_neg (by tauto), if_neg (by tauto)]
  nz := by decide +kernel
  sorted := by decide +kernel

theorem hwInput_cycIn : CycIn hwInput 14 := sub_cycIn hwTail_cycIn (hCoeff_struct (by norm_num) 4 4 (-1))

theorem hwRec_sound : SoundC 14 hwRec := by
  intro co _ E hE a b c ha hb hc
  unfold hwRec at hE
  split at hE
  · rename_i h
    cases hE
    rw [h]
    unfold hwTail Coeff.ofDict Coeff.evalDict Coeff.evalMonom cyc3
    refine ⟨?_, by positivity⟩
    simp only [List.map_cons, List.map_nil, List.sum_cons, List.sum_nil, List.zipWith_cons_cons, List.zipWith_nil_left, List.prod_cons, List.prod_nil]
    ring
  · cases hE

/-- `Coeff.sub` with a sort that the kernel can evaluate (used for the examples only). -/
def subEval {K : Type*} [Zero K] [Sub K] [DecidableEq K] (a b : Coeff K) : Coeff K :=
  Coeff.ofDict ((b.coeffs.foldl (Coeff.opStep a (· - ·)) a.coeffs).insertionSort fun x y => y.1 ≤ x.1)

theorem sub_eq_subEval (a b : Coeff ℚ) (ha : (dkeys a.coeffs).Nodup) (hb : (dkeys b.coeffs).Nodup) : a.sub b = subEval a b := by
  unfold Coeff.sub Coeff.operator subEval
  congr 1
  have h1 := (Coeff.opFold_spec a (· - ·) b.coeffs a.coeffs hb ha (fun k _ => rfl)).1
  set r := b.coeffs.foldl (Coeff.opStep a (· - ·)) a.coeffs
  have p1 : (r.mergeSort fun x y => decide (y.1 ≤ x.1)).Perm r := List.mergeSort_perm _ _
  have p2 := List.perm_insertionSort (fun x y : List ℕ × ℚ => y.1 ≤ x.1) r
  have s1 := (Coeff.sub_spec a b ha hb).2.2
  have s2 : (r.insertionSort fun x y => y.1 ≤ x.1).Pairwise fun x y => y.1 < x.1 := by
    have hs : (r.insertionSort fun x y => y.1 ≤ x.1).Pairwise fun x y => y.1 ≤ x.1 := by
      have : Std.Total (fun x y : List ℕ × ℚ => y.1 ≤ x.1) := ⟨fun x y => le_total _ _⟩
      have : IsTrans (List ℕ × ℚ) (fun x y : List ℕ × ℚ => y.1 ≤ x.1) := ⟨fun x y z h1 h2 => h2.trans h1⟩
      exact List.pairwise_insertionSort _ _
    have hn : (dkeys (r.insertionSort fun x y => y.1 ≤ x.1)).Nodup := (p2.map Prod.fst).nodup_iff.2 h1
    unfold dkeys at hn
    have hn' := List.pairwise_map.1 hn
    exact (hs.and hn').imp fun h => lt_of_le_of_ne h.1 (Ne.symm h.2)
  refine (p1.trans p2.symm).eq_of_pairwise ?_ s1 s2
  intro x y _ _ h h'
  exact absurd (h.trans h') (lt_irrefl _)

theorem hwInput_eval : hwInput = subEval hwTail (hCoeff 2 4 4 (-1)) := sub_eq_subEval _ _ hwTail_cycIn.nodup (hCoeff_struct (by norm_num) 4 4 (-1)).nodup

theorem hw_heuristic : heuristic (fun _ => none) hwRec (fun _ => none) hwInput = .ok (tryH hwRec hwInput 2 4 4 1) := by
  have nd := hwInput_cycIn.nodup
  have f1 : hwRec (hwInput.sub (hCoeff 6 4 2 1)) = none := by
    rw [sub_eq_subEval _ _ nd (hCoeff_struct (by norm_num) 4 2 1).nodup, hwInput_eval]
    unfold hwRec
    rw [if_neg (by decide +kernel)]
  have f2 : hwRec (hwInput.sub (pCoeff 4 2 6 2 1)) = none := by
    rw [sub_eq_subEval _ _ nd (pCoeff_struct 4 2 6 2 1).nodup, hwInput_eval]
    unfold hwRec
    rw [if_neg (by decide +kernel)]
  have f3 : hwRec (hwInput.sub (hCoeff 2 4 4 1)) = some (cyc3 fun a b c => a ^ 5 * b ^ 5 * c ^ 4) := by
    rw [sub_eq_subEval _ _ nd (hCoeff_struct (by norm_num) 4 4 1).nodup, hwInput_eval]
    unfold hwRec
    rw [if_pos (by decide +kernel)]
  have d1 : hwInput.degree = 14 := by rw [hwInput_eval]; decide +kernel
  have d2 : hwInput.coeffs.head? = some ([10, 4, 0], 1) := by rw [hwInput_eval]; decide +kernel
  have d3 : hwInput.coeffs.getLast? = some ([0, 4, 10], 1) := by rw [hwInput_eval]; decide +kernel
  have d4 : border1 hwInput.coeffs = [(10, 1), (8, -1), (6, -1), (4, 1)] := by rw [hwInput_eval]; decide +kernel
  have d5 : border2 10 hwInput.coeffs = [(4, 1), (0, 1)] := by rw [hwInput_eval]; decide +kernel
  have d6 : hwInput.coeffs.length = 24 := by rw [hwInput_eval]; decide +kernel
  have d7 : hwInput.call [14, 0, 0] = 0 := by rw [hwInput_eval]; decide +kernel
  have t1 : tryH hwRec hwInput 6 4 2 1 = none := by
    unfold tryH
    rw [show (4 : ℤ).toNat = 4 from rfl, show (2 : ℤ).toNat = 2 from rfl, f1]
    rfl
  have t2 : tryP hwRec hwInput 4 2 6 2 1 = none := by
    unfold tryP
    rw [show (4 : ℤ).toNat = 4 from rfl, show (2 : ℤ).toNat = 2 from rfl, show (6 : ℤ).toNat = 6 from rfl, f2]
    rfl
  unfold heuristic
  rw [d1, if_neg (by norm_num)]
  dsimp only
  rw [d7, if_neg (by simp), d2, d3]
  dsimp only
  rw [if_neg (by norm_num), show ([10, 4, 0] : List ℕ).getD 0 0 = 10 from rfl, d4, d5, d6, if_neg (by simp), if_neg (by simp), if_neg (by simp)]
  unfold heurHex
  rw [show ([((10 : ℕ), (1 : ℚ)), (8, -1), (6, -1), (4, 1)]).head? = some (10, 1) from rfl, show ([((10 : ℕ), (1 : ℚ)), (8, -1), (6, -1), (4, 1)]).getLast? = some (4, 1) from rfl]
  dsimp only
  rw [if_neg (by norm_num), d1, if_pos (by norm_num), if_pos (by simp)]
  have g1 : hexGaps [((10 : ℕ), (1 : ℚ)), (8, -1), (6, -1), (4, 1)] (14 : ℕ) = (2, 4) := by decide +kernel
  have g2 : hexGaps [((4 : ℕ), (1 : ℚ)), (0, 1)] ((14 : ℕ) - (10 : ℕ)) = (0, 0) := by decide +kernel
  rw [g1, g2]
  unfold heurHexagon
  rw [if_pos (by norm_num), if_neg (by norm_num), if_pos (by norm_num)]
  have o1 : hexOuter hwRec hwInput (14 : ℕ) (10 : ℕ) 1 2 = none := by
    unfold hexOuter
    norm_num
    exact ⟨t1, t2⟩
  have o2 : hexOuter hwRec hwInput (14 : ℕ) (10 : ℕ) 1 4 = tryH hwRec hwInput 2 4 4 1 := by
    unfold hexOuter
    norm_num
  rw [o1, o2]
  rfl

/-- With sound solvers, the answer to `Hnmr(2, 4, 4) + s(a^5*b^5*c^4)` has another value than the polynomial. -/
theorem heuristic_wrong : CycIn hwInput 14 ∧ SoundC 14 hwRec ∧
    ∃ E, heuristic (fun _ => none) hwRec (fun _ => none) hwInput = .ok (some E) ∧ E 1 2 3 ≠ Coeff.evalDict hwInput.coeffs [1, 2, 3] := by
  refine ⟨hwInput_cycIn, hwRec_sound, ?_⟩
  rw [hw_heuristic]
  have f3 : hwRec (hwInput.sub (hCoeff 2 4 4 1)) = some (cyc3 fun a b c => a ^ 5 * b ^ 5 * c ^ 4) := by
    rw [sub_eq_subEval _ _ hwInput_cycIn.nodup (hCoeff_struct (by norm_num) 4 4 1).nodup, hwInput_eval]
    unfold hwRec
    rw [if_pos (by decide +kernel)]
  refine ⟨_, by unfold tryH; rw [show (4 : ℤ).toNat = 4 from rfl, f3]; rfl, ?_⟩
  rw [hwInput_eval]
  decide +kernel

/-! ### Examples -/

/-- A prover that answers for nonnegative coefficients. -/
def exProver (l : List (ℕ × ℚ)) : Option (ℚ → ℚ) := if l.all fun t => decide (0 ≤ t.2) then some fun x => (l.map fun t => t.2 * x ^ t.1).sum else none

theorem exProver_sound : SoundU exProver := by
  intro l _ p hp x hx
  unfold exProver at hp
  split at hp
  · rename_i h
    cases hp
    refine ⟨rfl, List.sum_nonneg ?_⟩
    intro y hy
    obtain ⟨t, ht, rfl⟩ := List.mem_map.1 hy
    have := List.all_eq_true.1 h t ht
    exact mul_nonneg (by simpa using this) (pow_nonneg hx _)
  · cases hp

/-- `s(a^5*b^3)`, whose terms all lie on the border. -/
def exForm : Coeff ℚ := Coeff.ofDict [([5, 3, 0], 1), ([3, 0, 5], 1), ([0, 5, 3], 1)]

theorem exForm_cycIn : CycIn exForm 8 where
  len := by decide
  hom := by decide
  cyc := by
    intro i j k
    unfold exForm Coeff.ofDict Coeff.call
    simp only [dget, List.cons.injEq, and_true]
    by_cases h1 : 5 = i ∧ 3 = j ∧ 0 = k
    · obtain ⟨rfl, rfl, rfl⟩ := h1; rfl
    by_cases h2 : 3 = i ∧ 0 = j ∧ 5 = k
    · obtain ⟨rfl, rfl, rfl⟩ := h2; rfl
    by_cases h3 : 0 = i ∧ 5 = j ∧ 3 = k
    · obtain ⟨rfl, rfl, rfl⟩ := h3; rfl
    rw [if_neg h1, if_neg h2, if_neg h3, if_neg (by tauto), if_neg (by tauto), if_neg (by tauto)]
  nz := by decide +kernel
  sorted := by decide +kernel

example : ∃ E, heuristic (fun _ => none) (fun _ => none) exProver exForm = .ok (some E) ∧ E 1 2 3 = Coeff.evalDict exForm.coeffs [1, 2, 3] := by
  have h : (match heuristic (fun _ => none) (fun _ => none) exProver exForm with | .ok (some _) => true | _ => false) = true := by decide +kernel
  rcases hh : heuristic (fun _ => none) (fun _ => none) exProver exForm with e | (_ | E)
  · rw [hh] at h; cases h
  · rw [hh] at h; cases h
  · exact ⟨E, rfl, (heuristic_sound_partial (d := 8) (fun _ _ _ h => by cases h) (fun _ _ _ h => by cases h) exProver_sound exForm_cycIn (by decide) hh 1 2 3 (by norm_num) (by norm_num)
      (by norm_num)).1⟩

end Verif.Ternary
