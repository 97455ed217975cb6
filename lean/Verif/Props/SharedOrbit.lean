import Verif.Props.SharedSym
import Verif.Props.Shared
import Verif.Props.Arraylize
import Verif.Props.Monomials

/-!
# C37: `clear_polys_by_symmetry` keeps one polynomial per orbit
-/

namespace Verif.Shared

open Verif Coeff MonoMgr

set_option linter.unusedSectionVars false

variable {K : Type*} [AddCommMonoid K] [LinearOrder K]

/-- `q` is `p` with its variables permuted by an element of the group. -/
def SameOrbit (n : ℕ) (G : List (List ℕ)) (p q : Terms K) : Prop :=
  ∃ g ∈ G, ∀ m : List ℕ, m.length = n → coeffAt q (papply g m) = coeffAt p m

theorem baseOf_valid (M : MonoMgr) : (baseOf M).Valid := by
  have h1 : papply (List.range M.nvars) (List.range M.nvars) = List.range M.nvars := IsPermGroup.papply_one (by simp)
  refine ⟨by simp [baseOf], ?_, by simp [baseOf], ?_, ?_⟩
  · intro p hp; simp [baseOf] at hp; subst hp; exact List.Perm.refl _
  · intro p hp q hq; simp [baseOf] at hp hq; subst hp; subst hq; simp [baseOf, h1]
  · intro p hp; simp [baseOf] at hp; subst hp; exact ⟨_, by simp [baseOf], h1, h1⟩

theorem mem_baseMonoms (M : MonoMgr) (d : ℕ) (m : List ℕ) :
    m ∈ (baseOf M).invMonoms d ↔ m.length = M.nvars ∧ M.DegOk d m := by
  rw [mem_invMonoms]
  have hdeg : (baseOf M).DegOk d m ↔ M.DegOk d m := Iff.rfl
  constructor
  · rintro ⟨h, _⟩; exact h
  · intro h
    refine ⟨h, ?_⟩
    unfold standardMonom permute baseOf
    simp only [List.map_cons, List.map_nil, pyMax, List.foldl_nil]
    rw [IsPermGroup.papply_one h.1]

theorem foldl_set_length (f : List ℕ → Option ℕ) (l : List (K × List ℕ)) : ∀ col : List K,
    (l.foldl (fun col vm => writeAt (f vm.2) vm.1 col) col).length = col.length := by
  induction l with
  | nil => intro col; rfl
  | cons a l ih =>
    intro col
    rw [List.foldl_cons, ih]
    cases f a.2 <;> simp [writeAt]

theorem foldl_set_getD (f : List ℕ → Option ℕ) (v : K) (j : ℕ) (l : List (K × List ℕ)) (hu : ∀ vm ∈ l, f vm.2 = some j → vm.1 = v) :
    ∀ col : List K, j < col.length → ((∃ vm ∈ l, f vm.2 = some j) ∨ col.getD j 0 = v) →
    (l.foldl (fun col vm => writeAt (f vm.2) vm.1 col) col).getD j 0 = v := by
  induction l with
  | nil => rintro col - (⟨_, h, _⟩ | h); · simp at h
           · exact h
  | cons a l ih =>
    intro col hj h
    rw [List.foldl_cons]
    have ih := ih (fun vm hvm => hu vm (List.mem_cons_of_mem _ hvm))
    rcases hf : f a.2 with _ | i
    · refine ih col hj ?_
      rcases h with ⟨vm, hvm, he⟩ | h
      · rcases List.mem_cons.1 hvm with rfl | hvm
        · rw [hf] at he; cases he
        · exact Or.inl ⟨vm, hvm, he⟩
      · exact Or.inr h
    · change (l.foldl _ (col.set i a.1)).getD j 0 = v
      refine ih _ (by simpa using hj) ?_
      by_cases hij : i = j
      · subst hij
        right
        rw [List.getD_eq_getElem?_getD, List.getElem?_set_self hj, Option.getD_some]
        exact hu a List.mem_cons_self hf
      · rcases h with ⟨vm, hvm, he⟩ | h
        · rcases List.mem_cons.1 hvm with rfl | hvm
          · rw [hf] at he; exact absurd (Option.some.inj he) hij
          · exact Or.inl ⟨vm, hvm, he⟩
        · right
          rw [List.getD_eq_getElem?_getD, List.getElem?_set_ne hij, ← List.getD_eq_getElem?_getD]; exact h

theorem degOk_papply (M : MonoMgr) {n : ℕ} {g : List ℕ} (hg : g.Perm (List.range n)) (d : ℕ) (m : List ℕ) (hm : m.length = n) :
    M.DegOk d (papply g m) ↔ M.DegOk d m := by
  have : (papply g m).sum = m.sum := (papply_perm g m (by rw [hm]; exact hg)).sum_eq
  unfold DegOk; rw [this]

/-- Column `g` of `permute_vec` holds at the monomial `papply g s` the value of the vector at `s`. -/
theorem permuteCol_entry (M : MonoMgr) (g : List ℕ) (hg : g.Perm (List.range M.nvars)) (vec : List K) (d : ℕ)
    (hlen : vec.length = ((baseOf M).invMonoms d).length) :
    (permuteCol M g vec d).length = vec.length ∧
    ∀ i j s, ((baseOf M).invMonoms d)[i]? = some s → ((baseOf M).invMonoms d)[j]? = some (papply g s) →
      (permuteCol M g vec d).getD j 0 = vec.getD i 0 := by
  unfold permuteCol
  constructor
  · rw [foldl_set_length (fun m => dget ((baseOf M).dictMonoms d) (papply g m))]; simp
  · intro i j s hi hj
    have hil : i < ((baseOf M).invMonoms d).length := (List.getElem?_eq_some_iff.1 hi).1
    have hjl : j < ((baseOf M).invMonoms d).length := (List.getElem?_eq_some_iff.1 hj).1
    have hsl : s.length = M.nvars := ((mem_baseMonoms M d s).1 (List.mem_of_getElem? hi)).1
    have hvi : vec[i]? = some (vec.getD i 0) := by
      rw [List.getD_eq_getElem?_getD, List.getElem?_eq_getElem (by omega)]; rfl
    apply foldl_set_getD (fun m => dget ((baseOf M).dictMonoms d) (papply g m))
    · intro vm hvm hf
      rw [dictMonoms_iff, hj] at hf
      obtain ⟨k, hk⟩ := List.mem_iff_getElem?.1 hvm
      rw [List.getElem?_zip_eq_some] at hk
      have hml : vm.2.length = M.nvars := ((mem_baseMonoms M d vm.2).1 (List.mem_of_getElem? hk.2)).1
      have hse : s = vm.2 := papply_injective hg hsl hml (Option.some.inj hf)
      have hki : k = i := by
        have hnd := invMonoms_nodup (baseOf M) d
        have h1 := hk.2
        rw [← hse] at h1
        exact (List.getElem?_inj (List.getElem?_eq_some_iff.1 h1).1 hnd).1 (by rw [h1, hi])
      subst hki
      have := hk.1
      rw [hvi] at this
      exact (Option.some.inj this).symm
    · simp; omega
    · left
      refine ⟨(vec.getD i 0, s), ?_, ?_⟩
      · rw [List.mem_iff_getElem?]
        exact ⟨i, List.getElem?_zip_eq_some.2 ⟨hvi, hi⟩⟩
      · simp only; rw [dictMonoms_iff]; exact hj

/-! ### The number of monomials determines the degree -/

theorem baseMonoms_lt (M : MonoMgr) (hn : 2 ≤ M.nvars) (d : ℕ) :
    ((baseOf M).invMonoms d).length < ((baseOf M).invMonoms (d + 1)).length := by
  set up : List ℕ → List ℕ := fun m => (m.headD 0 + 1) :: m.tail with hup
  have hsplit : ∀ m : List ℕ, m.length = M.nvars → ∃ a l, m = a :: l := by
    intro m hm
    cases m with
    | nil => simp at hm; omega
    | cons a l => exact ⟨a, l, rfl⟩
  set t : List ℕ := 0 :: (d + 1) :: List.replicate (M.nvars - 2) 0 with ht
  have htm : t ∈ (baseOf M).invMonoms (d + 1) := by
    rw [mem_baseMonoms]
    refine ⟨by simp [ht]; omega, ?_⟩
    unfold DegOk
    have hs : t.sum = d + 1 := by simp [ht]
    rw [hs]; split <;> simp
  have hnd : (t :: ((baseOf M).invMonoms d).map up).Nodup := by
    rw [List.nodup_cons]
    constructor
    · intro h
      obtain ⟨m, hm, he⟩ := List.mem_map.1 h
      rw [hup, ht] at he
      simp only [List.cons.injEq] at he
      omega
    · refine List.Nodup.map_on ?_ (invMonoms_nodup (baseOf M) d)
      intro a ha b hb hab
      obtain ⟨x, l, rfl⟩ := hsplit a ((mem_baseMonoms M d a).1 ha).1
      obtain ⟨y, k, rfl⟩ := hsplit b ((mem_baseMonoms M d b).1 hb).1
      simpa [hup] using hab
  have hsub : (t :: ((baseOf M).invMonoms d).map up) ⊆ (baseOf M).invMonoms (d + 1) := by
    intro u hu
    rcases List.mem_cons.1 hu with rfl | hu
    · exact htm
    · obtain ⟨m, hm, rfl⟩ := List.mem_map.1 hu
      have h := (mem_baseMonoms M d m).1 hm
      obtain ⟨x, l, rfl⟩ := hsplit m h.1
      rw [mem_baseMonoms]
      refine ⟨by simpa [hup] using h.1, ?_⟩
      have h2 := h.2
      unfold DegOk at h2 ⊢
      simp only [hup, List.headD_cons, List.tail_cons, List.sum_cons] at h2 ⊢
      split at h2 <;> simp_all <;> omega
  have := (List.subperm_of_subset hnd hsub).length_le
  simp at this
  omega

theorem baseMonoms_inj (M : MonoMgr) (hn : 2 ≤ M.nvars) (d e : ℕ)
    (h : ((baseOf M).invMonoms d).length = ((baseOf M).invMonoms e).length) : d = e :=
  (strictMono_nat_of_lt_succ (f := fun d => ((baseOf M).invMonoms d).length) (baseMonoms_lt M hn)).injective h

/-! ### Orbits -/

theorem coeffAt_ne_zero {n : ℕ} {p : Terms K} (hp : IsPoly n p) {t : List ℕ × K} (ht : t ∈ p) : coeffAt p t.1 = t.2 := by
  unfold coeffAt
  rw [(dget_eq_some_iff p hp.nodup t.1 t.2).2 ht]; rfl

theorem mem_of_coeffAt {p : Terms K} {m : List ℕ} (h : coeffAt p m ≠ 0) : ∃ c, (m, c) ∈ p := by
  by_contra hn
  apply h
  unfold coeffAt
  rw [(dget_eq_none_iff p m).2 ?_]; · rfl
  intro hm
  obtain ⟨t, ht, rfl⟩ := List.mem_map.1 hm
  exact hn ⟨t.2, ht⟩

theorem SameOrbit.symm {n : ℕ} {G : List (List ℕ)} (hG : IsPermGroup n G) {p q : Terms K} (h : SameOrbit n G p q) : SameOrbit n G q p := by
  obtain ⟨g, hg, h⟩ := h
  obtain ⟨gi, hgi, h1, h2⟩ := hG.inv g hg
  refine ⟨gi, hgi, ?_⟩
  intro m hm
  rw [← h (papply gi m) (by rw [papply_length]; exact hG.length_eq hgi), hG.papply_papply' hg hgi, h1, IsPermGroup.papply_one hm]

theorem SameOrbit.degree_le {n : ℕ} {G : List (List ℕ)} (hG : IsPermGroup n G) {p q : Terms K} (hp : IsPoly n p) (hp0 : p ≠ [])
    (h : SameOrbit n G p q) : totalDegree n p ≤ totalDegree n q := by
  obtain ⟨g, hg, h⟩ := h
  have hrep : repTerms n p = p := by unfold repTerms; rw [if_neg]; simpa using hp0
  rcases (foldl_max_le ((repTerms n p).map fun t => t.1.sum) 0).2.2 with he | he
  · unfold totalDegree at *; rw [he]; exact Nat.zero_le _
  · obtain ⟨t, ht, hte⟩ := List.mem_map.1 he
    rw [hrep] at ht
    have hd : totalDegree n p = t.1.sum := hte.symm
    have hl := hp.length t ht
    have h1 := h t.1 hl
    rw [coeffAt_ne_zero hp ht] at h1
    obtain ⟨c, hc⟩ := mem_of_coeffAt (h1 ▸ hp.ne_zero t ht : coeffAt q (papply g t.1) ≠ 0)
    have := sum_le_totalDegree n q _ hc
    simp only at this
    rw [(hG.papply_perm' hg hl).sum_eq] at this
    rw [hd]; exact this

theorem coeffAt_out {M : MonoMgr} {p : Terms K} (hhom : M.hom = true → ∀ t ∈ p, t.1.sum = totalDegree M.nvars p)
    {m : List ℕ} (h : ¬ M.DegOk (totalDegree M.nvars p) m) : coeffAt p m = 0 := by
  by_contra hne
  obtain ⟨c, hc⟩ := mem_of_coeffAt hne
  apply h
  unfold DegOk
  have h1 := sum_le_totalDegree M.nvars p _ hc
  split
  · rename_i hh; exact hhom hh _ hc
  · exact h1

/-- The columns compared by `clear_polys_by_symmetry`, read as coefficients. -/
theorem column_entry (M : MonoMgr) (hM : M.Valid) (p : Terms K) (hp : IsPoly M.nvars p) (g : List ℕ) (hg : g ∈ M.elements) :
    (permuteCol M g ((baseOf M).arraylize p false) (totalDegree M.nvars p)).length = ((baseOf M).invMonoms (totalDegree M.nvars p)).length ∧
    ∀ j s, s.length = M.nvars → ((baseOf M).invMonoms (totalDegree M.nvars p))[j]? = some (papply g s) →
      (permuteCol M g ((baseOf M).arraylize p false) (totalDegree M.nvars p)).getD j 0 = coeffAt p s := by
  obtain ⟨h1, h2⟩ := arraylize_entry (baseOf M) p hp.nodup
  have hgp : g.Perm (List.range M.nvars) := IsPermGroup.perm hM g hg
  obtain ⟨h3, h4⟩ := permuteCol_entry M g hgp ((baseOf M).arraylize p false) (totalDegree M.nvars p) h1
  refine ⟨h3.trans h1, ?_⟩
  intro j s hs hj
  have hm := (mem_baseMonoms M _ _).1 (List.mem_of_getElem? hj)
  have hsm : s ∈ (baseOf M).invMonoms (totalDegree M.nvars p) :=
    (mem_baseMonoms M _ _).2 ⟨hs, (degOk_papply M hgp _ s hs).1 hm.2⟩
  obtain ⟨i, hi⟩ := List.mem_iff_getElem?.1 hsm
  rw [h4 i j s hi hj]
  exact h2 i s hi

theorem columns_subset (M : MonoMgr) (hM : M.Valid) (p q : Terms K) (hp : IsPoly M.nvars p) (hq : IsPoly M.nvars q)
    (hd : totalDegree M.nvars p = totalDegree M.nvars q) (h : SameOrbit M.nvars M.elements p q) (c : List K)
    (hc : c ∈ permuteVec M ((baseOf M).arraylize p false) (totalDegree M.nvars p)) :
    c ∈ permuteVec M ((baseOf M).arraylize q false) (totalDegree M.nvars q) := by
  have hG : IsPermGroup M.nvars M.elements := hM
  obtain ⟨g, hg, h⟩ := h
  obtain ⟨k, hk, rfl⟩ := List.mem_map.1 hc
  obtain ⟨gi, hgi, h1, h2⟩ := hG.inv g hg
  obtain ⟨ki, hki, h3, h4⟩ := hG.inv k hk
  refine List.mem_map.2 ⟨papply k gi, hG.mul k hk gi hgi, ?_⟩
  obtain ⟨l1, e1⟩ := column_entry M hM p hp k hk
  obtain ⟨l2, e2⟩ := column_entry M hM q hq (papply k gi) (hG.mul k hk gi hgi)
  apply List.ext_getElem
  · rw [l1, l2, hd]
  · intro j hj1 hj2
    have hjl : j < ((baseOf M).invMonoms (totalDegree M.nvars q)).length := by rw [← l2]; exact hj1
    set u := ((baseOf M).invMonoms (totalDegree M.nvars q))[j] with hu
    have hju : ((baseOf M).invMonoms (totalDegree M.nvars q))[j]? = some u := List.getElem?_eq_getElem hjl
    have hul : u.length = M.nvars := ((mem_baseMonoms M _ _).1 (List.mem_of_getElem? hju)).1
    set s := papply ki u with hs
    have hsl : s.length = M.nvars := by rw [hs, papply_length]; exact hG.length_eq hki
    have hks : papply k s = u := by rw [hs, hG.papply_papply' hk hki, h3, IsPermGroup.papply_one hul]
    have a1 := e1 j s hsl (by rw [hd, hks]; exact hju)
    have hgs : papply (papply k gi) (papply g s) = u := by
      rw [← hG.papply_papply' hk hgi, hG.papply_papply' hgi hg, h2, IsPermGroup.papply_one hsl, hks]
    have a2 := e2 j (papply g s) (by rw [papply_length]; exact hG.length_eq hg) (by rw [hgs]; exact hju)
    rw [h s hsl, ← a1] at a2
    rw [List.getD_eq_getElem?_getD, List.getD_eq_getElem?_getD, List.getElem?_eq_getElem hj1, List.getElem?_eq_getElem hj2] at a2
    exact a2

/-- Two nonzero polynomials have the same representation exactly when one is the other with permuted variables. -/
theorem representation_eq_iff (M : MonoMgr) (hM : M.Valid) (hn : 2 ≤ M.nvars) (p q : Terms K) (hp : IsPoly M.nvars p) (hq : IsPoly M.nvars q)
    (hp0 : p ≠ []) (hq0 : q ≠ [])
    (hhp : M.hom = true → ∀ t ∈ p, t.1.sum = totalDegree M.nvars p) (hhq : M.hom = true → ∀ t ∈ q, t.1.sum = totalDegree M.nvars q) :
    representation M p = representation M q ↔ SameOrbit M.nvars M.elements p q := by
  have hG : IsPermGroup M.nvars M.elements := hM
  constructor
  · intro h
    have hne : permuteVec M ((baseOf M).arraylize p false) (totalDegree M.nvars p) ≠ [] := by
      unfold permuteVec
      intro he
      have := hG.one
      rw [List.map_eq_nil_iff.1 he] at this
      simp at this
    obtain ⟨c, hc⟩ := pyMax_isSome _ hne
    have hcp := ((pyMax_eq_some_iff _ _).1 hc).1
    have hcq : pyMax (permuteVec M ((baseOf M).arraylize q false) (totalDegree M.nvars q)) = some c := by
      unfold representation at h; rw [← h]; exact hc
    have hcq := ((pyMax_eq_some_iff _ _).1 hcq).1
    obtain ⟨g1, hg1, e1⟩ := List.mem_map.1 hcp
    obtain ⟨g2, hg2, e2⟩ := List.mem_map.1 hcq
    obtain ⟨l1, c1⟩ := column_entry M hM p hp g1 hg1
    obtain ⟨l2, c2⟩ := column_entry M hM q hq g2 hg2
    rw [e1] at l1 c1
    rw [e2] at l2 c2
    have hd : totalDegree M.nvars p = totalDegree M.nvars q := baseMonoms_inj M hn _ _ (l1.symm.trans l2)
    obtain ⟨gi, hgi, h1, h2⟩ := hG.inv g2 hg2
    refine ⟨papply gi g1, hG.mul gi hgi g1 hg1, ?_⟩
    intro m hm
    have hgm := hG.mul gi hgi g1 hg1
    by_cases hdeg : M.DegOk (totalDegree M.nvars p) m
    · have hmem : papply g1 m ∈ (baseOf M).invMonoms (totalDegree M.nvars p) :=
        (mem_baseMonoms M _ _).2 ⟨by rw [papply_length]; exact hG.length_eq hg1, (degOk_papply M (hG.perm g1 hg1) _ m hm).2 hdeg⟩
      obtain ⟨j, hj⟩ := List.mem_iff_getElem?.1 hmem
      have a1 := c1 j m hm hj
      have hx : papply g2 (papply (papply gi g1) m) = papply g1 m := by
        rw [← hG.papply_papply' hgi hg1, hG.papply_papply' hg2 hgi, h1, IsPermGroup.papply_one (by rw [papply_length]; exact hG.length_eq hg1)]
      have a2 := c2 j (papply (papply gi g1) m) (by rw [papply_length]; exact hG.length_eq hgm) (by rw [hx, ← hd]; exact hj)
      rw [← a2, a1]
    · rw [coeffAt_out hhp hdeg]
      refine coeffAt_out hhq ?_
      rw [← hd, degOk_papply M (hG.perm _ hgm) _ m hm]
      exact hdeg
  · intro h
    have hs := h.symm hG
    have hd : totalDegree M.nvars p = totalDegree M.nvars q :=
      le_antisymm (h.degree_le hG hp hp0) (hs.degree_le hG hq hq0)
    unfold representation
    apply pyMax_congr
    intro c
    exact ⟨columns_subset M hM p q hp hq hd h c, columns_subset M hM q p hq hp hd.symm hs c⟩

theorem two_le_of_nontrivial (M : MonoMgr) (hM : M.Valid) (h : M.elements ≠ [List.range M.nvars]) : 2 ≤ M.nvars := by
  by_contra hn
  apply h
  have hG : IsPermGroup M.nvars M.elements := hM
  have hall : ∀ g ∈ M.elements, g = List.range M.nvars := by
    intro g hg
    have hp := hG.perm g hg
    have : M.nvars = 0 ∨ M.nvars = 1 := by omega
    rcases this with h0 | h0 <;> rw [h0] at hp ⊢
    · simpa using hp
    · simpa [List.range_succ] using hp
  have hone := hG.one
  have hnd := hG.nodup
  match hE : M.elements with
  | [] => rw [hE] at hone; simp at hone
  | [a] => rw [hE] at hall; rw [hall a (by simp)]
  | a :: b :: l =>
    rw [hE] at hall hnd
    have := hall a (by simp)
    have h2 := hall b (by simp)
    rw [this, h2] at hnd
    simp at hnd

/-- **C37.** The result is part of the input, and every input polynomial is represented: some kept polynomial is the same up to a
permutation in the group. -/
theorem clearPolys_covers {E : Type*} (M : MonoMgr) (hM : M.Valid) (polys : List (Terms K × E))
    (hp : ∀ t ∈ polys, IsPoly M.nvars t.1 ∧ t.1 ≠ [])
    (hhom : M.hom = true → ∀ t ∈ polys, ∀ u ∈ t.1, u.1.sum = totalDegree M.nvars t.1) :
    (∀ t ∈ clearPolys M polys, t ∈ polys) ∧
    ∀ t ∈ polys, ∃ u ∈ clearPolys M polys, SameOrbit M.nvars M.elements t.1 u.1 := by
  have hG : IsPermGroup M.nvars M.elements := hM
  unfold clearPolys
  by_cases ht : M.elements = [List.range M.nvars]
  · simp only [if_pos ht]
    refine ⟨fun t h => h, fun t h => ⟨t, h, List.range M.nvars, by rw [ht]; simp, ?_⟩⟩
    intro m hm; rw [IsPermGroup.papply_one hm]
  · simp only [if_neg ht]
    have hn := two_le_of_nontrivial M hM ht
    have hmem : ∀ e ∈ dictOf (polys.map fun t => (representation M t.1, t)), e.2 ∈ polys ∧ e.1 = representation M e.2.1 := by
      intro e he
      obtain ⟨t, ht, rfl⟩ := List.mem_map.1 (mem_dictOf _ _ he)
      exact ⟨ht, rfl⟩
    constructor
    · intro t h
      obtain ⟨e, he, rfl⟩ := List.mem_map.1 h
      exact (hmem e (List.mem_filter.1 he).1).1
    · intro t h
      have hsome : representation M t.1 ≠ none := by
        have hne : permuteVec M ((baseOf M).arraylize t.1 false) (totalDegree M.nvars t.1) ≠ [] := by
          unfold permuteVec
          intro he
          have := hG.one
          rw [List.map_eq_nil_iff.1 he] at this
          simp at this
        obtain ⟨c, hc⟩ := pyMax_isSome _ hne
        unfold representation; rw [hc]; simp
      have hk : representation M t.1 ∈ dkeys ((polys.map fun t => (representation M t.1, t)).reverse) := by
        unfold dkeys
        rw [List.map_reverse, List.mem_reverse, List.map_map]
        exact List.mem_map.2 ⟨t, h, rfl⟩
      rcases hg : dget (dictOf (polys.map fun t => (representation M t.1, t))) (representation M t.1) with _ | u
      · rw [dget_dictOf, dget_eq_none_iff] at hg
        exact absurd hk hg
      · have hu := (dget_eq_some_iff _ (dkeys_nodup_dictOf _) _ _).1 hg
        obtain ⟨hu1, hu2⟩ := hmem _ hu
        refine ⟨u, List.mem_map.2 ⟨(representation M t.1, u), ?_, rfl⟩, ?_⟩
        · rw [← dget_eq_some_iff _ (dkeys_nodup_ddel _ _ (dkeys_nodup_dictOf _)), dget_ddel, if_neg (fun h => hsome h.symm)]
          exact hg
        · exact (representation_eq_iff M hM hn t.1 u.1 (hp t h).1 (hp u hu1).1 (hp t h).2 (hp u hu1).2 (fun hh => hhom hh t h)
            (fun hh => hhom hh u hu1)).1 hu2

/-- **C37.** For a nontrivial group no two kept polynomials are the same up to a permutation in the group. -/
theorem clearPolys_distinct_partial {E : Type*} (M : MonoMgr) (hM : M.Valid) (hnt : M.elements ≠ [List.range M.nvars]) (polys : List (Terms K × E))
    (hp : ∀ t ∈ polys, IsPoly M.nvars t.1 ∧ t.1 ≠ [])
    (hhom : M.hom = true → ∀ t ∈ polys, ∀ u ∈ t.1, u.1.sum = totalDegree M.nvars t.1) :
    (clearPolys M polys).Pairwise fun t u => ¬ SameOrbit M.nvars M.elements t.1 u.1 := by
  unfold clearPolys
  rw [if_neg hnt]
  have hn := two_le_of_nontrivial M hM hnt
  rw [List.pairwise_map]
  have hnd := dkeys_nodup_ddel _ none (dkeys_nodup_dictOf (polys.map fun t => (representation M t.1, t)))
  unfold dkeys at hnd
  rw [List.Nodup, List.pairwise_map] at hnd
  refine hnd.imp_of_mem ?_
  intro a b ha hb hab hs
  obtain ⟨t, ht, rfl⟩ := List.mem_map.1 (mem_dictOf _ _ (List.mem_filter.1 ha).1)
  obtain ⟨u, hu, rfl⟩ := List.mem_map.1 (mem_dictOf _ _ (List.mem_filter.1 hb).1)
  exact hab ((representation_eq_iff M hM hn t.1 u.1 (hp t ht).1 (hp u hu).1 (hp t ht).2 (hp u hu).2 (fun hh => hhom hh t ht)
    (fun hh => hhom hh u hu)).2 hs)

/-- Four constraints under the rotation of three variables: `a` and `b` are merged, `a+2b` and `b+2c` too (the later one is kept). -/
example : clearPolys ⟨3, exC3, true⟩ [([([1,0,0],(1:ℤ))], 0), ([([1,0,0],1),([0,1,0],2)], 1), ([([0,1,0],1)], 2), ([([0,1,0],1),([0,0,1],2)], 3)]
    = [([([0,1,0],1)], 2), ([([0,1,0],1),([0,0,1],2)], 3)] := by decide +kernel

/-- **C37 boundary.** With the trivial group the list is returned unchanged, repetitions included. -/
theorem clearPolys_trivial_repeats : ∃ (M : MonoMgr) (_ : M.Valid) (polys : List (Terms ℤ × ℕ)),
    (∀ t ∈ polys, IsPoly M.nvars t.1 ∧ t.1 ≠ []) ∧ ∃ t u, [t, u] = clearPolys M polys ∧ SameOrbit M.nvars M.elements t.1 u.1 := by
  refine ⟨⟨1, [[0]], true⟩, ⟨by decide, by decide, by decide, by decide, by decide⟩, [([([1], 1)], 0), ([([1], 1)], 1)], ?_,
    ([([1], 1)], 0), ([([1], 1)], 1), by decide +kernel, [0], by decide, ?_⟩
  · intro t ht
    simp only [List.mem_cons, List.not_mem_nil, or_false] at ht
    rcases ht with rfl | rfl <;> exact ⟨⟨by decide, by decide, by decide⟩, by simp⟩
  · intro m hm
    have : papply [0] m = m := by
      have := papply_range m
      rw [hm] at this
      exact this
    rw [this]

end Verif.Shared
