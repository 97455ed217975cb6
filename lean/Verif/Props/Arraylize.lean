import Verif.Proofs.Arraylize

/-!
# C03, C04: coefficient vectors of symmetric polynomials

`coeffAt` (coefficient lookup) and `IsPoly` (well-formed term list) are defined in `Verif.Proofs.Arraylize`.
-/

namespace Verif
namespace MonoMgr

variable {K : Type*}

/-! ## C03 -/

/-- **C03 (polynomial → vector → polynomial).** For a polynomial that is unchanged by every group
element (and homogeneous when the manager is), `invarraylize(arraylize(p), deg p)` has the same
coefficients as `p`. -/
theorem invarraylize_arraylize [AddCommMonoid K] [DecidableEq K] (M : MonoMgr) (hM : M.Valid)
    (p : List (List ℕ × K)) (hp : IsPoly M.nvars p)
    (hhom : M.hom = true → ∀ t ∈ p, t.1.sum = totalDegree M.nvars p)
    (hinv : ∀ g ∈ M.elements, ∀ m, m.length = M.nvars → coeffAt p (papply g m) = coeffAt p m)
    (m : List ℕ) :
    coeffAt (M.invarraylize (M.arraylize p false) (totalDegree M.nvars p)) m = coeffAt p m := by
  obtain ⟨hlen, hent⟩ := arraylize_entry M p hp.nodup
  obtain ⟨h1, h2⟩ := invarraylize_coeff M hM (M.arraylize p false) (totalDegree M.nvars p) hlen
  by_cases hm : m.length = M.nvars ∧ M.DegOk (totalDegree M.nvars p) m
  · obtain ⟨s, ⟨hs, g, hg, rfl⟩, -⟩ := invMonoms_existsUnique M hM _ m hm.1 hm.2
    obtain ⟨i, hi⟩ := List.mem_iff_getElem?.1 hs
    obtain ⟨g', hg', -, hgg⟩ := IsPermGroup.inv hM g hg
    have := h1 i _ hi g' hg'
    rw [IsPermGroup.papply_papply' hM hg' hg, hgg, IsPermGroup.papply_one hm.1] at this
    rw [this, hent i _ hi, hinv g hg m hm.1]
  · rw [h2 m hm]
    unfold coeffAt
    cases h : dget p m with
    | none => rfl
    | some c =>
      exfalso; apply hm
      have hmem := (dget_eq_some_iff p hp.nodup m c).1 h
      refine ⟨hp.length _ hmem, ?_⟩
      unfold DegOk
      split_ifs with hh
      · exact hhom hh _ hmem
      · exact sum_le_totalDegree _ _ _ hmem

/-- **C03 (vector → polynomial → vector), partial.** Missing: vectors whose top-degree part vanishes;
there the property is false, see `arraylize_invarraylize_zero_false`. -/
theorem arraylize_invarraylize_partial [AddCommMonoid K] [DecidableEq K] (M : MonoMgr) (hM : M.Valid)
    (vec : List K) (d : ℕ) (hlen : vec.length = (M.invMonoms d).length)
    (htop : ∃ i s, (M.invMonoms d)[i]? = some s ∧ s.sum = d ∧ vec.getD i 0 ≠ 0) :
    M.arraylize (M.invarraylize vec d) false = vec := by
  obtain ⟨h1, h2⟩ := invarraylize_coeff M hM vec d hlen
  set q := M.invarraylize vec d with hq
  have hqn : (dkeys q).Nodup := by
    rw [hq]; unfold invarraylize
    rw [foldl_eq_dictOf_invPairs]
    have := dkeys_nodup_dictOf (invPairs M vec d)
    unfold dkeys at *
    exact this.sublist (List.Sublist.map _ List.filter_sublist)
  have hqnz : ∀ t ∈ q, t.2 ≠ 0 := by
    intro t ht; rw [hq] at ht; unfold invarraylize at ht
    rw [List.mem_filter] at ht; simpa using ht.2
  have hdeg : totalDegree M.nvars q = d := by
    obtain ⟨i, s, hi, hsd, hne⟩ := htop
    have hsl := ((mem_invMonoms M d s).1 (List.mem_iff_getElem?.2 ⟨i, hi⟩)).1.1
    have hc := h1 i s hi _ hM.one
    rw [IsPermGroup.papply_one hsl] at hc
    have hqmem : (s, vec.getD i 0) ∈ q := by
      unfold coeffAt at hc
      cases h : dget q s with
      | none => rw [h] at hc; exact absurd hc.symm hne
      | some c => rw [h] at hc; simp only [Option.getD_some] at hc; subst hc
                  exact (dget_eq_some_iff q hqn s _).1 h
    apply le_antisymm
    · unfold totalDegree
      have hrep : repTerms M.nvars q = q := by
        unfold repTerms; cases h : q with
        | nil => rw [h] at hqmem; simp at hqmem
        | cons a l => simp
      rw [hrep]
      rcases (foldl_max_le (q.map fun t => t.1.sum) 0).2.2 with h | h
      · rw [h]; exact Nat.zero_le _
      · rw [List.mem_map] at h
        obtain ⟨⟨m, c⟩, ht, he⟩ := h
        rw [← he]
        by_contra hgt
        have h0 := h2 m (by
          rintro ⟨-, h3⟩; unfold DegOk at h3
          simp only at hgt
          split_ifs at h3 <;> omega)
        unfold coeffAt at h0
        rw [(dget_eq_some_iff q hqn m c).2 ht] at h0
        exact hqnz _ ht h0
    · have := sum_le_totalDegree M.nvars q _ hqmem
      rw [← hsd]; exact this
  obtain ⟨hl, hent⟩ := arraylize_entry M q hqn
  rw [hdeg] at hl hent
  apply List.ext_getElem (by rw [hl, hlen])
  intro i hi1 hi2
  have hi3 : i < (M.invMonoms d).length := by rw [← hlen]; exact hi2
  have hi : (M.invMonoms d)[i]? = some (M.invMonoms d)[i] := List.getElem?_eq_getElem hi3
  have e1 := hent i _ hi
  have hsl := ((mem_invMonoms M d _).1 (List.getElem_mem hi3)).1.1
  have e2 := h1 i _ hi _ hM.one
  rw [IsPermGroup.papply_one hsl] at e2
  rw [e2] at e1
  simpa [List.getD_eq_getElem?_getD, hi1, hi2] using e1

/-- The full vector round trip is false: the zero vector of degree 1 in two variables comes back with a
different length. -/
theorem arraylize_invarraylize_zero_false :
    ∃ (M : MonoMgr) (_ : M.Valid) (vec : List ℤ) (d : ℕ), vec.length = (M.invMonoms d).length ∧
      M.arraylize (M.invarraylize vec d) false ≠ vec := by
  refine ⟨⟨2, [[0,1]], true⟩, ?_, [0,0], 1, ?_, ?_⟩
  · exact ⟨by decide, by decide, by decide, by decide, by decide⟩
  · decide +kernel
  · decide +kernel

/-- With a homogeneous manager the lower-degree terms of an inhomogeneous polynomial are dropped without
an error: `a² + b` and `a²` give the same vector. -/
theorem arraylize_drops_lower_terms :
    ∃ (M : MonoMgr) (_ : M.Valid) (p q : List (List ℕ × ℤ)), IsPoly 2 p ∧ IsPoly 2 q ∧
      coeffAt p [0,1] ≠ coeffAt q [0,1] ∧ M.arraylize p false = M.arraylize q false := by
  refine ⟨⟨2, [[0,1]], true⟩, ⟨by decide, by decide, by decide, by decide, by decide⟩,
    [([2,0],1),([0,1],1)], [([2,0],1)], ⟨by decide, by decide, by decide⟩,
    ⟨by decide, by decide, by decide⟩, by decide, by decide +kernel⟩

/-! ## C04 -/

/-- The polynomial with its variables permuted by `g` (each exponent tuple `m` becomes `g(m)`). -/
def permutePoly (g : List ℕ) (p : List (List ℕ × K)) : List (List ℕ × K) :=
  p.map fun t => (papply g t.1, t.2)

/-- The coefficient of `m` in a list of terms, repeated exponent tuples being added up. -/
def coeffSum [AddCommMonoid K] (p : List (List ℕ × K)) (m : List ℕ) : K :=
  (p.map fun t => if t.1 = m then t.2 else 0).sum

theorem sum_map_comm {α β : Type*} [AddCommMonoid K] (l1 : List α) (l2 : List β) (f : α → β → K) :
    (l1.map fun a => (l2.map fun b => f a b).sum).sum = (l2.map fun b => (l1.map fun a => f a b).sum).sum := by
  induction l1 with
  | nil => simp
  | cons a l ih => simp only [List.map_cons, List.sum_cons, ih, List.sum_map_add]

/-- **C04.** Entry `i` of `arraylize(p, expand_cyc=True)` is the coefficient of the `i`-th representative
in the sum of `p` permuted by every group element; and the vector has one entry per representative. -/
theorem arraylize_expand_cyc [AddCommMonoid K] (M : MonoMgr) (p : List (List ℕ × K)) :
    (M.arraylize p true).length = (M.invMonoms (totalDegree M.nvars p)).length ∧
    ∀ i s, (M.invMonoms (totalDegree M.nvars p))[i]? = some s →
      (M.arraylize p true).getD i 0 = (M.elements.map fun g => coeffSum (permutePoly g p) s).sum := by
  have hrep : ∀ s, (M.elements.map fun g => coeffSum (permutePoly g (repTerms M.nvars p)) s).sum
      = (M.elements.map fun g => coeffSum (permutePoly g p) s).sum := by
    intro s
    unfold repTerms; cases p with
    | nil => simp [permutePoly, coeffSum]
    | cons a l => simp
  set d := totalDegree M.nvars p with hd
  have hb : ∀ t w, dget (M.dictMonoms d) t = some w →
      w < (List.replicate (M.dictMonoms d).length (0:K)).length := by
    intro t w hw; simpa using dictMonoms_lt M d t w hw
  constructor
  · unfold arraylize
    simp only [if_true, ← hd]
    have hlen : ∀ (ts : List (List ℕ × K)) (arr : List K),
        (ts.foldl (fun arr t => (M.permute t.1).foldl (addStep (M.dictMonoms d) t.2) arr) arr).length = arr.length := by
      intro ts
      induction ts with
      | nil => intro arr; rfl
      | cons t ts ih =>
        intro arr
        rw [List.foldl_cons, ih]
        generalize M.permute t.1 = ms
        induction ms generalizing arr with
        | nil => rfl
        | cons m ms ih2 => rw [List.foldl_cons, ih2]; unfold addStep; cases dget (M.dictMonoms d) m <;> simp
    rw [hlen, List.length_replicate]
    exact enumDict_length _ (invMonoms_nodup M d)
  · intro i s hi
    unfold arraylize
    simp only [if_true, ← hd]
    rw [(fold_add_outer M (M.dictMonoms d) s i ((dictMonoms_iff M d s i).2 hi) (by
      intro t ht
      rw [dictMonoms_iff, hi] at ht
      exact (Option.some.inj ht).symm) _ _ hb).1]
    have h0 : (List.replicate (M.dictMonoms d).length (0:K)).getD i 0 = 0 := by
      simp only [List.getD_eq_getElem?_getD, List.getElem?_replicate]
      split_ifs <;> simp
    rw [h0, zero_add, ← hrep s]
    unfold coeffSum permutePoly permute
    simp only [List.map_map, Function.comp_def]
    rw [sum_map_comm]

/-! Non-vacuity -/

/-- `a² + b² + c² - 2(ab+bc+ca)` for the cyclic group of order three. -/
def exSymPoly : List (List ℕ × ℤ) :=
  [([2,0,0],1),([1,1,0],-2),([1,0,1],-2),([0,2,0],1),([0,1,1],-2),([0,0,2],1)]

example : IsPoly 3 exSymPoly ∧ (⟨3, exC3, true⟩ : MonoMgr).arraylize exSymPoly false = [1, -2]
    ∧ (∀ t ∈ exSymPoly, t.1.sum = totalDegree 3 exSymPoly) :=
  ⟨⟨by decide, by decide, by decide⟩, by decide +kernel, by decide +kernel⟩
example : (⟨3, exC3, true⟩ : MonoMgr).arraylize [([0,2,1],(1:ℤ)),([1,0,2],1)] true = [0,2,0,0] := by
  decide +kernel

end MonoMgr
end Verif
