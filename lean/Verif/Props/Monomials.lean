import Verif.Proofs.Monomials

/-!
# C01, C02: monomial enumeration and orbit representatives
-/

namespace Verif

/-! ## C01 -/

/-- **C01 (completeness and soundness).** `generate_partitions(nvars, degree)` contains a tuple iff it has
`nvars` entries whose sum is at most `degree` (equal to `degree` with `equal=True`). -/
theorem generatePartitions_mem (n d : ℕ) (t : List ℕ) :
    (t ∈ generatePartitions n d false ↔ t.length = n ∧ t.sum ≤ d) ∧
    (t ∈ generatePartitions n d true ↔ t.length = n ∧ t.sum = d) := by
  unfold generatePartitions
  by_cases hn : n = 0
  · subst hn
    constructor
    · simp only [if_true, or_true, List.mem_singleton, List.length_eq_zero_iff]
      constructor
      · rintro rfl; simp
      · exact fun h => h.1
    · by_cases hd : d = 0
      · simp only [hd, if_true, true_or, List.mem_singleton, List.length_eq_zero_iff]
        constructor
        · rintro rfl; simp
        · exact fun h => h.1
      · simp only [hd, if_true, false_or, Bool.true_eq_false, if_false, List.not_mem_nil,
          List.length_eq_zero_iff, false_iff]
        rintro ⟨rfl, h⟩
        exact hd (by simpa using h.symm)
  · simp only [hn, if_false, Bool.false_eq_true, if_true, List.mem_map]
    constructor
    · rw [mem_genTuples d n [] 0 t (by omega)]
      simp
    · constructor
      · rintro ⟨m, hm, rfl⟩
        obtain ⟨u, rfl, hu, hs⟩ := (mem_genTuples d (n-1) [] 0 m (by omega)).1 hm
        simp only [List.length_append, List.length_singleton, List.sum_append,
          List.sum_singleton]
        omega
      · rintro ⟨hl, hs⟩
        have hne : t ≠ [] := by rintro rfl; simp at hl; omega
        have ht := List.dropLast_concat_getLast hne
        refine ⟨t.dropLast, ?_, ?_⟩
        · rw [mem_genTuples d (n-1) [] 0 _ (by omega)]
          refine ⟨t.dropLast, by simp, by simp [hl], ?_⟩
          rw [← ht] at hs; simp only [List.sum_append, List.sum_singleton] at hs
          omega
        · have hs' := hs
          rw [← ht] at hs'; simp only [List.sum_append, List.sum_singleton] at hs'
          have : d - t.dropLast.sum = t.getLast hne := by omega
          rw [this, ht]

/-- **C01 (order).** The tuples come in strictly descending lexicographic order; in particular no
tuple is repeated. -/
theorem generatePartitions_sorted (n d : ℕ) (equal : Bool) :
    (generatePartitions n d equal).Pairwise (fun a b => b < a) := by
  unfold generatePartitions
  split_ifs
  · simp
  · simp
  · rw [List.pairwise_map]
    refine (List.Pairwise.and_mem.1 (genTuples_sorted d (n-1) [] 0 (by omega))).imp ?_
    rintro a b ⟨ha, hb, hab⟩
    obtain ⟨u, rfl, hu, -⟩ := (mem_genTuples d (n-1) [] 0 a (by omega)).1 ha
    obtain ⟨v, rfl, hv, -⟩ := (mem_genTuples d (n-1) [] 0 b (by omega)).1 hb
    exact append_lt_append_of_lt _ _ _ _ (by simp [hu, hv]) hab
  · exact genTuples_sorted d n [] 0 (by omega)

theorem generatePartitions_nodup (n d : ℕ) (equal : Bool) : (generatePartitions n d equal).Nodup :=
  (generatePartitions_sorted n d equal).imp (fun h => ne_of_gt h)

example : generatePartitions 3 2 true =
    [[2,0,0],[1,1,0],[1,0,1],[0,2,0],[0,1,1],[0,0,2]] := by decide

/-! ## C02 -/

namespace MonoMgr

/-- the degree condition of `inv_monoms(degree)` -/
def DegOk (M : MonoMgr) (d : ℕ) (m : List ℕ) : Prop := if M.hom then m.sum = d else m.sum ≤ d

/-- **C02 (standard_monom).** The standard monomial exists, belongs to the orbit, is shared by the whole
orbit (so it is its own standard monomial), and is the lexicographically largest element of the orbit. -/
theorem standardMonom_spec (M : MonoMgr) (hM : M.Valid) (m : List ℕ) (hm : m.length = M.nvars) :
    ∃ s, M.standardMonom m = some s ∧ (∃ p ∈ M.elements, s = papply p m) ∧
      (∀ p ∈ M.elements, M.standardMonom (papply p m) = some s) ∧
      M.standardMonom s = some s ∧ (∀ p ∈ M.elements, papply p m ≤ s) := by
  obtain ⟨s, hs⟩ := standard_exists hM hm
  have hmem := standard_mem hs
  refine ⟨s, hs, ?_, ?_, ?_, ?_⟩
  · unfold permute at hmem; rw [List.mem_map] at hmem
    obtain ⟨p, hp, rfl⟩ := hmem; exact ⟨p, hp, rfl⟩
  · intro p hp
    rw [standard_congr hM hm, hs]
    exact List.mem_map_of_mem hp
  · rw [standard_congr hM hm hmem, hs]
  · intro p hp
    exact ((pyMax_eq_some_iff _ _).1 hs).2 _ (List.mem_map_of_mem hp)

theorem mem_invMonoms (M : MonoMgr) (d : ℕ) (m : List ℕ) :
    m ∈ M.invMonoms d ↔ (m.length = M.nvars ∧ M.DegOk d m) ∧ M.standardMonom m = some m := by
  unfold invMonoms DegOk isStandardMonom
  rw [List.mem_filter, beq_iff_eq]
  cases M.hom with
  | true => simp [(generatePartitions_mem M.nvars d m).2]
  | false => simp [(generatePartitions_mem M.nvars d m).1]

/-- **C02 (one representative per orbit).** Every exponent tuple of the right degree has exactly one
element of its orbit in `inv_monoms(degree)`. -/
theorem invMonoms_existsUnique (M : MonoMgr) (hM : M.Valid) (d : ℕ) (m : List ℕ)
    (hm : m.length = M.nvars) (hd : M.DegOk d m) :
    ∃ s, (s ∈ M.invMonoms d ∧ ∃ p ∈ M.elements, s = papply p m) ∧
      ∀ t, (t ∈ M.invMonoms d ∧ ∃ p ∈ M.elements, t = papply p m) → t = s := by
  obtain ⟨s, hs, ⟨p, hp, hsp⟩, hall, hidem, -⟩ := standardMonom_spec M hM m hm
  refine ⟨s, ⟨?_, p, hp, hsp⟩, ?_⟩
  · rw [mem_invMonoms]
    have hmem := standard_mem hs
    refine ⟨⟨length_of_mem_permute hM hmem, ?_⟩, hidem⟩
    unfold DegOk at *
    rw [sum_of_mem_permute hM hm hmem]; exact hd
  · rintro t ⟨ht, q, hq, rfl⟩
    rw [mem_invMonoms] at ht
    have := hall q hq
    rw [ht.2] at this
    exact Option.some.inj this

/-- **C02.** `inv_monoms(degree)` has no repetitions and contains only tuples of the right shape. -/
theorem invMonoms_nodup (M : MonoMgr) (d : ℕ) : (M.invMonoms d).Nodup :=
  (generatePartitions_nodup _ _ _).filter _

/-- **C02 (dict_monoms inverts inv_monoms).** -/
theorem dictMonoms_iff (M : MonoMgr) (d : ℕ) (m : List ℕ) (i : ℕ) :
    dget (M.dictMonoms d) m = some i ↔ (M.invMonoms d)[i]? = some m :=
  dget_enumDict _ (invMonoms_nodup M d) m i

/-- **C02 (index).** `index(m)` is defined for every tuple of the right length; it is the position of the
representative of the orbit of `m`, so it agrees on a whole orbit and separates different orbits. -/
theorem index_spec (M : MonoMgr) (hM : M.Valid) (m : List ℕ) (hm : m.length = M.nvars) :
    ∃ i, M.index m = some i ∧ ∃ p ∈ M.elements, (M.invMonoms m.sum)[i]? = some (papply p m) := by
  obtain ⟨s, hs, ⟨p, hp, rfl⟩, hall, hidem, -⟩ := standardMonom_spec M hM m hm
  have hmem : papply p m ∈ M.invMonoms m.sum := by
    rw [mem_invMonoms]
    have hp' : papply p m ∈ M.permute m := List.mem_map_of_mem hp
    refine ⟨⟨length_of_mem_permute hM hp', ?_⟩, hidem⟩
    unfold DegOk; rw [sum_of_mem_permute hM hm hp']; split_ifs <;> simp
  obtain ⟨i, hi⟩ := List.mem_iff_getElem?.1 hmem
  refine ⟨i, ?_, p, hp, hi⟩
  unfold index
  rw [hs, Option.bind_some, dictMonoms_iff]; exact hi

/-- `index` identifies exactly the tuples in the same orbit (for tuples of equal degree). -/
theorem index_eq_iff (M : MonoMgr) (hM : M.Valid) (m m' : List ℕ) (hm : m.length = M.nvars)
    (hm' : m'.length = M.nvars) (hs : m.sum = m'.sum) :
    M.index m = M.index m' ↔ ∃ p ∈ M.elements, m' = papply p m := by
  constructor
  · intro h
    obtain ⟨i, hi, p, hp, hpi⟩ := index_spec M hM m hm
    obtain ⟨j, hj, q, hq, hqj⟩ := index_spec M hM m' hm'
    rw [hi, hj] at h
    have hij : i = j := Option.some.inj h
    subst hij
    rw [hs, hqj] at hpi
    have e : papply q m' = papply p m := Option.some.inj hpi
    obtain ⟨q', hq', -, h2⟩ := IsPermGroup.inv hM q hq
    refine ⟨papply q' p, IsPermGroup.mul hM q' hq' p hp, ?_⟩
    rw [← IsPermGroup.papply_papply' hM hq' hp, ← e, IsPermGroup.papply_papply' hM hq' hq, h2,
      IsPermGroup.papply_one hm']
  · rintro ⟨p, hp, rfl⟩
    unfold index
    rw [standard_congr hM hm (List.mem_map_of_mem hp), hs]

/-! ### The cache (histories of calls) -/

/-- run a history of `_register_monoms` calls -/
def registerMany (s : State) : List ℕ → State
  | [] => s
  | d :: ds => registerMany (register s d).2 ds

def CacheOk (s : State) : Prop :=
  ∀ d x, dget s.cache d = some x → x = (s.mgr.dictMonoms d, s.mgr.invMonoms d)

theorem register_ok (s : State) (h : CacheOk s) (d : ℕ) :
    (register s d).1 = (s.mgr.dictMonoms d, s.mgr.invMonoms d) ∧ CacheOk (register s d).2 ∧
      (register s d).2.mgr = s.mgr := by
  unfold register
  cases hc : dget s.cache d with
  | some x => exact ⟨h d x hc, h, rfl⟩
  | none =>
    refine ⟨rfl, ?_, rfl⟩
    intro d' x hx
    simp only [dget_dset] at hx
    split_ifs at hx with h1
    · subst h1; exact (Option.some.inj hx).symm
    · exact h d' x hx

/-- **C02 (history independence).** After any history of earlier calls on a fresh object,
`_register_monoms(d)` returns the same pair as a direct computation. -/
theorem register_history (M : MonoMgr) (hist : List ℕ) (d : ℕ) :
    (register (registerMany ⟨M, []⟩ hist) d).1 = (M.dictMonoms d, M.invMonoms d) := by
  have key : ∀ (hist : List ℕ) (s : State), CacheOk s →
      CacheOk (registerMany s hist) ∧ (registerMany s hist).mgr = s.mgr := by
    intro hist
    induction hist with
    | nil => intro s h; exact ⟨h, rfl⟩
    | cons a l ih =>
      intro s h
      obtain ⟨-, h2, h3⟩ := register_ok s h a
      obtain ⟨h4, h5⟩ := ih _ h2
      exact ⟨h4, h5.trans h3⟩
  obtain ⟨h1, h2⟩ := key hist ⟨M, []⟩ (by intro d x hx; simp [dget] at hx)
  obtain ⟨h3, -, -⟩ := register_ok _ h1 d
  rw [h3, h2]

end MonoMgr

/-! Non-vacuity: the cyclic group of order 3. -/

def exC3 : List (List ℕ) := [[0,1,2],[1,2,0],[2,0,1]]

theorem exC3_group : IsPermGroup 3 exC3 where
  nodup := by decide
  perm := by decide
  one := by decide
  mul := by decide
  inv := by decide

example : (⟨3, exC3, true⟩ : MonoMgr).Valid := exC3_group
example : (⟨3, exC3, true⟩ : MonoMgr).invMonoms 3 = [[3,0,0],[2,1,0],[2,0,1],[1,1,1]] := by decide +kernel
example : (⟨3, exC3, true⟩ : MonoMgr).index [0,2,1] = some 1 := by decide +kernel

end Verif
