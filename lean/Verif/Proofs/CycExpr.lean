import Verif.Model.CycExpr
import Mathlib.Algebra.BigOperators.Group.List.Basic
import Mathlib.Data.List.Perm.Subperm
import Mathlib.Data.List.Infix
import Mathlib.Data.List.Nodup

/-! Helper lemmas about translations of symbols and groups of permutations (cyclic.py). -/

namespace Verif.Cyc

/-! ### translations -/

theorem tr_notin {s p : List ℕ} {x : ℕ} (h : x ∉ s) : tr s p x = x := by
  unfold tr
  rw [List.idxOf?_eq_none_iff.2 h]

theorem idxOf?_getElem {s : List ℕ} (hs : s.Nodup) {i : ℕ} (hi : i < s.length) : s.idxOf? s[i] = some i := by
  rw [List.idxOf?_eq_some_iff]
  refine ⟨hi, rfl, ?_⟩
  intro j hj hcon
  have := (List.Nodup.getElem_inj_iff hs).1 hcon
  omega

theorem tr_get {s p : List ℕ} (hs : s.Nodup) {i : ℕ} (hi : i < s.length) (hp : i < p.length)
    (hj : p[i] < s.length) : tr s p s[i] = s[p[i]] := by
  unfold tr
  rw [idxOf?_getElem hs hi]
  simp only [List.getElem?_eq_getElem hp, List.getElem?_eq_getElem hj, Option.getD_some]

theorem tr_mem {s p : List ℕ} {x : ℕ} (h : x ∈ s) : tr s p x ∈ s := by
  unfold tr
  rcases s.idxOf? x with _ | i
  · exact h
  · dsimp only
    rcases p[i]? with _ | j
    · exact h
    · dsimp only
      rcases hj : s[j]? with _ | y
      · simpa using h
      · simpa using List.mem_of_getElem? hj

theorem idxOf?_map {ρ : ℕ → ℕ} (hρ : Function.Injective ρ) (s : List ℕ) (x : ℕ) :
    (s.map ρ).idxOf? (ρ x) = s.idxOf? x := by
  induction s with
  | nil => rfl
  | cons y s ih =>
    rw [List.map_cons, List.idxOf?_cons, List.idxOf?_cons, ih]
    by_cases h : y = x
    · subst h; simp
    · have : ρ y ≠ ρ x := fun e => h (hρ e)
      simp [h, this]

theorem tr_map {ρ : ℕ → ℕ} (hρ : Function.Injective ρ) (s p : List ℕ) (x : ℕ) :
    tr (s.map ρ) p (ρ x) = ρ (tr s p x) := by
  unfold tr
  rw [idxOf?_map hρ]
  rcases s.idxOf? x with _ | i
  · rfl
  · dsimp only
    rcases p[i]? with _ | j
    · rfl
    · dsimp only
      rw [List.getElem?_map]
      rcases s[j]? with _ | y <;> rfl

theorem tr_range (s : List ℕ) (n : ℕ) (x : ℕ) : tr s (List.range n) x = x := by
  unfold tr
  rcases h : s.idxOf? x with _ | i
  · rfl
  · dsimp only
    obtain ⟨hi, hx, -⟩ := List.idxOf?_eq_some_iff.1 h
    by_cases hin : i < n
    · rw [List.getElem?_range hin]
      simp [List.getElem?_eq_getElem hi, hx]
    · rw [List.getElem?_eq_none (by simpa using hin)]

section Perm
variable {s : List ℕ} {G : PGrp}

/-- the group of a cyclic expression is a group of permutations, and its generators generate it -/
structure GrpOk (G : PGrp) : Prop where
  grp : IsPermGroup G.deg G.elems
  mem : ∀ g ∈ G.gens, g ∈ G.elems
  gen : ∀ p ∈ G.elems, ∃ l : List (List ℕ), (∀ g ∈ l, g ∈ G.gens) ∧ p = l.foldr papply (List.range G.deg)

theorem papply_getElem {p m : List ℕ} {i : ℕ} (hi : i < p.length) (hj : p[i] < m.length) :
    (papply p m)[i]'(by simpa [papply] using hi) = m[p[i]] := by
  simp only [papply, List.getElem_map]
  simp only [List.getD_eq_getElem?_getD, List.getElem?_eq_getElem hj, Option.getD_some]

theorem tr_comp (hG : IsPermGroup G.deg G.elems) (hs : s.Nodup) (hl : s.length = G.deg) {p q : List ℕ}
    (hp : p ∈ G.elems) (hq : q ∈ G.elems) (x : ℕ) : tr s p (tr s q x) = tr s (papply q p) x := by
  by_cases hx : x ∈ s
  · obtain ⟨i, hi, rfl⟩ := List.getElem_of_mem hx
    have hql : i < q.length := by rw [hG.length_eq hq, ← hl]; exact hi
    have hqi : q[i] < s.length := by rw [hl]; exact hG.lt_of_mem hq _ (List.getElem_mem hql)
    have hpl : q[i] < p.length := by rw [hG.length_eq hp, ← hl]; exact hqi
    have hpi : p[q[i]] < s.length := by rw [hl]; exact hG.lt_of_mem hp _ (List.getElem_mem hpl)
    have hqpl : i < (papply q p).length := by simpa [papply] using hql
    have he : (papply q p)[i] = p[q[i]] := papply_getElem hql hpl
    rw [tr_get hs hi hql hqi, tr_get hs hqi hpl hpi, tr_get hs hi hqpl (by rw [he]; exact hpi)]
    simp only [he]
  · rw [tr_notin hx, tr_notin hx, tr_notin hx]

theorem tr_injective (hG : IsPermGroup G.deg G.elems) (hs : s.Nodup) (hl : s.length = G.deg) {p : List ℕ}
    (hp : p ∈ G.elems) : Function.Injective (tr s p) := by
  obtain ⟨q, hq, h1, -⟩ := hG.inv p hp
  intro x y hxy
  have hx := tr_comp hG hs hl hq hp x
  have hy := tr_comp hG hs hl hq hp y
  rw [h1, tr_range] at hx hy
  rw [← hx, ← hy, hxy]

theorem mulLeft_perm (hG : IsPermGroup G.deg G.elems) {q : List ℕ} (hq : q ∈ G.elems) :
    (G.elems.map fun p => papply q p).Perm G.elems := by
  have hinj : ∀ p ∈ G.elems, ∀ p' ∈ G.elems, papply q p = papply q p' → p = p' := by
    intro p hp p' hp' h
    obtain ⟨r, hr, -, h2⟩ := hG.inv q hq
    have := congrArg (papply r) h
    rw [hG.papply_papply' hr hq, hG.papply_papply' hr hq, h2, IsPermGroup.papply_one (hG.length_eq hp),
      IsPermGroup.papply_one (hG.length_eq hp')] at this
    exact this
  have hnd : (G.elems.map fun p => papply q p).Nodup := List.Nodup.map_on hinj hG.nodup
  have hsub : (G.elems.map fun p => papply q p) ⊆ G.elems := by
    intro x hx
    obtain ⟨p, hp, rfl⟩ := List.mem_map.1 hx
    exact hG.mul q hq p hp
  exact (List.subperm_of_subset hnd hsub).perm_of_length_le (by simp)

theorem mulRight_perm (hG : IsPermGroup G.deg G.elems) {q : List ℕ} (hq : q ∈ G.elems) :
    (G.elems.map fun p => papply p q).Perm G.elems := by
  have hinj : ∀ p ∈ G.elems, ∀ p' ∈ G.elems, papply p q = papply p' q → p = p' := by
    intro p hp p' hp' h
    obtain ⟨r, hr, h2, -⟩ := hG.inv q hq
    have h := congrArg (fun t => papply t r) h
    rw [← hG.papply_papply' hp hq, ← hG.papply_papply' hp' hq, h2] at h
    have e1 : ∀ t ∈ G.elems, papply t (List.range G.deg) = t := by
      intro t ht
      apply List.ext_getElem
      · simp [papply]
      · intro i h1 h2
        have : t[i] < (List.range G.deg).length := by
          simpa using hG.lt_of_mem ht _ (List.getElem_mem h2)
        rw [papply_getElem h2 this]; simp
    rw [e1 p hp, e1 p' hp'] at h
    exact h
  have hnd : (G.elems.map fun p => papply p q).Nodup := List.Nodup.map_on hinj hG.nodup
  have hsub : (G.elems.map fun p => papply p q) ⊆ G.elems := by
    intro x hx
    obtain ⟨p, hp, rfl⟩ := List.mem_map.1 hx
    exact hG.mul p hp q hq
  exact (List.subperm_of_subset hnd hsub).perm_of_length_le (by simp)

theorem papply_range_right (hG : IsPermGroup G.deg G.elems) {t : List ℕ} (ht : t ∈ G.elems) :
    papply t (List.range G.deg) = t := by
  apply List.ext_getElem
  · simp [papply]
  · intro i h1 h2
    have : t[i] < (List.range G.deg).length := by
      simpa using hG.lt_of_mem ht _ (List.getElem_mem h2)
    rw [papply_getElem h2 this]; simp

theorem papply_nodup (hG : IsPermGroup G.deg G.elems) (hs : s.Nodup) (hl : s.length = G.deg) {x : List ℕ}
    (hx : x ∈ G.elems) : (papply x s).Nodup := (hG.papply_perm' hx hl).nodup_iff.2 hs

/-- translating by the image `x(symbols)` of the tuple is translating by the conjugated permutation -/
theorem tr_papply (hG : IsPermGroup G.deg G.elems) (hs : s.Nodup) (hl : s.length = G.deg) {x y p : List ℕ}
    (hx : x ∈ G.elems) (hy : y ∈ G.elems) (hyx : papply y x = List.range G.deg) (hp : p ∈ G.elems) (z : ℕ) :
    tr (papply x s) p z = tr s (papply y (papply p x)) z := by
  have hxs := papply_nodup hG hs hl hx
  have hxl : (papply x s).length = s.length := by simp [papply, hG.length_eq hx, hl]
  by_cases hz : z ∈ papply x s
  · obtain ⟨i, hi, rfl⟩ := List.getElem_of_mem hz
    have hi' : i < s.length := hxl ▸ hi
    have hil : i < x.length := by rw [hG.length_eq hx, ← hl]; exact hi'
    have hxi : x[i] < s.length := by rw [hl]; exact hG.lt_of_mem hx _ (List.getElem_mem hil)
    have hpl : i < p.length := by rw [hG.length_eq hp, ← hl]; exact hi'
    have hpi : p[i] < s.length := by rw [hl]; exact hG.lt_of_mem hp _ (List.getElem_mem hpl)
    rw [tr_get hxs hi hpl (by rw [hxl]; exact hpi)]
    have hpx : p[i] < x.length := by rw [hG.length_eq hx, ← hl]; exact hpi
    have hxpi : x[p[i]] < s.length := by rw [hl]; exact hG.lt_of_mem hx _ (List.getElem_mem hpx)
    rw [papply_getElem hpx hxpi]
    have e1 : (papply x s)[i] = s[x[i]] := papply_getElem hil hxi
    rw [e1]
    have hq : papply y (papply p x) ∈ G.elems := hG.mul _ hy _ (hG.mul _ hp _ hx)
    have hql : x[i] < (papply y (papply p x)).length := by rw [hG.length_eq hq, ← hl]; exact hxi
    have hyl : x[i] < y.length := by rw [hG.length_eq hy, ← hl]; exact hxi
    have hyi : y[x[i]] = i := by
      obtain ⟨y', hy', h1, h2⟩ := hG.inv x hx
      have hyy : y = y' := by
        have := congrArg (fun t => papply t y') hyx
        rw [← hG.papply_papply' hy hx, h1, papply_range_right hG hy,
          IsPermGroup.papply_one (hG.length_eq hy')] at this
        exact this
      subst hyy
      have h3 : (papply x y)[i]'(by simpa [papply] using hil) = y[x[i]] := papply_getElem hil hyl
      rw [← h3]
      simp [h1]
    have hyi' : y[x[i]] < (papply p x).length := by rw [hyi]; simpa [papply] using hpl
    have e2 : (papply y (papply p x))[x[i]] = x[p[i]] := by
      rw [papply_getElem hyl hyi']
      simp only [hyi]
      exact papply_getElem hpl hpx
    rw [tr_get hs hxi hql (by rw [e2]; exact hxpi)]
    simp only [e2]
  · rw [tr_notin hz, tr_notin]
    intro h
    exact hz ((hG.papply_perm' hx hl).mem_iff.2 h)

/-- the translations by `x(symbols)` are those by `symbols`, in another order -/
theorem tr_std_perm {β : Type*} (hG : IsPermGroup G.deg G.elems) (hs : s.Nodup) (hl : s.length = G.deg)
    {x : List ℕ} (hx : x ∈ G.elems) (f : (ℕ → ℕ) → β) :
    (G.elems.map fun p => f (tr (papply x s) p)).Perm (G.elems.map fun p => f (tr s p)) := by
  obtain ⟨y, hy, h1, h2⟩ := hG.inv x hx
  have e : (G.elems.map fun p => f (tr (papply x s) p)) =
      ((G.elems.map fun p => papply p x).map fun p => papply y p).map fun p => f (tr s p) := by
    rw [List.map_map, List.map_map]
    refine List.map_congr_left fun p hp => ?_
    dsimp only [Function.comp]
    congr 1
    funext z
    exact tr_papply hG hs hl hx hy h2 hp z
  rw [e]
  exact ((((mulRight_perm hG hx).map _).trans (mulLeft_perm hG hy)).map _)

end Perm

/-! ### the standard symbol tuple -/

theorem foldl_min_mem :
    ∀ (l : List (List ℕ)) (acc : Option (List ℕ)),
      (l.foldl minStep acc = none → l = [] ∧ acc = none) ∧
      ∀ m, l.foldl minStep acc = some m → m ∈ l ∨ acc = some m := by
  intro l
  induction l with
  | nil => intro acc; simp
  | cons y l ih =>
    intro acc
    rw [List.foldl_cons]
    obtain ⟨h1, h2⟩ := ih (minStep acc y)
    constructor
    · intro h
      have := (h1 h).2
      rcases acc with _ | a <;> simp [minStep] at this
    · intro m hm
      rcases h2 m hm with h | h
      · exact Or.inl (List.mem_cons_of_mem _ h)
      · rcases acc with _ | a
        · simp [minStep] at h; subst h; simp
        · simp only [minStep, Option.some.injEq] at h
          by_cases hya : y < a
          · rw [if_pos hya] at h; subst h; simp
          · rw [if_neg hya] at h; subst h; simp

/-- `_std_seq` returns one of the images of the symbol tuple under the group -/
theorem stdSeq_spec {s : List ℕ} {G : PGrp} (hG : IsPermGroup G.deg G.elems) (hl : s.length = G.deg) :
    ∃ x ∈ G.elems, stdSeq s G = papply x s := by
  unfold stdSeq
  dsimp only
  set ind := (List.range s.length).insertionSort (fun i j => s.getD i 0 ≤ s.getD j 0) with hind
  have hperm : ind.Perm (List.range s.length) := List.perm_insertionSort _ _
  set inv := (List.range s.length).map fun j => ind.idxOf j with hinv
  rcases hf : ((G.elems.map fun x => papply x inv).foldl minStep none) with _ | m
  · have := ((foldl_min_mem _ _).1 hf).1
    rw [List.map_eq_nil_iff] at this
    exact absurd hG.one (by rw [this]; simp)
  · rcases (foldl_min_mem _ _).2 m hf with h | h
    · obtain ⟨x, hx, rfl⟩ := List.mem_map.1 h
      refine ⟨x, hx, ?_⟩
      rw [Option.getD_some]
      unfold papply
      rw [List.map_map]
      refine List.map_congr_left fun j hj => ?_
      have hj' : j < s.length := by rw [hl]; exact hG.lt_of_mem hx j hj
      dsimp only [Function.comp]
      have hjm : j ∈ ind := hperm.mem_iff.2 (List.mem_range.2 hj')
      have e1 : inv.getD j default = ind.idxOf j := by
        rw [hinv]
        simp [List.getD_eq_getElem?_getD, hj']
      rw [e1]
      have hlt : ind.idxOf j < ind.length := List.idxOf_lt_length_iff.2 hjm
      have e2 : ind.getD (ind.idxOf j) 0 = j := by
        simp only [List.getD_eq_getElem?_getD, List.getElem?_eq_getElem hlt, Option.getD_some]
        exact List.getElem_idxOf hlt
      rw [e2]
      rfl
    · simp at h

/-! ### lists -/

theorem mapO_forall₂ {α β : Type*} {f : α → Option β} :
    ∀ {l : List α} {l' : List β}, mapO f l = some l' → List.Forall₂ (fun a b => f a = some b) l l' := by
  intro l
  induction l with
  | nil => intro l' h; simp [mapO] at h; subst h; exact .nil
  | cons a l ih =>
    intro l' h
    unfold mapO at h
    rcases hfa : f a with _ | b
    · rw [hfa] at h; simp at h
    · rw [hfa] at h
      rcases hfl : mapO f l with _ | bs
      · rw [hfl] at h; simp at h
      · rw [hfl] at h
        simp only [Option.some.injEq] at h
        subst h
        exact .cons hfa (ih hfl)

end Verif.Cyc
