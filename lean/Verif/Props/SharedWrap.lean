import Verif.Props.SharedSym
import Verif.Props.Shared

/-!
# C38: the constraint placeholders
-/

namespace Verif.Shared

open Verif Coeff MonoMgr

set_option linter.unusedSectionVars false

variable {K E : Type*} [DecidableEq K]

theorem invPerm_spec {n : ℕ} {p : List ℕ} (hp : p.Perm (List.range n)) :
    (invPerm p).Perm (List.range n) ∧ papply p (invPerm p) = List.range n ∧ papply (invPerm p) p = List.range n := by
  have hl : p.length = n := by simpa using hp.length_eq
  have hnd : p.Nodup := hp.nodup_iff.2 List.nodup_range
  have hlt : ∀ i ∈ p, i < n := fun i hi => by simpa using hp.mem_iff.1 hi
  have hmem : ∀ i, i < n → i ∈ p := fun i hi => hp.mem_iff.2 (by simpa using hi)
  unfold invPerm
  rw [hl]
  refine ⟨?_, ?_, ?_⟩
  · have hnd2 : ((List.range n).map fun i => p.idxOf i).Nodup := by
      rw [List.nodup_map_iff_inj_on List.nodup_range]
      intro a ha b hb hab
      have h1 := List.getElem_idxOf (List.idxOf_lt_length_of_mem (hmem a (by simpa using ha)))
      have h2 := List.getElem_idxOf (List.idxOf_lt_length_of_mem (hmem b (by simpa using hb)))
      rw [← h1, ← h2]
      congr 1
    refine (List.subperm_of_subset hnd2 ?_).perm_of_length_le (by simp)
    intro i hi
    obtain ⟨j, hj, rfl⟩ := List.mem_map.1 hi
    rw [List.mem_range, ← hl]
    exact List.idxOf_lt_length_of_mem (hmem j (by simpa using hj))
  · unfold papply
    apply List.ext_getElem (by simp [hl])
    intro i h1 h2
    have hi : i < p.length := by simpa using h1
    rw [List.getElem_map, List.getElem_range, List.getD_eq_getElem?_getD, List.getElem?_map, List.getElem?_range (hlt _ (List.getElem_mem hi))]
    simp only [Option.map_some, Option.getD_some]
    exact hnd.idxOf_getElem i hi
  · unfold papply
    rw [List.map_map]
    conv_rhs => rw [← List.map_id (List.range n)]
    apply List.map_congr_left
    intro i hi
    have h1 := List.idxOf_lt_length_of_mem (hmem i (by simpa using hi))
    simp only [Function.comp, id]
    rw [List.getD_eq_getElem?_getD, List.getElem?_eq_getElem h1, Option.getD_some, List.getElem_idxOf]

theorem perm_inv_unique {n : ℕ} {p q : List ℕ} (hp : p.Perm (List.range n)) (hq : q.Perm (List.range n))
    (h : papply p q = List.range n) : q = invPerm p := by
  obtain ⟨hi, h3, h4⟩ := invPerm_spec hp
  have h5 : papply (invPerm p) (papply p q) = papply (papply (invPerm p) p) q := papply_papply_perm hi hp q
  rw [h, h4] at h5
  have hq1 : papply (List.range n) q = q := IsPermGroup.papply_one (by simpa using hq.length_eq)
  have hp1 : papply (invPerm p) (List.range n) = invPerm p := by
    unfold papply
    conv_rhs => rw [← List.map_id (invPerm p)]
    apply List.map_congr_left
    intro i hi'
    have : i < n := by simpa using hi.mem_iff.1 hi'
    rw [List.getD_eq_getElem?_getD, List.getElem?_range this]; rfl
  rw [hp1, hq1] at h5
  exact h5.symm

theorem invPerm_mem {n : ℕ} {G : List (List ℕ)} (hG : IsPermGroup n G) {g : List ℕ} (hg : g ∈ G) : invPerm g ∈ G := by
  obtain ⟨q, hq, h1, _⟩ := hG.inv g hg
  rw [← perm_inv_unique (hG.perm g hg) (hG.perm q hq) h1]; exact hq

theorem invPerm_papply {n : ℕ} {g h : List ℕ} (hg : g.Perm (List.range n)) (hh : h.Perm (List.range n)) :
    invPerm (papply g h) = papply (invPerm h) (invPerm g) := by
  obtain ⟨gi, g1, g2⟩ := invPerm_spec hg
  obtain ⟨hi, h1, h2⟩ := invPerm_spec hh
  symm
  apply perm_inv_unique (perm_papply hg hh) (perm_papply hi gi)
  rw [← papply_papply_perm hg hh, papply_papply_perm hh hi, h1, IsPermGroup.papply_one (by simpa using gi.length_eq), g1]

/-! ### The placeholder determines the permuted constraint -/

theorem maskArgs_inj : ∀ (dl g h : List ℕ), g.length = dl.length → h.length = dl.length → maskArgs g dl = maskArgs h dl →
    ∀ j, dl.getD j 0 ≠ 0 → g.getD j 0 = h.getD j 0
  | [], _, _, _, _, _, j, hj => by simp at hj
  | d :: dl, [], _, hg, _, _, _, _ => by simp at hg
  | d :: dl, _ :: _, [], _, hh, _, _, _ => by simp at hh
  | d :: dl, a :: g, b :: h, hg, hh, he, j, hj => by
    have hg' : g.length = dl.length := by simpa using hg
    have hh' : h.length = dl.length := by simpa using hh
    unfold maskArgs at he
    simp only [List.zip_cons_cons] at he
    by_cases hd : d = 0
    · rw [List.filter_cons_of_neg (by simpa using hd), List.filter_cons_of_neg (by simpa using hd)] at he
      cases j with
      | zero => simp [hd] at hj
      | succ j => simpa using maskArgs_inj dl g h hg' hh' he j (by simpa using hj)
    · rw [List.filter_cons_of_pos (by simpa using hd), List.filter_cons_of_pos (by simpa using hd)] at he
      simp only [List.map_cons, List.cons.injEq] at he
      cases j with
      | zero => simpa using he.1
      | succ j => simpa using maskArgs_inj dl g h hg' hh' he.2 j (by simpa using hj)

theorem degreeList_getD (n : ℕ) (p : Terms K) (j : ℕ) (hj : j < n) (t : List ℕ × K) (ht : t ∈ p) :
    t.1.getD j 0 ≤ (degreeList n p).getD j 0 := by
  unfold degreeList
  rw [List.getD_eq_getElem?_getD (l := List.map _ _), List.getElem?_map, List.getElem?_range hj]
  simp only [Option.map_some, Option.getD_some]
  exact (foldl_max_le _ 0).1 _ (List.mem_map.2 ⟨t, ht, rfl⟩)

theorem idxOf_of_getD {n : ℕ} {g : List ℕ} (hg : g.Perm (List.range n)) {i j : ℕ} (hj : j < n) (h : g.getD j 0 = i) : g.idxOf i = j := by
  have hl : g.length = n := by simpa using hg.length_eq
  have hnd : g.Nodup := hg.nodup_iff.2 List.nodup_range
  rw [List.getD_eq_getElem?_getD, List.getElem?_eq_getElem (by omega), Option.getD_some] at h
  rw [← h]
  exact hnd.idxOf_getElem j _

theorem getD_idxOf {n : ℕ} {g : List ℕ} (hg : g.Perm (List.range n)) {i : ℕ} (hi : i < n) : g.idxOf i < n ∧ g.getD (g.idxOf i) 0 = i := by
  have hl : g.length = n := by simpa using hg.length_eq
  have h1 := List.idxOf_lt_length_of_mem (hg.mem_iff.2 (by simpa using hi) : i ∈ g)
  refine ⟨by omega, ?_⟩
  rw [List.getD_eq_getElem?_getD, List.getElem?_eq_getElem h1, Option.getD_some, List.getElem_idxOf]

theorem papply_inv_congr {n : ℕ} {g h : List ℕ} (hg : g.Perm (List.range n)) (hh : h.Perm (List.range n)) (m : List ℕ)
    (hj : ∀ j, j < n → m.getD j 0 ≠ 0 → g.getD j 0 = h.getD j 0) : papply (invPerm g) m = papply (invPerm h) m := by
  have lg : g.length = n := by simpa using hg.length_eq
  have lh : h.length = n := by simpa using hh.length_eq
  unfold papply invPerm
  rw [List.map_map, List.map_map, lg, lh]
  apply List.map_congr_left
  intro i hi
  have hi : i < n := by simpa using hi
  simp only [Function.comp]
  change m.getD (g.idxOf i) 0 = m.getD (h.idxOf i) 0
  obtain ⟨a1, a2⟩ := getD_idxOf hg hi
  obtain ⟨b1, b2⟩ := getD_idxOf hh hi
  by_cases h1 : m.getD (g.idxOf i) 0 = 0
  · by_cases h2 : m.getD (h.idxOf i) 0 = 0
    · rw [h1, h2]
    · have := hj _ b1 h2
      rw [b2] at this
      rw [idxOf_of_getD hg b1 this]
  · have := hj _ a1 h1
    rw [a2] at this
    rw [idxOf_of_getD hh a1 this.symm]

/-- Equal placeholders of one constraint stand for equal polynomials. -/
theorem mask_determines {n : ℕ} {g h : List ℕ} (hg : g.Perm (List.range n)) (hh : h.Perm (List.range n)) (base : Terms K)
    (he : maskArgs g (degreeList n base) = maskArgs h (degreeList n base)) :
    permRep (invPerm g) base.toFinset = permRep (invPerm h) base.toFinset := by
  unfold permRep
  apply Finset.image_congr
  intro t ht
  have ht : t ∈ base := by simpa using ht
  simp only
  rw [papply_inv_congr hg hh t.1]
  intro j hj hne
  have hl : (degreeList n base).length = n := by simp [degreeList]
  apply maskArgs_inj (degreeList n base) g h (by rw [hl]; simpa using hg.length_eq) (by rw [hl]; simpa using hh.length_eq) he j
  have := degreeList_getD n base j hj t ht
  omega

/-! ### The loop over the group -/

/-- What the inner loop has done after the elements `H`. -/
structure Inner (n : ℕ) (repDict : List (Rep K × E)) (base : Terms K) (s s' : WrapSt K E) (H : List (List ℕ)) : Prop where
  counter : s'.counter = s.counter
  dt : ∀ q ph, dget s'.dt q = some ph → dget s.dt q = some ph ∨
    ∃ g ∈ H, q = permRep (invPerm g) base.toFinset ∧ ph = (s.counter, maskArgs g (degreeList n base))
  dtSome : ∀ g ∈ H, (dget s'.dt (permRep (invPerm g) base.toFinset)).isSome
  dtKeep : ∀ q, (dget s.dt q).isSome → (dget s'.dt q).isSome
  inv : ∀ g ∈ H, ∃ e, dget repDict (permRep (invPerm g) base.toFinset) = some e ∧
    dget s'.inv (s.counter, maskArgs g (degreeList n base)) = some e
  invKeep : ∀ ph : Placeholder, ph.1 ≠ s.counter → dget s'.inv ph = dget s.inv ph
  invOnly : ∀ args, dget s'.inv (s.counter, args) = dget s.inv (s.counter, args) ∨ ∃ g ∈ H, args = maskArgs g (degreeList n base)

theorem wrapStep_error (repDict : List (Rep K × E)) (dl : List ℕ) (base : Rep K) (e : PyErr) (G : List (List ℕ)) :
    G.foldl (wrapStep repDict dl base) (.error e) = .error e := by
  induction G with
  | nil => rfl
  | cons g G ih => rw [List.foldl_cons]; exact ih

theorem inner_loop {n : ℕ} (repDict : List (Rep K × E)) (base : Terms K) (s : WrapSt K E) (G : List (List ℕ))
    (hG : ∀ g ∈ G, g.Perm (List.range n)) :
    (∃ s', G.foldl (wrapStep repDict (degreeList n base) base.toFinset) (.ok s) = .ok s' ∧ Inner n repDict base s s' G) ∨
    (G.foldl (wrapStep repDict (degreeList n base) base.toFinset) (.ok s) = .error .valueError ∧
      ∃ g ∈ G, dget repDict (permRep (invPerm g) base.toFinset) = none) := by
  induction G using List.reverseRecOn with
  | nil =>
    left
    exact ⟨s, rfl, ⟨rfl, fun q ph h => Or.inl h, by simp, fun q h => h, by simp, fun _ _ => rfl, fun _ => Or.inl rfl⟩⟩
  | append_singleton G g ih =>
    rw [List.foldl_append]
    rcases ih (fun x hx => hG x (List.mem_append_left _ hx)) with ⟨s', h1, hI⟩ | ⟨h1, x, hx, h2⟩
    · rw [h1, List.foldl_cons, List.foldl_nil]
      have hgp := hG g (by simp)
      unfold wrapStep
      simp only
      rcases hd : dget repDict (permRep (invPerm g) base.toFinset) with _ | e
      · right; exact ⟨rfl, g, by simp, hd⟩
      · left
        refine ⟨_, rfl, ⟨hI.counter, ?_, ?_, ?_, ?_, ?_, ?_⟩⟩
        · intro q ph h
          simp only at h
          rw [dget_dset] at h
          by_cases hq : permRep (invPerm g) base.toFinset = q
          · rw [if_pos hq] at h
            right
            exact ⟨g, by simp, hq.symm, by rw [← Option.some.inj h, hI.counter]⟩
          · rw [if_neg hq] at h
            rcases hI.dt q ph h with h | ⟨x, hx, h⟩
            · exact Or.inl h
            · exact Or.inr ⟨x, List.mem_append_left _ hx, h⟩
        · intro x hx
          simp only
          rw [dget_dset]
          by_cases hq : permRep (invPerm g) base.toFinset = permRep (invPerm x) base.toFinset
          · rw [if_pos hq]; rfl
          · rw [if_neg hq]
            rcases List.mem_append.1 hx with hx | hx
            · exact hI.dtSome x hx
            · rw [List.mem_singleton] at hx; subst hx; exact absurd rfl hq
        · intro q hq
          simp only
          rw [dget_dset]
          by_cases h : permRep (invPerm g) base.toFinset = q
          · rw [if_pos h]; rfl
          · rw [if_neg h]; exact hI.dtKeep q hq
        · intro x hx
          simp only
          rw [dget_dset, hI.counter]
          by_cases hm : (s.counter, maskArgs g (degreeList n base)) = (s.counter, maskArgs x (degreeList n base))
          · rw [if_pos hm]
            have hxp := hG x hx
            have := mask_determines hgp hxp base (Prod.mk.inj hm).2
            exact ⟨e, by rw [← this]; exact hd, rfl⟩
          · rw [if_neg hm]
            rcases List.mem_append.1 hx with hx | hx
            · exact hI.inv x hx
            · rw [List.mem_singleton] at hx; subst hx; exact absurd rfl hm
        · intro ph hph
          simp only
          rw [dget_dset, hI.counter, if_neg (fun h => hph (by rw [← h]))]
          exact hI.invKeep ph hph
        · intro args
          simp only
          rw [dget_dset, hI.counter]
          by_cases hm : (s.counter, maskArgs g (degreeList n base)) = (s.counter, args)
          · right; exact ⟨g, by simp, (Prod.mk.inj hm).2.symm⟩
          · rw [if_neg hm]
            rcases hI.invOnly args with h | ⟨x, hx, h⟩
            · exact Or.inl h
            · exact Or.inr ⟨x, List.mem_append_left _ hx, h⟩
    · right
      rw [h1]
      refine ⟨rfl, x, List.mem_append_left _ hx, h2⟩

/-! ### The loop over the constraints -/

/-- What the outer loop has done after the constraints `Ps`, of which `Bs` were not yet covered by an earlier orbit. -/
structure Outer (n : ℕ) (G : List (List ℕ)) (repDict : List (Rep K × E)) (Ps Bs : List (Terms K)) (s : WrapSt K E) : Prop where
  counter : s.counter = Bs.length
  sub : ∀ b ∈ Bs, b ∈ Ps
  dt : ∀ q ph, dget s.dt q = some ph → ∃ b, Bs[ph.1]? = some b ∧ ∃ g ∈ G, q = permRep (invPerm g) b.toFinset ∧ ph.2 = maskArgs g (degreeList n b)
  dtSome : ∀ b ∈ Ps, (dget s.dt b.toFinset).isSome
  inv : ∀ (k : ℕ) b, Bs[k]? = some b → ∀ g ∈ G, ∃ e, dget repDict (permRep (invPerm g) b.toFinset) = some e ∧
    dget s.inv (k, maskArgs g (degreeList n b)) = some e
  invOnly : ∀ ph, (dget s.inv ph).isSome → ∃ b, Bs[ph.1]? = some b ∧ ∃ g ∈ G, ph.2 = maskArgs g (degreeList n b)

theorem repArity_toFinset {n : ℕ} {b : Terms K} (h : ∀ t ∈ b, t.1.length = n) : RepArity n b.toFinset := by
  intro t ht; exact h t (by simpa using ht)

theorem outer_loop {n : ℕ} {G : List (List ℕ)} (hG : IsPermGroup n G) (repDict : List (Rep K × E)) (Ps : List (Terms K))
    (har : ∀ b ∈ Ps, ∀ t ∈ b, t.1.length = n) :
    (∃ s Bs, Ps.foldl (wrapBase n G repDict) (.ok ⟨[], [], 0⟩) = .ok s ∧ Outer n G repDict Ps Bs s) ∨
    (Ps.foldl (wrapBase n G repDict) (.ok ⟨[], [], 0⟩) = .error .valueError ∧
      ∃ b ∈ Ps, ∃ g ∈ G, dget repDict (permRep (invPerm g) b.toFinset) = none) := by
  have hinv1 : invPerm (List.range n) = List.range n :=
    (perm_inv_unique (List.Perm.refl _) (List.Perm.refl _) (IsPermGroup.papply_one (by simp))).symm
  induction Ps using List.reverseRecOn with
  | nil =>
    left
    refine ⟨_, [], rfl, ⟨rfl, by simp, ?_, by simp, by simp, ?_⟩⟩
    · intro q ph h; simp [dget] at h
    · intro ph h; simp [dget] at h
  | append_singleton Ps b ih =>
    rw [List.foldl_append]
    rcases ih (fun x hx => har x (List.mem_append_left _ hx)) with ⟨s, Bs, h1, hO⟩ | ⟨h1, x, hx, h2⟩
    · rw [h1, List.foldl_cons, List.foldl_nil]
      unfold wrapBase
      simp only
      by_cases hd : (dget s.dt b.toFinset).isSome = true
      · rw [if_pos hd]
        left
        refine ⟨s, Bs, rfl, ⟨hO.counter, fun c hc => List.mem_append_left _ (hO.sub c hc), hO.dt, ?_, hO.inv, hO.invOnly⟩⟩
        intro c hc
        rcases List.mem_append.1 hc with hc | hc
        · exact hO.dtSome c hc
        · rw [List.mem_singleton] at hc; subst hc; exact hd
      · rw [if_neg hd]
        rcases inner_loop (n := n) repDict b s G hG.perm with ⟨s', h3, hI⟩ | ⟨h3, g, hg, h4⟩
        · rw [h3]
          left
          have hlast : (Bs ++ [b])[s.counter]? = some b := by rw [hO.counter]; simp
          have hold : ∀ (k : ℕ) c, Bs[k]? = some c → (Bs ++ [b])[k]? = some c ∧ k ≠ s.counter := by
            intro k c hk
            have hlt := (List.getElem?_eq_some_iff.1 hk).1
            exact ⟨by rw [List.getElem?_append_left hlt]; exact hk, by rw [hO.counter]; omega⟩
          refine ⟨_, Bs ++ [b], rfl, ⟨?_, ?_, ?_, ?_, ?_, ?_⟩⟩
          · simp only; rw [hI.counter, hO.counter]; simp
          · intro c hc
            rcases List.mem_append.1 hc with hc | hc
            · exact List.mem_append_left _ (hO.sub c hc)
            · exact List.mem_append_right _ hc
          · intro q ph h
            rcases hI.dt q ph h with h | ⟨g, hg, hq, hph⟩
            · obtain ⟨c, hc, g, hg, h5⟩ := hO.dt q ph h
              exact ⟨c, (hold _ c hc).1, g, hg, h5⟩
            · refine ⟨b, by rw [hph]; exact hlast, g, hg, hq, by rw [hph]⟩
          · intro c hc
            simp only
            rcases List.mem_append.1 hc with hc | hc
            · exact hI.dtKeep _ (hO.dtSome c hc)
            · rw [List.mem_singleton] at hc; subst hc
              have := hI.dtSome _ hG.one
              rwa [hinv1, permRep_one (repArity_toFinset (har c (by simp)))] at this
          · intro k c hk g hg
            simp only
            by_cases hkc : k < Bs.length
            · rw [List.getElem?_append_left hkc] at hk
              rw [hI.invKeep _ (hold k c hk).2]
              exact hO.inv k c hk g hg
            · have hlt := (List.getElem?_eq_some_iff.1 hk).1
              have hke : k = s.counter := by rw [hO.counter]; simp at hlt; omega
              subst hke
              rw [hlast] at hk
              have := Option.some.inj hk
              subst this
              exact hI.inv g hg
          · intro ph h
            simp only at h
            by_cases hk : ph.1 = s.counter
            · rcases hI.invOnly ph.2 with h5 | ⟨g, hg, h5⟩
              · rw [← hk] at h5
                rw [h5] at h
                obtain ⟨c, hc, h6⟩ := hO.invOnly _ h
                exact absurd hk (hold _ c hc).2
              · exact ⟨b, by rw [hk]; exact hlast, g, hg, h5⟩
            · rw [hI.invKeep ph hk] at h
              obtain ⟨c, hc, h6⟩ := hO.invOnly _ h
              exact ⟨c, (hold _ c hc).1, h6⟩
        · rw [h3]
          right
          exact ⟨rfl, b, by simp, g, hg, h4⟩
    · right
      rw [h1]
      exact ⟨rfl, x, List.mem_append_left _ hx, h2⟩

theorem maskArgs_map (g h dl : List ℕ) : (maskArgs g dl).map (fun i => h.getD i 0) = maskArgs (papply g h) dl := by
  unfold maskArgs papply
  rw [List.zip_map_right, List.filter_map, List.map_map, List.map_map]
  rfl

/-- **C38.** Replacing the placeholder of a constraint gives back exactly the user's expression of it, and permuting the arguments of the
placeholder by a group element gives the user's expression of the permuted constraint. -/
theorem wrap_sound {n : ℕ} {G : List (List ℕ)} (hG : IsPermGroup n G) (constraints : List (Terms K × E))
    (har : ∀ c ∈ constraints, ∀ t ∈ c.1, t.1.length = n) (hnd : (constraints.map fun c => c.1.toFinset).Nodup)
    (s : WrapSt K E) (h : wrapConstraints n G constraints = .ok s) (c : Terms K × E) (hc : c ∈ constraints) :
    ∃ ph, dget s.dt c.1.toFinset = some ph ∧ dget s.inv ph = some c.2 ∧
      ∀ g ∈ G, ∃ c' ∈ constraints, c'.1.toFinset = permRep (invPerm g) c.1.toFinset ∧
        dget s.inv (ph.1, ph.2.map fun i => g.getD i 0) = some c'.2 := by
  unfold wrapConstraints at h
  have hrk : (dkeys (constraints.map fun pe => (pe.1.toFinset, pe.2))).Nodup := by
    unfold dkeys; rw [List.map_map]; exact hnd
  have hrep : ∀ q e, dget (dictOf (constraints.map fun pe => (pe.1.toFinset, pe.2))) q = some e → ∃ c' ∈ constraints, c'.1.toFinset = q ∧ c'.2 = e := by
    intro q e he
    rw [dget_dictOf_of_nodup _ hrk, dget_eq_some_iff _ hrk] at he
    obtain ⟨c', hc', he⟩ := List.mem_map.1 he
    exact ⟨c', hc', (Prod.mk.inj he).1, (Prod.mk.inj he).2⟩
  have har' : ∀ b ∈ constraints.map Prod.fst, ∀ t ∈ b, t.1.length = n := by
    intro b hb t ht
    obtain ⟨c', hc', rfl⟩ := List.mem_map.1 hb
    exact har c' hc' t ht
  rcases outer_loop hG (dictOf (constraints.map fun pe => (pe.1.toFinset, pe.2))) (constraints.map Prod.fst) har' with ⟨s', Bs, h1, hO⟩ | ⟨h1, _⟩
  · simp only at h
    rw [h1] at h
    have := Except.ok.inj h
    subst this
    obtain ⟨ph, hph⟩ := Option.isSome_iff_exists.1 (hO.dtSome c.1 (List.mem_map.2 ⟨c, hc, rfl⟩))
    obtain ⟨b, hb, g0, hg0, hq, hargs⟩ := hO.dt _ _ hph
    have hbar := har' b (hO.sub b (List.mem_of_getElem? hb))
    refine ⟨ph, hph, ?_, ?_⟩
    · obtain ⟨e, he1, he2⟩ := hO.inv ph.1 b hb g0 hg0
      rw [← hargs] at he2
      rw [← hq, dget_dictOf_of_nodup _ hrk, (dget_eq_some_iff _ hrk _ c.2).2 (List.mem_map.2 ⟨c, hc, rfl⟩)] at he1
      rw [Option.some.inj he1]
      exact he2
    · intro g hg
      obtain ⟨e, he1, he2⟩ := hO.inv ph.1 b hb (papply g0 g) (hG.mul g0 hg0 g hg)
      rw [invPerm_papply (hG.perm g0 hg0) (hG.perm g hg), permRep_mul (hG.perm _ (invPerm_mem hG hg)) (hG.perm _ (invPerm_mem hG hg0)), ← hq] at he1
      obtain ⟨c', hc', h3, h4⟩ := hrep _ _ he1
      refine ⟨c', hc', h3, ?_⟩
      rw [h4, hargs, maskArgs_map]
      exact he2
  · simp only at h
    rw [h1] at h; cases h

/-- **C38.** Nothing else is replaced: every placeholder known to the inverse dictionary comes from a constraint. -/
theorem wrap_only {n : ℕ} {G : List (List ℕ)} (hG : IsPermGroup n G) (constraints : List (Terms K × E))
    (har : ∀ c ∈ constraints, ∀ t ∈ c.1, t.1.length = n)
    (s : WrapSt K E) (h : wrapConstraints n G constraints = .ok s) (ph : Placeholder) (e : E) (hph : dget s.inv ph = some e) :
    ∃ c ∈ constraints, c.2 = e := by
  unfold wrapConstraints at h
  have har' : ∀ b ∈ constraints.map Prod.fst, ∀ t ∈ b, t.1.length = n := by
    intro b hb t ht
    obtain ⟨c', hc', rfl⟩ := List.mem_map.1 hb
    exact har c' hc' t ht
  rcases outer_loop hG (dictOf (constraints.map fun pe => (pe.1.toFinset, pe.2))) (constraints.map Prod.fst) har' with ⟨s', Bs, h1, hO⟩ | ⟨h1, _⟩
  · simp only at h
    rw [h1] at h
    have := Except.ok.inj h
    subst this
    obtain ⟨b, hb, g, hg, ha⟩ := hO.invOnly ph (by rw [hph]; rfl)
    obtain ⟨e', he1, he2⟩ := hO.inv ph.1 b hb g hg
    rw [← ha] at he2
    have : e' = e := by
      have h5 : dget s'.inv (ph.1, ph.2) = some e := hph
      rw [he2] at h5; exact Option.some.inj h5
    rw [← this]
    have hm := (dget_eq_some_iff _ (dkeys_nodup_dictOf _) _ _).1 he1
    obtain ⟨c', hc', he⟩ := List.mem_map.1 (mem_dictOf _ _ hm)
    exact ⟨c', hc', (Prod.mk.inj he).2⟩
  · simp only at h
    rw [h1] at h; cases h

/-- **C38.** `ValueError` is raised exactly for constraint sets that some group element does not map to themselves; no other error
occurs. -/
theorem wrap_error_iff {n : ℕ} {G : List (List ℕ)} (hG : IsPermGroup n G) (constraints : List (Terms K × E))
    (har : ∀ c ∈ constraints, ∀ t ∈ c.1, t.1.length = n) (e : PyErr) :
    wrapConstraints n G constraints = .error e ↔
      e = .valueError ∧ ∃ c ∈ constraints, ∃ g ∈ G, ∀ c' ∈ constraints, c'.1.toFinset ≠ permRep g c.1.toFinset := by
  unfold wrapConstraints
  have har' : ∀ b ∈ constraints.map Prod.fst, ∀ t ∈ b, t.1.length = n := by
    intro b hb t ht
    obtain ⟨c', hc', rfl⟩ := List.mem_map.1 hb
    exact har c' hc' t ht
  have hnone : ∀ q, dget (dictOf (constraints.map fun pe => (pe.1.toFinset, pe.2))) q = none ↔ ∀ c' ∈ constraints, c'.1.toFinset ≠ q := by
    intro q
    rw [dget_dictOf, dget_eq_none_iff]
    unfold dkeys
    rw [List.map_reverse, List.mem_reverse, List.map_map, List.mem_map]
    push Not
    rfl
  have hii : ∀ g ∈ G, invPerm (invPerm g) = g := by
    intro g hg
    exact (perm_inv_unique (hG.perm _ (invPerm_mem hG hg)) (hG.perm g hg) (invPerm_spec (hG.perm g hg)).2.2).symm
  rcases outer_loop hG (dictOf (constraints.map fun pe => (pe.1.toFinset, pe.2))) (constraints.map Prod.fst) har' with ⟨s', Bs, h1, hO⟩ | ⟨h1, b, hb, g, hg, h2⟩
  · simp only
    rw [h1]
    constructor
    · intro h; cases h
    · rintro ⟨-, c, hc, g, hg, hall⟩
      exfalso
      obtain ⟨ph, hph⟩ := Option.isSome_iff_exists.1 (hO.dtSome c.1 (List.mem_map.2 ⟨c, hc, rfl⟩))
      obtain ⟨b, hb, g0, hg0, hq, -⟩ := hO.dt _ _ hph
      have hgi := invPerm_mem hG hg
      obtain ⟨e', he1, -⟩ := hO.inv ph.1 b hb (papply g0 (invPerm g)) (hG.mul g0 hg0 _ hgi)
      rw [invPerm_papply (hG.perm g0 hg0) (hG.perm _ hgi), hii g hg, permRep_mul (hG.perm g hg) (hG.perm _ (invPerm_mem hG hg0)), ← hq,
        (hnone _).2 hall] at he1
      cases he1
  · simp only
    rw [h1]
    obtain ⟨c, hc, rfl⟩ := List.mem_map.1 hb
    constructor
    · intro h
      refine ⟨by injection h with h; exact h.symm, c, hc, invPerm g, invPerm_mem hG hg, (hnone _).1 h2⟩
    · rintro ⟨rfl, -⟩; rfl

/-- Three symmetric constraints `a + b ≥ 0, b + c ≥ 0, c + a ≥ 0`, group of rotations: one counter, the placeholders carry two arguments. -/
example : (wrapConstraints 3 exC3 [([([1,0,0],(1:ℤ)),([0,1,0],1)], 10), ([([0,1,0],1),([0,0,1],1)], 11), ([([0,0,1],1),([1,0,0],1)], 12)]).toOption.map WrapSt.inv
    = some [((0, [0, 1]), 10), ((0, [1, 2]), 11), ((0, [2, 0]), 12)] := by decide +kernel

/-- Dropping one of them is an error. -/
example : (wrapConstraints 3 exC3 [([([1,0,0],(1:ℤ)),([0,1,0],1)], 10), ([([0,1,0],1),([0,0,1],1)], 11)]).toOption.isNone = true := by
  decide +kernel

end Verif.Shared
