import Verif.Props.CycExpr

/-!
# C40: replacing symbols in a cyclic expression

`xrep` is `xreplace` with a rule whose keys are symbols.  Expected value: the value of the original at the point
where every symbol has the value of its replacement, which is what replacing after expanding gives.
-/

namespace Verif.Cyc

variable {V : ℕ → Prop} {B : Kind → List ℕ → PGrp → Prop}

section
variable {K : Type*} [Field K] {I : ℕ → List K → K} {D : Set (ℕ → K)} {bld : CE → CE} {gt eqv : CE → CE → Bool}

/-- the point at which every symbol has the value of its replacement -/
def pt (I : ℕ → List K → K) (r : Rule) (env : ℕ → K) (y : ℕ) : K := den I (r.get y) env

theorem Rule.get_of_notMem {r : Rule} {y : ℕ} (h : y ∉ dkeys r) : r.get y = .sym y := by
  unfold Rule.get
  rw [(dget_eq_none_iff _ _).2 h]; rfl

theorem Rule.get_of_dget {r : Rule} {y : ℕ} {v : CE} (h : dget r y = some v) : r.get y = v := by
  unfold Rule.get; rw [h]; rfl

theorem mem_of_dget {r : Rule} {y : ℕ} {v : CE} (h : dget r y = some v) : (y, v) ∈ r := by
  induction r with
  | nil => simp [dget] at h
  | cons a r ih =>
    unfold dget at h
    by_cases ha : a.1 = y
    · simp only [ha, if_true, Option.some.injEq] at h
      subst h; subst ha; exact List.mem_cons_self
    · simp only [ha, if_false] at h
      exact List.mem_cons_of_mem _ (ih h)

theorem mem_valVars {r : Rule} {y x : ℕ} {v : CE} (h : dget r y = some v) (hx : x ∈ free v) : x ∈ r.valVars :=
  List.mem_flatMap.2 ⟨(y, v), mem_of_dget h, hx⟩

theorem mem_changed {r : Rule} {s : List ℕ} {x : ℕ} :
    x ∈ changedVars r s ↔ x ∈ s ∧ (x ∈ dkeys r ∨ x ∈ r.valVars) := by
  simp [changedVars]

/-- replacing commutes with a translation -/
def Comm (I : ℕ → List K → K) (D : Set (ℕ → K)) (V : ℕ → Prop) (r : Rule) (s s' : List ℕ) (p : List ℕ) : Prop :=
  ∀ env ∈ D, ∀ y, V y → den I (r.get y) (env ∘ tr s' p) = den I (r.get (tr s p y)) env

theorem comm_of_untouched {r : Rule} {s : List ℕ} (h : ∀ x ∈ s, x ∉ dkeys r ∧ x ∉ r.valVars) (p : List ℕ) :
    Comm I D V r s s p := by
  intro env _ y _
  by_cases hy : y ∈ s
  · rw [Rule.get_of_notMem (h y hy).1, Rule.get_of_notMem (h _ (tr_mem hy)).1]
    simp [den]
  · rw [tr_notin hy]
    apply den_congr
    intro x hx
    have : x ∉ s := by
      intro hxs
      rcases hd : dget r y with _ | v
      · rw [Rule.get_of_notMem ((dget_eq_none_iff _ _).1 hd)] at hx
        simp only [free, List.mem_singleton] at hx
        exact hy (hx ▸ hxs)
      · rw [Rule.get_of_dget hd] at hx
        exact (h x hxs).2 (mem_valVars hd hx)
    simp [tr_notin this]

theorem comm_of_ident (hb : BldOk I D bld) {r : Rule} {s : List ℕ} {G : PGrp} (hG : GrpOk G) (hs : s.Nodup)
    (hl : s.length = G.deg) (heqv : ∀ u v, Good u → Good v → eqv u v = true → ∀ env ∈ D, den I u env = den I v env)
    (hgr : ∀ kv ∈ r, Good kv.2) (h : ∀ kv ∈ r, eqv (.sym kv.1) kv.2 = true) {p : List ℕ} (hp : p ∈ G.elems) :
    Comm I D V r s s p := by
  have hid : ∀ y, ∀ env ∈ D, den I (r.get y) env = env y := by
    intro y env he
    rcases hd : dget r y with _ | v
    · rw [Rule.get_of_notMem ((dget_eq_none_iff _ _).1 hd)]; simp [den]
    · rw [Rule.get_of_dget hd]
      have hm := mem_of_dget hd
      rw [← heqv (.sym y) v (show Good (.sym y) from trivial) (hgr _ hm) (h _ hm) env he]; simp [den]
  intro env he y _
  rw [hid _ _ (hb.dom env he _ (tr_injective hG.grp hs hl hp)), hid _ _ he]
  rfl

theorem caseA_spec {r : Rule} {s : List ℕ} (h : caseA r s = true) :
    (∀ x ∈ s, r.get x = .sym (newSym r x)) ∧ (s.map (newSym r)).Nodup := by
  simp only [caseA, Bool.and_eq_true, List.all_eq_true, decide_eq_true_eq] at h
  obtain ⟨⟨h1, -⟩, h3⟩ := h
  refine ⟨fun x hx => ?_, h3⟩
  rcases hd : dget r x with _ | v
  · rw [Rule.get_of_notMem ((dget_eq_none_iff _ _).1 hd)]
    simp [newSym, hd]
  · have hk : x ∈ dkeys r := by
      by_contra hc
      rw [(dget_eq_none_iff _ _).2 hc] at hd; simp at hd
    have := h1 x (mem_changed.2 ⟨hx, Or.inl hk⟩)
    rw [Rule.get_of_dget hd]
    rw [hd] at this
    cases v with
    | sym y => simp [newSym, hd]
    | _ => simp at this

theorem comm_of_caseA {r : Rule} {s : List ℕ} {G : PGrp} (hG : GrpOk G) (hs : s.Nodup) (hl : s.length = G.deg)
    (h : caseA r s = true) (hnc : ∀ x ∈ s, ∀ y, V y → y ∉ s → newSym r x ∉ free (r.get y)) {p : List ℕ}
    (hp : p ∈ G.elems) : Comm I D V r s (s.map (newSym r)) p := by
  obtain ⟨h1, h2⟩ := caseA_spec h
  intro env _ y hV
  by_cases hy : y ∈ s
  · rw [h1 y hy, h1 _ (tr_mem hy)]
    obtain ⟨i, hi, rfl⟩ := List.getElem_of_mem hy
    have hpl : i < p.length := by rw [hG.grp.length_eq hp, ← hl]; exact hi
    have hpi : p[i] < s.length := by rw [hl]; exact hG.grp.lt_of_mem hp _ (List.getElem_mem hpl)
    simp only [den, Function.comp]
    congr 1
    rw [tr_get hs hi hpl hpi]
    have hi' : i < (s.map (newSym r)).length := by simpa using hi
    have e1 : newSym r s[i] = (s.map (newSym r))[i] := by simp
    rw [e1, tr_get h2 hi' hpl (by simpa using hpi)]
    simp
  · rw [tr_notin hy]
    apply den_congr
    intro x hx
    have : x ∉ s.map (newSym r) := by
      intro hxs
      obtain ⟨z, hz, rfl⟩ := List.mem_map.1 hxs
      exact hnc z hz y hV hy hx
    simp [tr_notin this]

/-! ### case B: invariant rules -/

theorem sameDict_comm (hb : BldOk I D bld) {r : Rule} {s : List ℕ} {G : PGrp} (hG : GrpOk G) (hs : s.Nodup)
    (hl : s.length = G.deg) (heqv : ∀ u v, Good u → Good v → eqv u v = true → ∀ env ∈ D, den I u env = den I v env)
    (hgr : ∀ kv ∈ r, Good kv.2) (hnd : (dkeys r).Nodup) {n : ℕ} {g : List ℕ} (hg : g ∈ G.elems)
    (h : sameDict eqv (fun v => rename bld gt n (tr s g) v) (tr s g) r = some true) : Comm I D V r s s g := by
  have hinj := tr_injective hG.grp hs hl hg
  unfold sameDict at h
  simp only [Option.map_eq_some_iff] at h
  obtain ⟨l, hl', hall⟩ := h
  rw [List.all_eq_true] at hall
  have hf := mapO_forall₂ hl'
  have hkey : ∀ kv ∈ r, ∃ v', dget r (tr s g kv.1) = some v' ∧ ∀ env ∈ D, den I v' env = den I kv.2 (env ∘ tr s g) := by
    intro kv hkv
    have aux : ∀ {r' : List (ℕ × CE)} {l' : List (ℕ × CE)}, List.Forall₂ (fun a b =>
        (rename bld gt n (tr s g) a.2).map (fun v => (tr s g a.1, v)) = some b) r' l' → kv ∈ r' →
        ∃ v, rename bld gt n (tr s g) kv.2 = some v ∧ (tr s g kv.1, v) ∈ l' := by
      intro r' l' hf hm
      induction hf with
      | nil => simp at hm
      | cons hab _ ih =>
        rcases List.mem_cons.1 hm with rfl | hm
        · obtain ⟨v, hv, rfl⟩ := Option.map_eq_some_iff.1 hab
          exact ⟨v, hv, List.mem_cons_self⟩
        · obtain ⟨v, hv, hvm⟩ := ih hm
          exact ⟨v, hv, List.mem_cons_of_mem _ hvm⟩
    obtain ⟨v, hv, hvm⟩ := aux hf hkv
    have := hall _ hvm
    dsimp only at this
    rcases hd : dget r (tr s g kv.1) with _ | v'
    · rw [hd] at this; simp at this
    · rw [hd] at this
      refine ⟨v', rfl, fun env he => ?_⟩
      obtain ⟨gv, vv⟩ := rename_value hb n _ hinj kv.2 v (hgr kv hkv) hv
      rw [heqv v' v (hgr _ (mem_of_dget hd)) gv this env he, vv env he]
  have hkeys : ∀ y, tr s g y ∈ dkeys r → y ∈ dkeys r := by
    have hsub : (dkeys r).map (tr s g) ⊆ dkeys r := by
      intro z hz
      obtain ⟨k, hk, rfl⟩ := List.mem_map.1 hz
      obtain ⟨kv, hkv, rfl⟩ := List.mem_map.1 hk
      obtain ⟨v', hv', -⟩ := hkey kv hkv
      by_contra hc
      rw [(dget_eq_none_iff _ _).2 hc] at hv'; simp at hv'
    have hperm : ((dkeys r).map (tr s g)).Perm (dkeys r) :=
      (List.subperm_of_subset (hnd.map hinj) hsub).perm_of_length_le (by simp)
    intro y hy
    obtain ⟨k, hk, he⟩ := List.mem_map.1 (hperm.mem_iff.2 hy)
    exact hinj he ▸ hk
  intro env he y _
  rcases hd : dget r y with _ | v
  · have hyn := (dget_eq_none_iff _ _).1 hd
    rw [Rule.get_of_notMem hyn, Rule.get_of_notMem (fun h => hyn (hkeys y h))]
    simp [den]
  · obtain ⟨v', hv', hval⟩ := hkey (y, v) (mem_of_dget hd)
    rw [Rule.get_of_dget hd, Rule.get_of_dget hv', hval env he]

theorem comm_of_invariant (hb : BldOk I D bld) {r : Rule} {s : List ℕ} {G : PGrp} (hG : GrpOk G) (hs : s.Nodup)
    (hl : s.length = G.deg) (heqv : ∀ u v, Good u → Good v → eqv u v = true → ∀ env ∈ D, den I u env = den I v env)
    (hgr : ∀ kv ∈ r, Good kv.2) (hnd : (dkeys r).Nodup) {n : ℕ}
    (h : permInvariant eqv (fun ρ v => rename bld gt n ρ v) s r G.gens = some true) {p : List ℕ} (hp : p ∈ G.elems) :
    Comm I D V r s s p := by
  have hgens : ∀ gs : List (List ℕ), (∀ g ∈ gs, g ∈ G.elems) →
      permInvariant eqv (fun ρ v => rename bld gt n ρ v) s r gs = some true →
      ∀ g ∈ gs, Comm I D (fun _ => True) r s s g := by
    intro gs
    induction gs with
    | nil => intro _ _ g hg; simp at hg
    | cons g gs ih =>
      intro hgm h
      unfold permInvariant at h
      rcases hsd : sameDict eqv ((fun ρ v => rename bld gt n ρ v) (tr s g)) (tr s g) r with _ | b
      · rw [hsd] at h; simp at h
      · rw [hsd] at h
        cases b with
        | false => simp at h
        | true =>
          dsimp only at h
          intro g' hg'
          rcases List.mem_cons.1 hg' with rfl | hg'
          · exact sameDict_comm hb hG hs hl heqv hgr hnd (hgm _ List.mem_cons_self) hsd
          · exact ih (fun g hg => hgm g (List.mem_cons_of_mem _ hg)) h g' hg'
  have hg := hgens G.gens hG.mem h
  obtain ⟨l, hlm, rfl⟩ := hG.gen p hp
  clear hp
  have key : ∀ l : List (List ℕ), (∀ g ∈ l, g ∈ G.gens) →
      l.foldr papply (List.range G.deg) ∈ G.elems ∧
        Comm I D (fun _ => True) r s s (l.foldr papply (List.range G.deg)) := by
    intro l
    induction l with
    | nil =>
      intro _
      refine ⟨hG.grp.one, fun env _ y _ => ?_⟩
      have : env ∘ tr s (List.range G.deg) = env := by funext x; simp [tr_range]
      simp only [List.foldr_nil, tr_range, this]
    | cons g l ih =>
      intro hlm
      obtain ⟨hm, hc⟩ := ih fun g hg => hlm g (List.mem_cons_of_mem _ hg)
      have hgm := hG.mem g (hlm g List.mem_cons_self)
      rw [List.foldr_cons]
      refine ⟨hG.grp.mul _ hgm _ hm, fun env he y _ => ?_⟩
      have e1 : env ∘ tr s (papply g (l.foldr papply (List.range G.deg))) =
          (env ∘ tr s (l.foldr papply (List.range G.deg))) ∘ tr s g := by
        funext x
        simp only [Function.comp]
        rw [tr_comp hG.grp hs hl hm hgm]
      rw [e1, hg g (hlm g List.mem_cons_self) _ (hb.dom env he _ (tr_injective hG.grp hs hl hm)) y trivial,
        hc env he _ trivial, tr_comp hG.grp hs hl hm hgm]
  exact fun env he y _ => (key l hlm).2 env he y trivial

/-! ### the partial change: stabilisers -/

section Stab
variable {G : PGrp} {chg unch : List ℕ}

/-- `chg` is closed under the group and `unch` lists the other points in order -/
structure Cut (G : PGrp) (chg unch : List ℕ) : Prop where
  lt : ∀ i ∈ chg, i < G.deg
  closed : ∀ p ∈ G.elems, ∀ i ∈ chg, p.getD i 0 ∈ chg
  unch_eq : unch = (List.range G.deg).filter fun i => !(chg.contains i)

theorem Cut.mem (hc : Cut G chg unch) {i : ℕ} : i ∈ unch ↔ i < G.deg ∧ i ∉ chg := by
  rw [hc.unch_eq]; simp

theorem Cut.nodup (hc : Cut G chg unch) : unch.Nodup := by
  rw [hc.unch_eq]; exact List.nodup_range.filter _

theorem mem_pointStab {inds p : List ℕ} : p ∈ pointStab G inds ↔ p ∈ G.elems ∧ ∀ i ∈ inds, p.getD i 0 = i := by
  simp [pointStab]

theorem getD_lt (hG : IsPermGroup G.deg G.elems) {p : List ℕ} (hp : p ∈ G.elems) {i : ℕ} (hi : i < G.deg) :
    p.getD i 0 < G.deg := by
  have : i < p.length := by rw [hG.length_eq hp]; exact hi
  simp only [List.getD_eq_getElem?_getD, List.getElem?_eq_getElem this, Option.getD_some]
  exact hG.lt_of_mem hp _ (List.getElem_mem this)

theorem getD_papply (hG : IsPermGroup G.deg G.elems) {p q : List ℕ} (hp : p ∈ G.elems) (hq : q ∈ G.elems) {i : ℕ}
    (hi : i < G.deg) : (papply p q).getD i 0 = q.getD (p.getD i 0) 0 := by
  have h1 : i < p.length := by rw [hG.length_eq hp]; exact hi
  have h2 : i < (papply p q).length := by simpa [papply] using h1
  have h3 : p[i] < q.length := by rw [hG.length_eq hq]; exact hG.lt_of_mem hp _ (List.getElem_mem h1)
  simp only [List.getD_eq_getElem?_getD, List.getElem?_eq_getElem h1, List.getElem?_eq_getElem h2,
    Option.getD_some, List.getElem?_eq_getElem h3]
  exact papply_getElem h1 h3

theorem getD_inj (hG : IsPermGroup G.deg G.elems) {p : List ℕ} (hp : p ∈ G.elems) {i j : ℕ} (hi : i < G.deg)
    (hj : j < G.deg) (h : p.getD i 0 = p.getD j 0) : i = j := by
  have h1 : i < p.length := by rw [hG.length_eq hp]; exact hi
  have h2 : j < p.length := by rw [hG.length_eq hp]; exact hj
  simp only [List.getD_eq_getElem?_getD, List.getElem?_eq_getElem h1, List.getElem?_eq_getElem h2,
    Option.getD_some] at h
  have hnd : p.Nodup := (hG.perm p hp).nodup_iff.2 List.nodup_range
  exact (List.Nodup.getElem_inj_iff hnd).1 h

theorem list_ext_getD (hG : IsPermGroup G.deg G.elems) {p q : List ℕ} (hp : p ∈ G.elems) (hq : q ∈ G.elems)
    (h : ∀ i < G.deg, p.getD i 0 = q.getD i 0) : p = q := by
  apply List.ext_getElem
  · rw [hG.length_eq hp, hG.length_eq hq]
  · intro i h1 h2
    have := h i (by rw [← hG.length_eq hp]; exact h1)
    simpa only [List.getD_eq_getElem?_getD, List.getElem?_eq_getElem h1, List.getElem?_eq_getElem h2,
      Option.getD_some] using this

/-- an element of the pointwise stabiliser of `chg` moves the other points among themselves -/
theorem Cut.stab_mem (hc : Cut G chg unch) (hG : IsPermGroup G.deg G.elems) {p : List ℕ} (hp : p ∈ G.elems) {i : ℕ}
    (hi : i ∈ unch) : p.getD i 0 ∈ unch := by
  obtain ⟨h1, h2⟩ := hc.mem.1 hi
  refine hc.mem.2 ⟨getD_lt hG hp h1, fun h => h2 ?_⟩
  obtain ⟨q, hq, h3, -⟩ := hG.inv p hp
  have := hc.closed q hq _ h
  rw [← getD_papply hG hp hq h1, h3] at this
  simpa [List.getD_eq_getElem?_getD, h1] using this

theorem filterMap_split (f : ℕ → Option ℕ) (c : ℕ → Bool) (h : ℕ → ℕ) :
    ∀ l : List ℕ, (∀ i ∈ l, f i = if c i then none else some (h i)) →
      l.filterMap f = (l.filter fun i => !(c i)).map h := by
  intro l
  induction l with
  | nil => intro _; rfl
  | cons a l ih =>
    intro hl
    have ha := hl a List.mem_cons_self
    rw [List.filterMap_cons, ha, ih fun i hi => hl i (List.mem_cons_of_mem _ hi)]
    cases hca : c a <;> simp [hca]

theorem Cut.project_eq (hc : Cut G chg unch) (hG : IsPermGroup G.deg G.elems) {p : List ℕ} (hp : p ∈ pointStab G chg) :
    project unch p = unch.map fun i => unch.idxOf (p.getD i 0) := by
  obtain ⟨hpe, hfix⟩ := mem_pointStab.1 hp
  have e0 : p = (List.range G.deg).map fun i => p.getD i 0 := by
    apply List.ext_getElem
    · simp [hG.length_eq hpe]
    · intro i h1 h2
      simp [List.getElem?_eq_getElem h1]
  unfold project
  conv_lhs => rw [e0]
  rw [List.filterMap_map, filterMap_split _ (fun i => chg.contains i) (fun i => unch.idxOf (p.getD i 0)),
    ← hc.unch_eq]
  intro i hi
  have hi' := List.mem_range.1 hi
  dsimp only [Function.comp]
  by_cases hic : i ∈ chg
  · have : p.getD i 0 ∉ unch := by
      rw [hfix i hic]; exact fun h => (hc.mem.1 h).2 hic
    rw [List.idxOf?_eq_none_iff.2 this]
    simp [hic]
  · have : p.getD i 0 ∈ unch := hc.stab_mem hG hpe (hc.mem.2 ⟨hi', hic⟩)
    have hlt := List.idxOf_lt_length_iff.2 this
    have : unch.idxOf? (p.getD i 0) = some (unch.idxOf (p.getD i 0)) := by
      conv_lhs => rw [← List.getElem_idxOf hlt]
      exact idxOf?_getElem hc.nodup hlt
    rw [this]
    simp [hic]

theorem map_idxOf_self {l : List ℕ} (h : l.Nodup) : (l.map fun i => l.idxOf i) = List.range l.length := by
  apply List.ext_getElem
  · simp
  · intro i h1 h2
    have hi : i < l.length := by simpa using h1
    simp [List.Nodup.idxOf_getElem h i hi]

/-- the projected stabiliser is a group of permutations of the remaining points -/
theorem Cut.grp (hc : Cut G chg unch) (hG : IsPermGroup G.deg G.elems) :
    IsPermGroup unch.length ((pointStab G chg).map (project unch)) := by
  have hone : List.range G.deg ∈ pointStab G chg := by
    refine mem_pointStab.2 ⟨hG.one, fun i hi => ?_⟩
    simp [List.getD_eq_getElem?_getD, hc.lt i hi]
  have hmul : ∀ p ∈ pointStab G chg, ∀ q ∈ pointStab G chg, papply p q ∈ pointStab G chg := by
    intro p hp q hq
    obtain ⟨hp1, hp2⟩ := mem_pointStab.1 hp
    obtain ⟨hq1, hq2⟩ := mem_pointStab.1 hq
    refine mem_pointStab.2 ⟨hG.mul p hp1 q hq1, fun i hi => ?_⟩
    rw [getD_papply hG hp1 hq1 (hc.lt i hi), hp2 i hi, hq2 i hi]
  have hhom : ∀ p ∈ pointStab G chg, ∀ q ∈ pointStab G chg,
      papply (project unch p) (project unch q) = project unch (papply p q) := by
    intro p hp q hq
    obtain ⟨hp1, hp2⟩ := mem_pointStab.1 hp
    obtain ⟨hq1, hq2⟩ := mem_pointStab.1 hq
    rw [hc.project_eq hG hp, hc.project_eq hG hq, hc.project_eq hG (hmul p hp q hq)]
    unfold papply
    rw [List.map_map]
    refine List.map_congr_left fun i hi => ?_
    dsimp only [Function.comp]
    have hmem := hc.stab_mem hG hp1 hi
    have hlt := List.idxOf_lt_length_iff.2 hmem
    have e := getD_papply hG hp1 hq1 (hc.mem.1 hi).1
    unfold papply at e
    rw [e]
    simp only [List.getD_eq_getElem?_getD] at hlt ⊢
    rw [List.getElem?_map, List.getElem?_eq_getElem hlt, List.getElem_idxOf hlt]
    rfl
  have hid : project unch (List.range G.deg) = List.range unch.length := by
    rw [hc.project_eq hG hone, ← map_idxOf_self hc.nodup]
    refine List.map_congr_left fun i hi => ?_
    simp [List.getD_eq_getElem?_getD, (hc.mem.1 hi).1]
  refine ⟨?_, ?_, ?_, ?_, ?_⟩
  · refine List.Nodup.map_on ?_ (hG.nodup.filter _)
    intro p hp q hq h
    rw [hc.project_eq hG hp, hc.project_eq hG hq] at h
    obtain ⟨hp1, hp2⟩ := mem_pointStab.1 hp
    obtain ⟨hq1, hq2⟩ := mem_pointStab.1 hq
    refine list_ext_getD hG hp1 hq1 fun i hi => ?_
    by_cases hic : i ∈ chg
    · rw [hp2 i hic, hq2 i hic]
    · have hiu : i ∈ unch := hc.mem.2 ⟨hi, hic⟩
      have h1 := List.map_inj_left.1 h i hiu
      exact (List.idxOf_inj (hc.stab_mem hG hp1 hiu)).1 h1
  · intro x hx
    obtain ⟨p, hp, rfl⟩ := List.mem_map.1 hx
    obtain ⟨hp1, hp2⟩ := mem_pointStab.1 hp
    rw [hc.project_eq hG hp, ← map_idxOf_self hc.nodup]
    have hperm : (unch.map fun i => p.getD i 0).Perm unch := by
      have hnd : (unch.map fun i => p.getD i 0).Nodup := by
        refine List.Nodup.map_on ?_ hc.nodup
        intro i hi j hj h
        exact getD_inj hG hp1 (hc.mem.1 hi).1 (hc.mem.1 hj).1 h
      have hsub : (unch.map fun i => p.getD i 0) ⊆ unch := by
        intro y hy
        obtain ⟨i, hi, rfl⟩ := List.mem_map.1 hy
        exact hc.stab_mem hG hp1 hi
      exact (List.subperm_of_subset hnd hsub).perm_of_length_le (by simp)
    have := hperm.map (fun i => unch.idxOf i)
    rw [List.map_map] at this
    exact this
  · exact List.mem_map.2 ⟨_, hone, hid⟩
  · intro x hx y hy
    obtain ⟨p, hp, rfl⟩ := List.mem_map.1 hx
    obtain ⟨q, hq, rfl⟩ := List.mem_map.1 hy
    exact List.mem_map.2 ⟨_, hmul p hp q hq, (hhom p hp q hq).symm⟩
  · intro x hx
    obtain ⟨p, hp, rfl⟩ := List.mem_map.1 hx
    obtain ⟨hp1, hp2⟩ := mem_pointStab.1 hp
    obtain ⟨q, hq, h1, h2⟩ := hG.inv p hp1
    have hqs : q ∈ pointStab G chg := by
      refine mem_pointStab.2 ⟨hq, fun i hi => ?_⟩
      have := getD_papply hG hp1 hq (hc.lt i hi)
      rw [h1, hp2 i hi] at this
      rw [← this]
      simp [List.getD_eq_getElem?_getD, hc.lt i hi]
    refine ⟨_, List.mem_map.2 ⟨q, hqs, rfl⟩, ?_, ?_⟩
    · rw [hhom p hp q hqs, h1, hid]
    · rw [hhom q hqs p hp, h2, hid]

theorem Cut.grpOk (hc : Cut G chg unch) (hG : IsPermGroup G.deg G.elems) :
    GrpOk ⟨unch.length, (pointStab G chg).map (project unch), (pointStab G chg).map (project unch)⟩ where
  grp := hc.grp hG
  mem := fun _ h => h
  gen := fun p hp => ⟨[p], by simpa using hp, by
    simp only [List.foldr_cons, List.foldr_nil]
    exact (papply_range_right (G := ⟨unch.length, (pointStab G chg).map (project unch), []⟩) (hc.grp hG) hp).symm⟩

/-- translating the remaining symbols by the projected permutation is translating all symbols -/
theorem Cut.tr_project (hc : Cut G chg unch) (hG : IsPermGroup G.deg G.elems) {s : List ℕ} (hs : s.Nodup)
    (hl : s.length = G.deg) {q : List ℕ} (hq : q ∈ pointStab G chg) (x : ℕ) :
    tr (unch.map fun i => s.getD i 0) (project unch q) x = tr s q x := by
  obtain ⟨hq1, hq2⟩ := mem_pointStab.1 hq
  have hget : ∀ i (hi : i < G.deg), s.getD i 0 = s[i]'(hl ▸ hi) := by
    intro i hi
    simp [List.getElem?_eq_getElem (hl ▸ hi : i < s.length)]
  have hu : (unch.map fun i => s.getD i 0).Nodup := by
    refine List.Nodup.map_on ?_ hc.nodup
    intro i hi j hj h
    rw [hget i (hc.mem.1 hi).1, hget j (hc.mem.1 hj).1] at h
    exact (List.Nodup.getElem_inj_iff hs).1 h
  have hqget : ∀ i (hi : i < G.deg), q.getD i 0 = q[i]'(by rw [hG.length_eq hq1]; exact hi) := by
    intro i hi
    have : i < q.length := by rw [hG.length_eq hq1]; exact hi
    simp [List.getElem?_eq_getElem this]
  by_cases hx : x ∈ s
  · obtain ⟨i, hi, rfl⟩ := List.getElem_of_mem hx
    have hi' : i < G.deg := hl ▸ hi
    have hql : i < q.length := by rw [hG.length_eq hq1]; exact hi'
    have hqi : q[i] < s.length := by rw [hl]; exact hG.lt_of_mem hq1 _ (List.getElem_mem hql)
    rw [tr_get hs hi hql hqi]
    by_cases hic : i ∈ chg
    · rw [tr_notin]
      · have := hq2 i hic
        rw [hqget i hi'] at this
        simp only [this]
      · intro h
        obtain ⟨j, hj, he⟩ := List.mem_map.1 h
        rw [hget j (hc.mem.1 hj).1] at he
        have := (List.Nodup.getElem_inj_iff hs).1 he
        exact (hc.mem.1 hj).2 (this ▸ hic)
    · have hiu : i ∈ unch := hc.mem.2 ⟨hi', hic⟩
      have hk : unch.idxOf i < unch.length := List.idxOf_lt_length_iff.2 hiu
      have hku : unch.idxOf i < (unch.map fun i => s.getD i 0).length := by simpa using hk
      have e1 : s[i] = (unch.map fun i => s.getD i 0)[unch.idxOf i] := by
        rw [List.getElem_map, List.getElem_idxOf hk, hget i hi']
      have hpk : unch.idxOf i < (project unch q).length := by rw [hc.project_eq hG hq]; simpa using hk
      have hmem := hc.stab_mem hG hq1 hiu
      have hk2 := List.idxOf_lt_length_iff.2 hmem
      have e2 : (project unch q)[unch.idxOf i] = unch.idxOf (q.getD i 0) := by
        have := hc.project_eq hG hq
        simp only [this, List.getElem_map, List.getElem_idxOf hk]
      conv_lhs => rw [e1]
      rw [tr_get hu hku hpk (by rw [e2]; simpa using hk2)]
      simp only [e2, List.getElem_map, List.getElem_idxOf hk2]
      rw [hget _ (hc.mem.1 hmem).1]
      simp only [hqget i hi']
  · rw [tr_notin hx, tr_notin]
    intro h
    obtain ⟨j, hj, rfl⟩ := List.mem_map.1 h
    rw [hget j (hc.mem.1 hj).1] at hx
    exact hx (List.getElem_mem _)

end Stab

/-! ### C40 -/

/-- A group for which the partial change is harmless: for every union `chg` of orbits that leaves at least two points
and whose pointwise stabiliser is not trivial, the group is the product of the two pointwise stabilisers (and for
cyclic products the order of the stabiliser is the number of remaining symbols).  Nothing is required of a transitive
group. -/
def SplitOk (k : Kind) (G : PGrp) : Prop :=
  ∀ chg unch, Cut G chg unch → chg ≠ [] → 2 ≤ unch.length → (pointStab G chg).length ≠ 1 →
    ((pointStab G unch).flatMap fun p => (pointStab G chg).map fun q => papply p q).Perm G.elems ∧
      (k = .prod → (pointStab G chg).length = unch.length)

/-- what `xrep` promises at a fuel level -/
def XOk (V : ℕ → Prop) (B : Kind → List ℕ → PGrp → Prop) (I : ℕ → List K → K) (D : Set (ℕ → K)) (bld : CE → CE)
    (gt eqv : CE → CE → Bool) (r : Rule) (n : ℕ) : Prop :=
  ∀ e x, GoodW V B e → xrep bld gt eqv r n e = some x →
    Good x.1 ∧ (x.2 = false → x.1 = e) ∧ ∀ env ∈ D, den I x.1 env = den I e (pt I r env)

theorem xok_list {r : Rule} {n : ℕ} (hx : XOk V B I D bld gt eqv r n) :
    ∀ {l : List CE} {l' : List (CE × Bool)}, GoodL V B l →
      List.Forall₂ (fun a b => xrep bld gt eqv r n a = some b) l l' →
      GoodL (fun _ => True) (fun _ _ _ => True) (l'.map (·.1)) ∧ (l'.any (·.2) = false → l'.map (·.1) = l) ∧
        ∀ env ∈ D, denL I (l'.map (·.1)) env = denL I l (pt I r env) := by
  intro l l' hl h
  induction h with
  | nil => exact ⟨trivial, fun _ => rfl, fun env _ => by simp [denL]⟩
  | cons hab _ ih =>
    obtain ⟨g1, u1, v1⟩ := hx _ _ hl.1 hab
    obtain ⟨g2, u2, v2⟩ := ih hl.2
    refine ⟨⟨g1, g2⟩, ?_, fun env he => by simp only [List.map_cons, denL]; rw [v1 env he, v2 env he]⟩
    intro h
    simp only [List.any_cons, Bool.or_eq_false_iff] at h
    rw [List.map_cons, u1 h.1, u2 h.2]

theorem base_ok (hb : BldOk I D bld) (k : Kind) {l : List CE} (h : GoodL (fun _ => True) (fun _ _ _ => True) l) :
    Good (base bld k l) ∧ ∀ env ∈ D, den I (base bld k l) env = fold k (denL I l env) := by
  unfold base
  cases k with
  | sum => exact ⟨hb.good cl_true _ (show Good (.add l) from h), fun env he => by
      dsimp only; rw [hb.val _ (show Good (.add l) from h) env he]; simp [den, fold]⟩
  | prod => exact ⟨hb.good cl_true _ (show Good (.mul l) from h), fun env he => by
      dsimp only; rw [hb.val _ (show Good (.mul l) from h) env he]; simp [den, fold]⟩

/-- the value after replacing inside, for a translation that commutes with the rule -/
theorem comm_value {r : Rule} {k : Kind} {e e' : CE} {s s' : List ℕ} {G : PGrp} (hcl : Cl V B) (hge : GoodW V B e)
    (hdom : ∀ env ∈ D, ∀ p ∈ G.elems, env ∘ tr s' p ∈ D)
    (hv : ∀ env ∈ D, den I e' env = den I e (pt I r env))
    (hcomm : ∀ p ∈ G.elems, Comm I D V r s s' p) :
    ∀ env ∈ D, den I (.cyc k e' s' G) env = den I (.cyc k e s G) (pt I r env) := by
  intro env he
  rw [den_cyc, den_cyc]
  congr 1
  refine List.map_congr_left fun p hp => ?_
  rw [hv _ (hdom env he p hp)]
  refine den_congr e _ _ fun y hy => ?_
  exact hcomm p hp env he y (free_of_good hcl e hge y hy)

theorem arg0_ok (hcl : Cl V B) (hb : BldOk I D bld) {r : Rule} {n : ℕ} {k : Kind} {e : CE} {s s' : List ℕ} {G : PGrp}
    {x0 x : CE × Bool} {moved : Bool} (hg : GoodW V B (.cyc k e s G)) (hs' : moved = false → s' = s)
    (hs'n : s'.Nodup) (hs'l : s'.length = G.deg)
    (h0 : Good x0.1 ∧ (x0.2 = false → x0.1 = e) ∧ ∀ env ∈ D, den I x0.1 env = den I e (pt I r env))
    (hcomm : ∀ p ∈ G.elems, Comm I D V r s s' p)
    (h : xrepArg0 (fun e' t => newCyc bld gt n k e' t G) (.cyc k e s G) x0 s s' moved = some x) :
    Good x.1 ∧ (x.2 = false → x.1 = .cyc k e s G) ∧ ∀ env ∈ D, den I x.1 env = den I (.cyc k e s G) (pt I r env) := by
  obtain ⟨hge, hs, hl, hG, hk, hB⟩ := hg
  obtain ⟨g0, u0, v0⟩ := h0
  have hdom : ∀ env ∈ D, ∀ p ∈ G.elems, env ∘ tr s' p ∈ D := fun env he p hp =>
    hb.dom env he _ (tr_injective hG.grp hs'n hs'l hp)
  have hval := comm_value (k := k) hcl hge hdom v0 hcomm
  unfold xrepArg0 at h
  by_cases hch : (x0.2 || moved) = true
  · rw [if_pos hch] at h
    simp only [Option.map_eq_some_iff] at h
    obtain ⟨e2, he2, rfl⟩ := h
    have hss : (if moved then s' else s) = s' := by
      cases moved with
      | true => rfl
      | false => simp [hs' rfl]
    rw [hss] at he2
    obtain ⟨g2, v2⟩ := (both_ok (gt := gt) cl_true hb n).2 k x0.1 s' G e2 g0 trivial hG hk he2
    exact ⟨g2, by simp, fun env he => by rw [v2 env he, hval env he]⟩
  · rw [if_neg hch] at h
    simp only [Option.some.injEq] at h
    subst h
    simp only [Bool.not_eq_true, Bool.or_eq_false_iff] at hch
    rw [u0 hch.1, hs' hch.2] at hval
    exact ⟨goodW_good (.cyc k e s G) ⟨hge, hs, hl, hG, hk, hB⟩, fun _ => rfl, hval⟩

theorem orbit_cut {G : PGrp} (hG : IsPermGroup G.deg G.elems) {s inds : List ℕ} (hl : s.length = G.deg)
    (hi : ∀ i ∈ inds, i < G.deg) :
    Cut G (orbitUnion G inds) ((List.range s.length).filter fun i => !((orbitUnion G inds).contains i)) ∧
      ∀ i ∈ inds, i ∈ orbitUnion G inds := by
  have hmem : ∀ j, j ∈ orbitUnion G inds ↔ j < G.deg ∧ ∃ i ∈ inds, ∃ p ∈ G.elems, p.getD i 0 = j := by
    intro j; simp [orbitUnion]
  refine ⟨⟨fun i h => ((hmem i).1 h).1, ?_, by rw [hl]⟩, ?_⟩
  · intro p hp j hj
    obtain ⟨hj1, i, hii, q, hq, rfl⟩ := (hmem j).1 hj
    refine (hmem _).2 ⟨getD_lt hG hp hj1, i, hii, papply q p, hG.mul q hq p hp, ?_⟩
    exact getD_papply hG hq hp (hi i hii)
  · intro i hii
    refine (hmem i).2 ⟨hi i hii, i, hii, List.range G.deg, hG.one, ?_⟩
    simp [List.getD_eq_getElem?_getD, hi i hii]

theorem fold_flatMap (k : Kind) {α β : Type*} (l : List α) (l2 : List β) (f : α → β → K) :
    fold k (l.map fun a => fold k (l2.map fun b => f a b)) = fold k (l.flatMap fun a => l2.map fun b => f a b) := by
  induction l with
  | nil => cases k <;> rfl
  | cons a l ih =>
    rw [List.map_cons, List.flatMap_cons]
    cases k with
    | sum => simp only [fold, List.sum_cons, List.sum_append] at ih ⊢; rw [ih]
    | prod => simp only [fold, List.prod_cons, List.prod_append] at ih ⊢; rw [ih]

theorem xok_succ (hcl : Cl V B) (hb : BldOk I D bld) {r : Rule} (hgr : ∀ kv ∈ r, Good kv.2) (hnd : (dkeys r).Nodup)
    (heqv : ∀ u v, Good u → Good v → eqv u v = true → ∀ env ∈ D, den I u env = den I v env)
    (hpt : ∀ env ∈ D, pt I r env ∈ D)
    (hnc : ∀ k s G, B k s G → caseA r s = true → ∀ x ∈ s, ∀ y, V y → y ∉ s → newSym r x ∉ free (r.get y))
    (hsplit : ∀ k s G, B k s G → SplitOk k G) {n : ℕ} (hx : XOk V B I D bld gt eqv r n) :
    XOk V B I D bld gt eqv r (n + 1) := by
  intro e x hg h
  cases e with
  | num q =>
    simp only [xrep, Option.some.injEq] at h; subst h
    exact ⟨trivial, fun _ => rfl, fun env _ => by simp [den]⟩
  | sym i =>
    simp only [xrep, Option.some.injEq] at h; subst h
    rcases hd : dget r i with _ | v
    · exact ⟨trivial, fun _ => rfl, fun env _ => by
        simp only [den, pt]
        rw [Rule.get_of_notMem ((dget_eq_none_iff _ _).1 hd)]; simp [den]⟩
    · exact ⟨hgr _ (mem_of_dget hd), fun h => by simp at h, fun env _ => by
        simp only [den, pt]; rw [Rule.get_of_dget hd]⟩
  | add l =>
    simp only [xrep, Option.map_eq_some_iff] at h
    obtain ⟨l', hl', rfl⟩ := h
    obtain ⟨g, u, v⟩ := xok_list hx hg (mapO_forall₂ hl')
    by_cases ha : l'.any (·.2) = true
    · rw [if_pos ha]
      exact ⟨hb.good cl_true _ (show Good (.add _) from g), fun h => by simp at h, fun env he => by
        dsimp only; rw [hb.val _ (show Good (.add _) from g) env he]; simp only [den]; rw [v env he]⟩
    · rw [if_neg ha]
      rw [u (by simpa using ha)] at v
      exact ⟨goodW_good (.add l) hg, fun _ => rfl, fun env he => by simp only [den]; rw [v env he]⟩
  | mul l =>
    simp only [xrep, Option.map_eq_some_iff] at h
    obtain ⟨l', hl', rfl⟩ := h
    obtain ⟨g, u, v⟩ := xok_list hx hg (mapO_forall₂ hl')
    by_cases ha : l'.any (·.2) = true
    · rw [if_pos ha]
      exact ⟨hb.good cl_true _ (show Good (.mul _) from g), fun h => by simp at h, fun env he => by
        dsimp only; rw [hb.val _ (show Good (.mul _) from g) env he]; simp only [den]; rw [v env he]⟩
    · rw [if_neg ha]
      rw [u (by simpa using ha)] at v
      exact ⟨goodW_good (.mul l) hg, fun _ => rfl, fun env he => by simp only [den]; rw [v env he]⟩
  | pow b m =>
    simp only [xrep, Option.map_eq_some_iff] at h
    obtain ⟨b', hb', rfl⟩ := h
    obtain ⟨g, u, v⟩ := hx b b' hg hb'
    by_cases ha : b'.2 = true
    · rw [if_pos ha]
      exact ⟨hb.good cl_true _ (show Good (.pow b'.1 m) from g), fun h => by simp at h, fun env he => by
        dsimp only; rw [hb.val _ (show Good (.pow b'.1 m) from g) env he]; simp only [den]; rw [v env he]⟩
    · rw [if_neg ha]
      rw [u (by simpa using ha)] at v
      exact ⟨goodW_good (.pow b m) hg, fun _ => rfl, fun env he => by simp only [den]; rw [v env he]⟩
  | app f l =>
    simp only [xrep, Option.map_eq_some_iff] at h
    obtain ⟨l', hl', rfl⟩ := h
    obtain ⟨g, u, v⟩ := xok_list hx hg (mapO_forall₂ hl')
    by_cases ha : l'.any (·.2) = true
    · rw [if_pos ha]
      exact ⟨hb.good cl_true _ (show Good (.app f _) from g), fun h => by simp at h, fun env he => by
        dsimp only; rw [hb.val _ (show Good (.app f _) from g) env he]; simp only [den]; rw [v env he]⟩
    · rw [if_neg ha]
      rw [u (by simpa using ha)] at v
      exact ⟨goodW_good (.app f l) hg, fun _ => rfl, fun env he => by simp only [den]; rw [v env he]⟩
  | cyc k e s G =>
    have hg0 := hg
    obtain ⟨hge, hs, hl, hG, hk, hB⟩ := hg
    have hself : Good (.cyc k e s G) := goodW_good _ hg0
    have hren : ∀ p ∈ G.elems, ∀ e', rename bld gt n (tr s p) e = some e' →
        GoodW V B e' ∧ ∀ env ∈ D, den I e' env = den I e (env ∘ tr s p) := by
      intro p hp e' he'
      refine (both_ok (gt := gt) hcl hb n).1 _ (tr_injective hG.grp hs hl hp) (hcl.tr_V hB p) ?_ e e' hge he'
      exact fun l t H ht => hcl.trans k l _ t G H p hB hs (by rw [hl]; exact hG.grp.perm p hp) ht
    -- the four calls of `_xreplace_arg0`
    have harg : ∀ (s' : List ℕ) (moved : Bool), (moved = false → s' = s) → s'.Nodup → s'.length = G.deg →
        (∀ p ∈ G.elems, Comm I D V r s s' p) →
        ((xrep bld gt eqv r n e).bind fun x0 =>
          xrepArg0 (fun e' t => newCyc bld gt n k e' t G) (.cyc k e s G) x0 s s' moved) = some x →
        Good x.1 ∧ (x.2 = false → x.1 = .cyc k e s G) ∧
          ∀ env ∈ D, den I x.1 env = den I (.cyc k e s G) (pt I r env) := by
      intro s' moved h1 h2 h3 h4 h5
      simp only [Option.bind_eq_some_iff] at h5
      obtain ⟨x0, hx0, h5⟩ := h5
      exact arg0_ok hcl hb hg0 h1 h2 h3 (hx e x0 hge hx0) h4 h5
    have hfall : ∀ l', mapO (fun p => (rename bld gt n (tr s p) e).bind fun e' => xrep bld gt eqv r n e') G.elems =
        some l' → GoodL (fun _ => True) (fun _ _ _ => True) (l'.map (·.1)) ∧
          (∀ env ∈ D, denL I (l'.map (·.1)) env = G.elems.map fun p => den I e (pt I r env ∘ tr s p)) ∧
          (l'.any (·.2) = false → ∀ env ∈ D, denL I (l'.map (·.1)) env = G.elems.map fun p => den I e (env ∘ tr s p)) := by
      intro l' hl'
      have hf := mapO_forall₂ hl'
      have aux : ∀ {ps : List (List ℕ)} {l' : List (CE × Bool)}, (∀ p ∈ ps, p ∈ G.elems) → List.Forall₂ (fun p b =>
          ((rename bld gt n (tr s p) e).bind fun e' => xrep bld gt eqv r n e') = some b) ps l' →
          GoodL (fun _ => True) (fun _ _ _ => True) (l'.map (·.1)) ∧
          (∀ env ∈ D, denL I (l'.map (·.1)) env = ps.map fun p => den I e (pt I r env ∘ tr s p)) ∧
          (l'.any (·.2) = false → ∀ env ∈ D, denL I (l'.map (·.1)) env = ps.map fun p => den I e (env ∘ tr s p)) := by
        intro ps l' hps hf
        induction hf with
        | nil => exact ⟨trivial, fun env _ => by simp [denL], fun _ env _ => by simp [denL]⟩
        | cons hab _ ih =>
          obtain ⟨g2, v2, u2⟩ := ih fun p hp => hps p (List.mem_cons_of_mem _ hp)
          simp only [Option.bind_eq_some_iff] at hab
          obtain ⟨e', he', hxe⟩ := hab
          obtain ⟨ge', ve'⟩ := hren _ (hps _ List.mem_cons_self) e' he'
          obtain ⟨g1, u1, v1⟩ := hx e' _ ge' hxe
          refine ⟨⟨g1, g2⟩, fun env he => ?_, fun hu env he => ?_⟩
          · simp only [List.map_cons, denL]
            rw [v2 env he, v1 env he, ve' _ (hpt env he)]
          · simp only [List.any_cons, Bool.or_eq_false_iff] at hu
            simp only [List.map_cons, denL]
            rw [u2 hu.2 env he, u1 hu.1, ve' env he]
      exact aux (fun p hp => hp) hf
    have hfallback : ((mapO (fun p => (rename bld gt n (tr s p) e).bind fun e' => xrep bld gt eqv r n e') G.elems).map
        fun l' => if l'.any (·.2) then (base bld k (l'.map (·.1)), true) else (CE.cyc k e s G, false)) = some x →
        Good x.1 ∧ (x.2 = false → x.1 = .cyc k e s G) ∧
          ∀ env ∈ D, den I x.1 env = den I (.cyc k e s G) (pt I r env) := by
      intro h
      simp only [Option.map_eq_some_iff] at h
      obtain ⟨l', hl', rfl⟩ := h
      obtain ⟨g, v, u⟩ := hfall l' hl'
      by_cases ha : l'.any (·.2) = true
      · rw [if_pos ha]
        obtain ⟨g2, v2⟩ := base_ok hb k g
        refine ⟨g2, fun h => by simp at h, fun env he => ?_⟩
        dsimp only
        rw [v2 env he, v env he, den_cyc]
      · rw [if_neg ha]
        refine ⟨hself, fun _ => rfl, fun env he => ?_⟩
        dsimp only
        rw [den_cyc, den_cyc, ← u (by simpa using ha) env he, v env he]
    unfold xrep at h
    dsimp only at h
    by_cases h1 : ((dkeys r).all fun x => !((free (CE.cyc k e s G)).contains x)) = true
    · rw [if_pos h1] at h
      simp only [Option.some.injEq] at h
      subst h
      refine ⟨hself, fun _ => rfl, fun env _ => ?_⟩
      apply den_congr
      intro y hy
      have : y ∉ dkeys r := by
        intro hyk
        have := List.all_eq_true.1 h1 y hyk
        simp [hy] at this
      simp [pt, Rule.get_of_notMem this, den]
    rw [if_neg h1] at h
    by_cases h2 : (r.all fun kv => eqv (.sym kv.1) kv.2) = true
    · rw [if_pos h2] at h
      refine harg s false (fun _ => rfl) hs hl (fun p hp => ?_) h
      exact comm_of_ident hb hG hs hl heqv hgr (List.all_eq_true.1 h2) hp
    rw [if_neg h2] at h
    by_cases h3 : (changedVars r s).isEmpty = true
    · rw [if_pos h3] at h
      refine harg s false (fun _ => rfl) hs hl (fun p hp => ?_) h
      refine comm_of_untouched (fun y hy => ?_) p
      have he : changedVars r s = [] := List.isEmpty_iff.1 h3
      constructor
      · intro hyk
        have := mem_changed.2 ⟨hy, Or.inl hyk⟩
        rw [he] at this; simp at this
      · intro hyk
        have := mem_changed.2 ⟨hy, Or.inr hyk⟩
        rw [he] at this; simp at this
    rw [if_neg h3] at h
    by_cases h4 : caseA r s = true
    · rw [if_pos h4] at h
      refine harg _ true (fun h => by simp at h) (caseA_spec h4).2 (by simpa using hl) (fun p hp => ?_) h
      exact comm_of_caseA hG hs hl h4 (fun z hz y hV hy => hnc k s G hB h4 z hz y hV hy) hp
    rw [if_neg h4] at h
    simp only [Option.bind_eq_some_iff] at h
    obtain ⟨inv, hinv, h⟩ := h
    cases inv with
    | true =>
      rw [if_pos rfl] at h
      refine harg s false (fun _ => rfl) hs hl (fun p hp => ?_) h
      exact comm_of_invariant hb hG hs hl heqv hgr hnd hinv hp
    | false =>
      rw [if_neg (by simp)] at h
      by_cases h5 : s.length ≤ (changedVars r s).length + 1
      · rw [if_pos h5] at h; exact hfallback h
      rw [if_neg h5] at h
      generalize hinds : ((List.range s.length).filter fun i => (changedVars r s).contains (s.getD i 0)) = inds at h
      have hindslt : ∀ i ∈ inds, i < G.deg := by
        intro i hi
        rw [← hinds] at hi
        have := (List.mem_filter.1 hi).1
        rw [← hl]; simpa using this
      obtain ⟨hcut, hsub⟩ := orbit_cut (s := s) hG.grp hl hindslt
      generalize hchg : orbitUnion G inds = chg at h hcut hsub
      generalize hunch : ((List.range s.length).filter fun i => !(chg.contains i)) = unch at h hcut
      by_cases h6 : unch.length < 2
      · rw [if_pos h6] at h; exact hfallback h
      rw [if_neg h6] at h
      by_cases h7 : ((pointStab G chg).map (project unch)).length = 1
      · rw [if_pos h7] at h; exact hfallback h
      rw [if_neg h7] at h
      -- indices of changed symbols are in `chg`
      have hchgmem : ∀ i (hi : i < s.length), s[i] ∈ changedVars r s → i ∈ chg := by
        intro i hi hic
        apply hsub
        rw [← hinds]
        refine List.mem_filter.2 ⟨by simpa using hi, ?_⟩
        simpa [List.getElem?_eq_getElem hi] using hic
      have hne : chg ≠ [] := by
        intro hnil
        have : changedVars r s ≠ [] := by
          intro h; rw [h] at h3; simp at h3
        obtain ⟨y, hy⟩ := List.exists_mem_of_ne_nil _ this
        obtain ⟨i, hi, rfl⟩ := List.getElem_of_mem (mem_changed.1 hy).1
        have := hchgmem i hi hy
        rw [hnil] at this; simp at this
      obtain ⟨hperm, hkst0⟩ := hsplit k s G hB chg unch hcut hne (by omega) (by simpa using h7)
      -- translations of the remaining symbols commute with the rule
      have hcomm : ∀ q ∈ pointStab G chg, Comm I D (fun _ => True) r s s q := by
        intro q hq env _ y _
        obtain ⟨hq1, hq2⟩ := mem_pointStab.1 hq
        have hmove : ∀ z, tr s q z ≠ z → z ∈ s ∧ z ∉ dkeys r ∧ z ∉ r.valVars := by
          intro z hz
          have hzs : z ∈ s := by
            by_contra hc; exact hz (tr_notin hc)
          obtain ⟨i, hi, rfl⟩ := List.getElem_of_mem hzs
          have hnc : s[i] ∉ changedVars r s := by
            intro hc
            have hic := hchgmem i hi hc
            have hql : i < q.length := by rw [hG.grp.length_eq hq1, ← hl]; exact hi
            have hqi : q[i] < s.length := by rw [hl]; exact hG.grp.lt_of_mem hq1 _ (List.getElem_mem hql)
            rw [tr_get hs hi hql hqi] at hz
            have := hq2 i hic
            simp only [List.getD_eq_getElem?_getD, List.getElem?_eq_getElem hql, Option.getD_some] at this
            simp only [this] at hz
            exact hz rfl
          refine ⟨hzs, fun hk => hnc (mem_changed.2 ⟨hzs, Or.inl hk⟩), fun hk => hnc (mem_changed.2 ⟨hzs, Or.inr hk⟩)⟩
        by_cases hy : tr s q y = y
        · rw [hy]
          apply den_congr
          intro z hz
          have : tr s q z = z := by
            by_contra hzc
            obtain ⟨hz1, hz2, hz3⟩ := hmove z hzc
            rcases hd : dget r y with _ | v
            · rw [Rule.get_of_notMem ((dget_eq_none_iff _ _).1 hd)] at hz
              simp only [free, List.mem_singleton] at hz
              subst hz; exact hzc hy
            · rw [Rule.get_of_dget hd] at hz
              exact hz3 (mem_valVars hd hz)
          simp [this]
        · obtain ⟨hy1, hy2, hy3⟩ := hmove y hy
          have hy' : tr s q (tr s q y) ≠ tr s q y := fun h => hy (tr_injective hG.grp hs hl hq1 h)
          obtain ⟨-, hy4, -⟩ := hmove _ hy'
          rw [Rule.get_of_notMem hy2, Rule.get_of_notMem hy4]
          simp [den]
      set u := unch.map fun i => s.getD i 0 with hu
      have hun : ∀ q ∈ pointStab G chg, ∀ z, tr u (project unch q) z = tr s q z := fun q hq z =>
        hcut.tr_project hG.grp hs hl hq z
      simp only [Option.map_eq_some_iff] at h
      obtain ⟨l', hl', rfl⟩ := h
      have hf := mapO_forall₂ hl'
      have aux : ∀ {ps : List (List ℕ)} {l' : List (CE × Bool)}, (∀ p ∈ ps, p ∈ G.elems) → List.Forall₂ (fun p b =>
          ((rename bld gt n (tr s p) e).bind fun e' => (xrep bld gt eqv r n e').bind fun x =>
            (newCyc bld gt n k x.1 u ⟨unch.length, (pointStab G chg).map (project unch),
              (pointStab G chg).map (project unch)⟩).map fun y => (y, x.2)) = some b) ps l' →
          GoodL (fun _ => True) (fun _ _ _ => True) (l'.map (·.1)) ∧
          (∀ env ∈ D, denL I (l'.map (·.1)) env = ps.map fun p =>
            fold k ((pointStab G chg).map fun q => den I e (pt I r env ∘ tr s (papply p q)))) ∧
          (l'.any (·.2) = false → ∀ env ∈ D, denL I (l'.map (·.1)) env = ps.map fun p =>
            fold k ((pointStab G chg).map fun q => den I e (env ∘ tr s (papply p q)))) := by
        intro ps l' hps hf
        induction hf with
        | nil => exact ⟨trivial, fun env _ => by simp [denL], fun _ env _ => by simp [denL]⟩
        | @cons p b ps' l'' hab _ ih =>
          obtain ⟨g2, v2, u2⟩ := ih fun p hp => hps p (List.mem_cons_of_mem _ hp)
          have hpG := hps p List.mem_cons_self
          simp only [Option.bind_eq_some_iff, Option.map_eq_some_iff] at hab
          obtain ⟨e', he', x1, hx1, y, hy, rfl⟩ := hab
          obtain ⟨ge', ve'⟩ := hren p hpG e' he'
          obtain ⟨g1, u1, v1⟩ := hx e' x1 ge' hx1
          have hkst : k = .prod → (((pointStab G chg).map (project unch)).length : ℕ) = unch.length := by
            simpa using hkst0
          have hx0 : ∀ q ∈ pointStab G chg, ∀ env ∈ D, env ∘ tr s q ∈ D := fun q hq env he =>
            hb.dom env he _ (tr_injective hG.grp hs hl (mem_pointStab.1 hq).1)
          obtain ⟨gy, vy⟩ := (both_ok (gt := gt) cl_true hb n).2 k x1.1 u _ y g1 trivial (hcut.grpOk hG.grp)
            (hkst) hy
          · have hval : ∀ env ∈ D, den I y env = fold k ((pointStab G chg).map fun q => den I x1.1 (env ∘ tr s q)) := by
              intro env he
              rw [vy env he, den_cyc, List.map_map]
              congr 1
              refine List.map_congr_left fun q hq => ?_
              dsimp only [Function.comp]
              congr 1
              funext z
              show env (tr u (project unch q) z) = env (tr s q z)
              rw [hun q hq z]
            have htr : ∀ q ∈ pointStab G chg, ∀ env : ℕ → K, (env ∘ tr s q) ∘ tr s p = env ∘ tr s (papply p q) := by
              intro q hq env
              funext z
              show env (tr s q (tr s p z)) = env (tr s (papply p q) z)
              rw [tr_comp hG.grp hs hl (mem_pointStab.1 hq).1 hpG]
            refine ⟨⟨gy, g2⟩, fun env he => ?_, fun hu env he => ?_⟩
            · simp only [List.map_cons, denL]
              rw [v2 env he, hval env he]
              congr 2
              refine List.map_congr_left fun q hq => ?_
              rw [v1 _ (hx0 q hq env he)]
              have : pt I r (env ∘ tr s q) = pt I r env ∘ tr s q := by
                funext z
                exact hcomm q hq env he z trivial
              rw [this, ve' _ (hx0 q hq _ (hpt env he)), htr q hq]
            · simp only [List.any_cons, Bool.or_eq_false_iff] at hu
              simp only [List.map_cons, denL]
              rw [u2 hu.2 env he, hval env he]
              congr 2
              refine List.map_congr_left fun q hq => ?_
              rw [u1 hu.1, ve' _ (hx0 q hq env he), htr q hq]
      obtain ⟨g, v, w⟩ := aux (fun p hp => (mem_pointStab.1 hp).1) hf
      have hre : ∀ f : List ℕ → K, fold k ((pointStab G unch).map fun p =>
          fold k ((pointStab G chg).map fun q => f (papply p q))) = fold k (G.elems.map f) := by
        intro f
        rw [fold_flatMap]
        have := hperm.map f
        rw [List.map_flatMap] at this
        simp only [List.map_map] at this
        exact fold_perm k this
      by_cases ha : l'.any (·.2) = true
      · rw [if_pos ha]
        obtain ⟨g2, v2⟩ := base_ok hb k g
        refine ⟨g2, fun h => by simp at h, fun env he => ?_⟩
        dsimp only
        rw [v2 env he, v env he, den_cyc, hre fun p => den I e (pt I r env ∘ tr s p)]
      · rw [if_neg ha]
        refine ⟨hself, fun _ => rfl, fun env he => ?_⟩
        dsimp only
        rw [den_cyc, den_cyc, ← hre fun p => den I e (env ∘ tr s p), ← w (by simpa using ha) env he, v env he,
          hre fun p => den I e (pt I r env ∘ tr s p)]

/-- **C40** (partial, general form).  `e.xreplace(rule)` has at every point the value that `e` has at the point where
each symbol takes the value of its replacement; a result reported as unchanged is the expression itself.  `V` holds of
the symbols of `e` and `B` of its tuples and groups.  Hypotheses: the comparison up to `signsimp` is sound; renaming a
tuple captures no other symbol (false without it: `xrep_capture_wrong`); the group splits where the rule touches only
some orbits (false without it: `xrep_partial_wrong`); products as in `newCyc_value_partial`.  Missing: rules whose
keys are not symbols. -/
theorem xrep_value_partial (hcl : Cl V B) (hb : BldOk I D bld) {r : Rule} (hgr : ∀ kv ∈ r, Good kv.2)
    (hnd : (dkeys r).Nodup)
    (heqv : ∀ u v, Good u → Good v → eqv u v = true → ∀ env ∈ D, den I u env = den I v env)
    (hpt : ∀ env ∈ D, pt I r env ∈ D)
    (hnc : ∀ k s G, B k s G → caseA r s = true → ∀ x ∈ s, ∀ y, V y → y ∉ s → newSym r x ∉ free (r.get y))
    (hsplit : ∀ k s G, B k s G → SplitOk k G) :
    ∀ (n : ℕ) (e : CE) (x : CE × Bool), GoodW V B e → xrep bld gt eqv r n e = some x →
      Good x.1 ∧ (x.2 = false → x.1 = e) ∧
      ∀ env ∈ D, den I x.1 env = den I e (fun y => den I ((dget r y).getD (.sym y)) env)
  | 0, e, x, _, h => by simp [xrep] at h
  | n + 1, e, x, hg, h =>
    xok_succ hcl hb hgr hnd heqv hpt hnc hsplit
      (xrep_value_partial hcl hb hgr hnd heqv hpt hnc hsplit n) e x hg h

/-- **C40** (partial, one tuple).  All cyclic expressions inside `e` are over the symbols `T`, in any order, and `P`
lists the other symbols; the symbols that replace those of `T` do not occur in the replacements of those of `P`. -/
theorem xrep_value_tuple_partial (T P : List ℕ) (hb : BldOk I D bld) {r : Rule} (hgr : ∀ kv ∈ r, Good kv.2)
    (hnd : (dkeys r).Nodup)
    (heqv : ∀ u v, Good u → Good v → eqv u v = true → ∀ env ∈ D, den I u env = den I v env)
    (hpt : ∀ env ∈ D, pt I r env ∈ D)
    (hnc : ∀ x ∈ T, ∀ z, (x, CE.sym z) ∈ r → ∀ y ∈ P, y ∉ T → z ∉ free ((dget r y).getD (.sym y)))
    (n : ℕ) (e : CE) (x : CE × Bool)
    (he : GoodW (fun x => x ∈ T ∨ x ∈ P) (fun k s G => s.Perm T ∧ SplitOk k G) e)
    (h : xrep bld gt eqv r n e = some x) :
    ∀ env ∈ D, den I x.1 env = den I e (fun y => den I ((dget r y).getD (.sym y)) env) := by
  have hcl : Cl (fun x => x ∈ T ∨ x ∈ P) (fun k s G => s.Perm T ∧ SplitOk k G) := by
    refine ⟨fun k s G hB x hx => Or.inl (hB.1.mem_iff.1 hx), fun k s t G hB hst => ⟨hst.symm.trans hB.1, hB.2⟩, ?_⟩
    intro k l s t G H p hBs hs hp hBt
    refine ⟨?_, hBt.2⟩
    have h1 : (t.map (tr s p)).Perm (s.map (tr s p)) := (hBt.1.trans hBs.1.symm).map _
    have h2 : s.map (tr s p) = papply p s := by
      have hpl : p.length = s.length := by simpa using hp.length_eq
      apply List.ext_getElem
      · simp [papply, hpl]
      · intro i h3 h4
        have hi : i < s.length := by simpa using h3
        have hpi : i < p.length := by rw [hpl]; exact hi
        have hlt : p[i] < s.length := by
          have := hp.mem_iff.1 (List.getElem_mem hpi); simpa using this
        rw [List.getElem_map, tr_get hs hi hpi hlt, papply_getElem hpi hlt]
    rw [h2] at h1
    exact h1.trans ((papply_perm p s hp).trans hBs.1)
  refine (xrep_value_partial hcl hb hgr hnd heqv hpt ?_ (fun k s G hB => hB.2) n e x he h).2.2
  intro k s G hB hA x hx y hV hy
  have hsym := (caseA_spec hA).1 x hx
  have hyP : y ∈ P := by
    rcases hV with hV | hV
    · exact absurd (hB.1.mem_iff.2 hV) hy
    · exact hV
  rcases hd : dget r x with _ | v
  · have hnk := (dget_eq_none_iff _ _).1 hd
    have hxe : newSym r x = x := by simp [newSym, hd]
    rw [hxe]
    intro hxf
    rcases hdy : dget r y with _ | w
    · rw [Rule.get_of_notMem ((dget_eq_none_iff _ _).1 hdy)] at hxf
      simp only [free, List.mem_singleton] at hxf
      exact hy (hxf ▸ hx)
    · rw [Rule.get_of_dget hdy] at hxf
      have hch : x ∈ changedVars r s := mem_changed.2 ⟨hx, Or.inr (mem_valVars hdy hxf)⟩
      simp only [caseA, Bool.and_eq_true, List.all_eq_true] at hA
      have := hA.1.1 x hch
      rw [hd] at this
      simp at this
  · rw [Rule.get_of_dget hd] at hsym
    subst hsym
    exact hnc x (hB.1.mem_iff.1 hx) _ (mem_of_dget hd) y hyP (fun hyT => hy (hB.1.mem_iff.2 hyT))

end

/-! ### examples and counterexamples -/

/-- a transitive group satisfies the splitting condition -/
theorem splitOk_of_transitive {G : PGrp} (k : Kind)
    (h : ∀ i < G.deg, ∀ j < G.deg, ∃ p ∈ G.elems, p.getD i 0 = j) : SplitOk k G := by
  intro chg unch hc hne hlen
  obtain ⟨i, hi⟩ := List.exists_mem_of_ne_nil _ hne
  obtain ⟨j, hj⟩ := List.exists_mem_of_ne_nil unch (by intro h; rw [h] at hlen; simp at hlen)
  obtain ⟨p, hp, hpj⟩ := h i (hc.lt i hi) j (hc.mem.1 hj).1
  exact absurd (hpj ▸ hc.closed p hp i hi) (hc.mem.1 hj).2

theorem c3_split (k : Kind) : SplitOk k c3 := splitOk_of_transitive k (by decide)

/-- a sound comparison: two products of two symbols, in either order -/
def eqvMul : CE → CE → Bool
  | .mul [.sym a, .sym b], .mul [.sym c, .sym d] => (a == c && b == d) || (a == d && b == c)
  | _, _ => false

theorem eqvMul_sound (u v : CE) (h : eqvMul u v = true) (env : ℕ → ℚ) :
    den (fun _ _ => 0) u env = den (fun _ _ => 0) v env := by
  unfold eqvMul at h
  split at h
  · simp only [Bool.or_eq_true, Bool.and_eq_true, beq_iff_eq] at h
    rcases h with ⟨rfl, rfl⟩ | ⟨rfl, rfl⟩
    · rfl
    · simp [den, denL, mul_comm]
  · simp at h

/-- `CyclicSum(a*(b + 7), (a, b, c)).xreplace({a: a*b, b: b*c, c: c*a})` keeps the cyclic sum and its value. -/
def exRule : Rule := [(0, .mul [.sym 0, .sym 1]), (1, .mul [.sym 1, .sym 2]), (2, .mul [.sym 2, .sym 0])]

def exSum : CE := .cyc .sum (.mul [.sym 0, .add [.sym 1, .sym 7]]) [0, 1, 2] c3

example : (match xrep (fun e => e) (fun _ _ => false) eqvMul exRule 9 exSum with
    | some (.cyc .sum _ [0, 1, 2] _, true) => true
    | _ => false) = true := by decide +kernel

example (env : ℕ → ℚ) (x : CE × Bool)
    (h : xrep (fun e => e) (fun _ _ => false) eqvMul exRule 9 exSum = some x) :
    den (fun _ _ => 0) x.1 env = den (fun _ _ => 0) exSum
      (fun y => den (fun _ _ => 0) ((dget exRule y).getD (.sym y)) env) := by
  refine xrep_value_tuple_partial [0, 1, 2] [7] (bldOk_id _) (r := exRule) ?_ (by decide)
    (fun u v _ _ h env _ => eqvMul_sound u v h env) (fun _ _ => trivial) ?_ 9 exSum x ?_ h env trivial
  · intro kv hkv
    simp only [exRule, List.mem_cons, List.not_mem_nil, or_false] at hkv
    rcases hkv with rfl | rfl | rfl <;> exact ⟨trivial, trivial, trivial⟩
  · intro x _ z hz
    simp [exRule] at hz
  · refine ⟨⟨Or.inl (by decide), ⟨Or.inl (by decide), Or.inr (by decide), trivial⟩, trivial⟩, by decide, rfl, c3_ok,
      fun h => by simp at h, List.Perm.refl _, c3_split _⟩

/-- **Defect**: `CyclicSum(a*x, (a, b, c)).xreplace({a: x, b: y, c: z})` is `CyclicSum(x**2, (x, y, z))`: the
parameter `x` is captured by the new symbols.  At `x = 1, y = 2, z = 3` it has the value `14`, while replacing in the
expansion gives `x*(x + y + z) = 6`. -/
theorem xrep_capture_wrong : ∃ x, xrep (fun e => e) (fun _ _ => false) eqvMul [(0, .sym 10), (1, .sym 11), (2, .sym 12)] 9
      (.cyc .sum (.mul [.sym 0, .sym 10]) [0, 1, 2] c3) = some x ∧
    den (K := ℚ) (fun _ _ => 0) x.1 (fun i => i - 9) = 14 ∧
    den (K := ℚ) (fun _ _ => 0) (.cyc .sum (.mul [.sym 0, .sym 10]) [0, 1, 2] c3)
      (fun y => den (fun _ _ => 0) ((dget [(0, CE.sym 10), (1, .sym 11), (2, .sym 12)] y).getD (.sym y))
        (fun i => (i : ℚ) - 9)) = 6 := by
  have h : (xrep (fun e => e) (fun _ _ => false) eqvMul [(0, .sym 10), (1, .sym 11), (2, .sym 12)] 9
      (.cyc .sum (.mul [.sym 0, .sym 10]) [0, 1, 2] c3)).map
      (fun x => den (K := ℚ) (fun _ _ => 0) x.1 (fun i => i - 9)) = some 14 := by decide +kernel
  obtain ⟨x, hx, hv⟩ := Option.map_eq_some_iff.1 h
  exact ⟨x, hx, hv, by decide +kernel⟩

/-- the group generated by `(0 1)(2 3 4 5)` -/
def g4 : PGrp := ⟨6, [[0, 1, 2, 3, 4, 5], [1, 0, 3, 4, 5, 2], [0, 1, 4, 5, 2, 3], [1, 0, 5, 2, 3, 4]],
  [[1, 0, 3, 4, 5, 2]]⟩

theorem g4_ok : GrpOk g4 where
  grp := ⟨by decide, by decide, by decide, by decide, by decide⟩
  mem := by decide
  gen := by
    intro p hp
    simp only [g4, List.mem_cons, List.not_mem_nil, or_false] at hp
    rcases hp with rfl | rfl | rfl | rfl
    · exact ⟨[], by decide, by decide⟩
    · exact ⟨[[1, 0, 3, 4, 5, 2]], by decide, by decide⟩
    · exact ⟨[[1, 0, 3, 4, 5, 2], [1, 0, 3, 4, 5, 2]], by decide, by decide⟩
    · exact ⟨[[1, 0, 3, 4, 5, 2], [1, 0, 3, 4, 5, 2], [1, 0, 3, 4, 5, 2]], by decide, by decide⟩

/-- **Defect**: with the group generated by `(0 1)(2 3 4 5)`, replacing `a` by `a*a` in `CyclicSum(a*x, (a,b,x,y,z,w))`
keeps only the two terms of the stabiliser: at the point where every symbol is `1` except `a = 2`, the result is
`8` and the expansion gives `10`. -/
theorem xrep_partial_wrong :
    ∃ x, xrep (fun e => e) (fun _ _ => false) eqvMul [(0, .mul [.sym 0, .sym 0])] 9
      (.cyc .sum (.mul [.sym 0, .sym 2]) [0, 1, 2, 3, 4, 5] g4) = some x ∧
    den (K := ℚ) (fun _ _ => 0) x.1 (fun i => if i = 0 then 2 else 1) = 8 ∧
    den (K := ℚ) (fun _ _ => 0) (.cyc .sum (.mul [.sym 0, .sym 2]) [0, 1, 2, 3, 4, 5] g4)
      (fun y => den (fun _ _ => 0) ((dget [(0, CE.mul [.sym 0, .sym 0])] y).getD (.sym y))
        (fun i => (if i = 0 then 2 else 1 : ℚ))) = 10 := by
  have h : (xrep (fun e => e) (fun _ _ => false) eqvMul [(0, .mul [.sym 0, .sym 0])] 9
      (.cyc .sum (.mul [.sym 0, .sym 2]) [0, 1, 2, 3, 4, 5] g4)).map
      (fun x => den (K := ℚ) (fun _ _ => 0) x.1 (fun i => if i = 0 then 2 else 1)) = some 8 := by decide +kernel
  obtain ⟨x, hx, hv⟩ := Option.map_eq_some_iff.1 h
  exact ⟨x, hx, hv, by decide +kernel⟩

end Verif.Cyc
