import Verif.Model.CycRewrite
import Verif.Props.CycXrep
import Mathlib.Tactic.LinearCombination

/-!
# C70: rewriting a solution with respect to another permutation group keeps its value
-/

namespace Verif.Cyc

/-- no cyclic expression inside -/
abbrev NoCyc : CE → Prop := GoodW (fun _ => True) (fun _ _ _ => False)

theorem cl_false : Cl (fun _ => True) (fun _ _ _ => False) :=
  ⟨fun _ _ _ h => h.elim, fun _ _ _ _ h => h.elim, fun _ _ _ _ _ _ _ h => h.elim⟩

theorem dget_permRule (s p : List ℕ) (y : ℕ) :
    dget (permRule s p) y = if y ∈ s then some (.sym (tr s p y)) else none := by
  have : ∀ (l : List ℕ) (f : ℕ → CE), dget (l.map fun x => (x, f x)) y = if y ∈ l then some (f y) else none := by
    intro l f
    induction l with
    | nil => simp [dget]
    | cons a l ih =>
      rw [List.map_cons, dget]
      by_cases h : a = y
      · subst h; simp
      · rw [if_neg h, ih]; simp [Ne.symm h]
  exact this s _

section
variable {K : Type*} [Field K] {I : ℕ → List K → K} {D : Set (ℕ → K)} {bld : CE → CE} {gt eqv : CE → CE → Bool}

theorem pt_permRule (s p : List ℕ) (env : ℕ → K) :
    (fun y => den I ((dget (permRule s p) y).getD (.sym y)) env) = env ∘ tr s p := by
  funext y
  rw [dget_permRule]
  by_cases h : y ∈ s
  · simp [h, den]
  · simp [h, den, tr_notin h]

theorem noCycL {l : List CE} {l' : List (CE × Bool)} {f : CE → Option (CE × Bool)}
    (hf : ∀ e x, NoCyc e → f e = some x → NoCyc x.1) (hl : GoodL (fun _ => True) (fun _ _ _ => False) l)
    (h : List.Forall₂ (fun a b => f a = some b) l l') : GoodL (fun _ => True) (fun _ _ _ => False) (l'.map (·.1)) := by
  induction h with
  | nil => trivial
  | cons hab _ ih => exact ⟨hf _ _ hl.1 hab, ih hl.2⟩

theorem xrep_noCyc (hb : BldOk I D bld) {r : Rule} (hr : ∀ kv ∈ r, NoCyc kv.2) :
    ∀ (n : ℕ) (e : CE) (x : CE × Bool), NoCyc e → xrep bld gt eqv r n e = some x → NoCyc x.1
  | 0, e, x, _, h => by simp [xrep] at h
  | n + 1, .num q, x, _, h => by simp only [xrep, Option.some.injEq] at h; subst h; trivial
  | n + 1, .sym i, x, _, h => by
    simp only [xrep, Option.some.injEq] at h; subst h
    rcases hd : dget r i with _ | v
    · trivial
    · exact hr _ (mem_of_dget hd)
  | n + 1, .add l, x, hg, h => by
    simp only [xrep, Option.map_eq_some_iff] at h
    obtain ⟨l', hl', rfl⟩ := h
    split
    · exact hb.good cl_false (.add _) (noCycL (xrep_noCyc hb hr n) hg (mapO_forall₂ hl'))
    · exact hg
  | n + 1, .mul l, x, hg, h => by
    simp only [xrep, Option.map_eq_some_iff] at h
    obtain ⟨l', hl', rfl⟩ := h
    split
    · exact hb.good cl_false (.mul _) (noCycL (xrep_noCyc hb hr n) hg (mapO_forall₂ hl'))
    · exact hg
  | n + 1, .pow b m, x, hg, h => by
    simp only [xrep, Option.map_eq_some_iff] at h
    obtain ⟨b', hb', rfl⟩ := h
    split
    · exact hb.good cl_false (.pow _ m) (xrep_noCyc hb hr n b b' hg hb')
    · exact hg
  | n + 1, .app f l, x, hg, h => by
    simp only [xrep, Option.map_eq_some_iff] at h
    obtain ⟨l', hl', rfl⟩ := h
    split
    · exact hb.good cl_false (.app f _) (noCycL (xrep_noCyc hb hr n) hg (mapO_forall₂ hl'))
    · exact hg
  | n + 1, .cyc k e s G, x, hg, h => hg.2.2.2.2.2.elim

theorem permRule_value (hb : BldOk I D bld)
    (heqv : ∀ u v, Good u → Good v → eqv u v = true → ∀ env ∈ D, den I u env = den I v env)
    {s : List ℕ} {G : PGrp} (hG : GrpOk G) (hs : s.Nodup) (hl : s.length = G.deg) {p : List ℕ} (hp : p ∈ G.elems)
    (n : ℕ) (e : CE) (x : CE × Bool) (he : NoCyc e) (h : xrep bld gt eqv (permRule s p) n e = some x) :
    NoCyc x.1 ∧ ∀ env ∈ D, den I x.1 env = den I e (env ∘ tr s p) := by
  have hsym : ∀ kv ∈ permRule s p, ∃ j, kv.2 = .sym j := by
    intro kv hkv
    obtain ⟨a, _, rfl⟩ := List.mem_map.1 hkv
    exact ⟨_, rfl⟩
  refine ⟨xrep_noCyc hb (fun kv hkv => ?_) n e x he h, fun env henv => ?_⟩
  · obtain ⟨j, hj⟩ := hsym kv hkv
    rw [hj]; trivial
  · have := (xrep_value_partial (gt := gt) cl_false hb (r := permRule s p) (fun kv hkv => ?_) ?_ heqv ?_
      (fun _ _ _ h => h.elim) (fun _ _ _ h => h.elim) n e x he h).2.2 env henv
    · rw [this, pt_permRule]
    · obtain ⟨j, hj⟩ := hsym kv hkv
      rw [hj]; trivial
    · have : dkeys (permRule s p) = s := by simp [dkeys, permRule, Function.comp_def]
      rw [this]; exact hs
    · intro env henv
      rw [show pt I (permRule s p) env = env ∘ tr s p from pt_permRule s p env]
      exact hb.dom env henv _ (tr_injective hG.grp hs hl hp)

theorem rwPick_value (hb : BldOk I D bld)
    (heqv : ∀ u v, Good u → Good v → eqv u v = true → ∀ env ∈ D, den I u env = den I v env)
    {s : List ℕ} {H : PGrp} (hH : GrpOk H) (hs : s.Nodup) (hl : s.length = H.deg) (n : ℕ) (e0 : CE) :
    ∀ (hs' : List (List ℕ)) (cur r : CE), (∀ h ∈ hs', h ∈ H.elems) → NoCyc cur →
      (∃ h ∈ H.elems, ∀ env ∈ D, den I cur env = den I e0 (env ∘ tr s h)) → rwPick bld gt eqv n s hs' cur = some r →
      NoCyc r ∧ ∃ h ∈ H.elems, ∀ env ∈ D, den I r env = den I e0 (env ∘ tr s h)
  | [], cur, r, _, hc, hv, h => by simp only [rwPick, Option.some.injEq] at h; subst h; exact ⟨hc, hv⟩
  | g :: gs, cur, r, hm, hc, hv, h => by
    have hg := hm g List.mem_cons_self
    rw [rwPick] at h
    rcases hx : xrep bld gt eqv (permRule s g) n cur with _ | x
    · rw [hx] at h; simp at h
    · rw [hx] at h
      dsimp only at h
      obtain ⟨c1, v1⟩ := permRule_value hb heqv hH hs hl hg n cur x hc hx
      refine rwPick_value hb heqv hH hs hl n e0 gs _ r (fun h hh => hm h (List.mem_cons_of_mem _ hh)) ?_ ?_ h
      · split <;> assumption
      · split
        · obtain ⟨q, hq, hv⟩ := hv
          refine ⟨papply q g, hH.grp.mul q hq g hg, fun env he => ?_⟩
          rw [v1 env he, hv _ (hb.dom env he _ (tr_injective hH.grp hs hl hg))]
          congr 1
          funext y
          simp only [Function.comp]
          rw [tr_comp hH.grp hs hl hg hq]
        · exact hv

theorem fold_swap (k : Kind) {α β : Type*} (l : List α) (m : List β) (f : α → β → K) :
    fold k (l.map fun a => fold k (m.map fun b => f a b)) = fold k (m.map fun b => fold k (l.map fun a => f a b)) := by
  induction l with
  | nil =>
    cases k
    · simp [fold]
    · simp [fold]
  | cons a l ih =>
    cases k with
    | sum =>
      simp only [fold, List.map_cons, List.sum_cons] at ih ⊢
      rw [ih]
      clear ih
      induction m with
      | nil => simp
      | cons b m ihm => simp only [List.map_cons, List.sum_cons]; rw [← ihm]; ring
    | prod =>
      simp only [fold, List.map_cons, List.prod_cons] at ih ⊢
      rw [ih]
      clear ih
      induction m with
      | nil => simp
      | cons b m ihm => simp only [List.map_cons, List.prod_cons]; rw [← ihm]; ring

variable {trans : PGrp → PGrp → List (List ℕ)} {tog : CE → CE} {isz : CE → Bool}

/-- Case 3 of the rewriting: the argument is translated by representatives of the cosets of `H` in `G`. -/
theorem rwCosets_value (hb : BldOk I D bld)
    (heqv : ∀ u v, Good u → Good v → eqv u v = true → ∀ env ∈ D, den I u env = den I v env)
    (htog : ∀ e, Good e → Good (tog e) ∧ ∀ env ∈ D, den I (tog e) env = den I e env)
    {s : List ℕ} {G H : PGrp} (hG : GrpOk G) (hH : GrpOk H) (hs : s.Nodup) (hl : s.length = G.deg) (hd : H.deg = G.deg)
    (hsub : ∀ p ∈ H.elems, p ∈ G.elems) {T : List (List ℕ)} (hTG : ∀ t ∈ T, t ∈ G.elems)
    (hT : (T.flatMap fun t => H.elems.map fun h => papply t h).Perm G.elems) (n : ℕ) {k : Kind} {e r : CE} (he : NoCyc e)
    (hk : k = .prod → H.elems.length = H.deg) {l : List CE}
    (h : mapO (fun t => (xrep bld gt eqv (permRule s t) n e).bind fun x => rwPick bld gt eqv n s H.elems x.1) T = some l)
    (hr : newCyc bld gt n k (tog (base bld k l)) s H = some r) :
    Good r ∧ ∀ env ∈ D, den I r env = den I (.cyc k e s G) env := by
  have hl' : s.length = H.deg := by rw [hd, hl]
  have hsd : ∀ p ∈ H.elems, ∀ env ∈ D, env ∘ tr s p ∈ D := fun p hp env henv =>
    hb.dom env henv _ (tr_injective hG.grp hs hl (hsub p hp))
  have aux : ∀ {ts : List (List ℕ)} {l : List CE}, (∀ t ∈ ts, t ∈ G.elems) → List.Forall₂ (fun t b =>
      ((xrep bld gt eqv (permRule s t) n e).bind fun x => rwPick bld gt eqv n s H.elems x.1) = some b) ts l →
      GoodL (fun _ => True) (fun _ _ _ => True) l ∧ ∀ env ∈ D,
        (l.map fun b => fold k (H.elems.map fun h => den I b (env ∘ tr s h))) =
          ts.map fun t => fold k (H.elems.map fun h => den I e (env ∘ tr s (papply t h))) := by
    intro ts l hts hf
    induction hf with
    | nil => exact ⟨trivial, fun _ _ => rfl⟩
    | @cons t b ts l hab _ ih =>
      obtain ⟨g2, v2⟩ := ih fun t ht => hts t (List.mem_cons_of_mem _ ht)
      simp only [Option.bind_eq_some_iff] at hab
      obtain ⟨x, hx, hp⟩ := hab
      have ht := hts t List.mem_cons_self
      obtain ⟨c1, v1⟩ := permRule_value hb heqv hG hs hl ht n e x he hx
      obtain ⟨c2, q, hq, vq⟩ := rwPick_value hb heqv hH hs hl' n x.1 H.elems x.1 b (fun _ h => h) c1
        ⟨List.range H.deg, hH.grp.one, fun env _ => by
          congr 1; funext y; simp [tr_range]⟩ hp
      refine ⟨⟨goodW_good b c2, g2⟩, fun env henv => ?_⟩
      rw [List.map_cons, List.map_cons, v2 env henv]
      congr 1
      have e1 : (H.elems.map fun h => den I b (env ∘ tr s h)) =
          (H.elems.map fun h => papply q h).map fun h => den I e (env ∘ tr s (papply t h)) := by
        rw [List.map_map]
        refine List.map_congr_left fun h hh => ?_
        have hqh := hH.grp.mul q hq h hh
        rw [vq _ (hsd h hh env henv), v1 _ (by
          have := hsd q hq _ (hsd h hh env henv); exact this)]
        congr 1
        funext y
        simp only [Function.comp]
        rw [tr_comp hG.grp hs hl (hsub q hq) ht, tr_comp hG.grp hs hl (hsub h hh) (hG.grp.mul t ht q (hsub q hq)),
          hG.grp.papply_papply' ht (hsub q hq)]
      rw [e1]
      exact fold_perm k ((mulLeft_perm hH.grp hq).map _)
  obtain ⟨gl, vl⟩ := aux hTG (mapO_forall₂ h)
  obtain ⟨gb, vb⟩ := base_ok hb k gl
  obtain ⟨gt', vt⟩ := htog _ gb
  obtain ⟨gr, vr⟩ := (both_ok (gt := gt) cl_true hb n).2 k _ s H r gt' trivial hH hk hr
  refine ⟨gr, fun env henv => ?_⟩
  rw [vr env henv, den_cyc, den_cyc]
  have e2 : (H.elems.map fun p => den I (tog (base bld k l)) (env ∘ tr s p)) =
      H.elems.map fun p => fold k (l.map fun b => den I b (env ∘ tr s p)) := by
    refine List.map_congr_left fun p hp => ?_
    rw [vt _ (hsd p hp env henv), vb _ (hsd p hp env henv), denL_eq]
  rw [e2, fold_swap, vl env henv, fold_flatMap, ← fold_perm k (hT.map fun p => den I e (env ∘ tr s p))]
  congr 1
  rw [List.map_flatMap]
  congr 1
  funext t
  rw [List.map_map]
  rfl

/-- The expressions covered: cyclic expressions over groups, not nested; where the group contains the target group `H`
on the same symbols, the products of a representative and an element of `H` run through the group once. -/
structure NodeOk (trans : PGrp → PGrp → List (List ℕ)) (symbols : List ℕ) (H : PGrp) (k : Kind) (s : List ℕ) (G : PGrp) :
    Prop where
  mem : s = symbols → (∀ p ∈ H.elems, p ∈ G.elems) → ∀ t ∈ trans G H, t ∈ G.elems
  cosets : s = symbols → (∀ p ∈ H.elems, p ∈ G.elems) →
    ((trans G H).flatMap fun t => H.elems.map fun h => papply t h).Perm G.elems
  prod : k = .prod → s = symbols → H.elems.length = H.deg

theorem rwCyc_value [CharZero K] (hb : BldOk I D bld)
    (heqv : ∀ u v, Good u → Good v → eqv u v = true → ∀ env ∈ D, den I u env = den I v env)
    (htog : ∀ e, Good e → Good (tog e) ∧ ∀ env ∈ D, den I (tog e) env = den I e env)
    (hisz : ∀ e, Good e → isz e = true → ∀ env ∈ D, den I e env = 0)
    {symbols s : List ℕ} {G H : PGrp} (hH : GrpOk H) {k : Kind} {e : CE} (hg : Good (.cyc k e s G)) (he : NoCyc e)
    (hn : NodeOk trans symbols H k s G) (n : ℕ) (x : CE × Bool)
    (h : rwCyc bld gt eqv trans tog isz symbols H n k e s G = some x) :
    Good x.1 ∧ (x.2 = false → x.1 = .cyc k e s G) ∧ ∀ env ∈ D, den I x.1 env = den I (.cyc k e s G) env := by
  have hg0 := hg
  obtain ⟨hge, hs, hl, hG, hk, -⟩ := hg
  have hexp : ((doit1 bld gt n k e s G).map fun r => (r, true)) = some x →
      Good x.1 ∧ (x.2 = false → x.1 = .cyc k e s G) ∧ ∀ env ∈ D, den I x.1 env = den I (.cyc k e s G) env := by
    intro h
    obtain ⟨r, hr, rfl⟩ := Option.map_eq_some_iff.1 h
    obtain ⟨g, v⟩ := doit1_value hb n k e s G r hg0 hr
    exact ⟨g, fun h => by simp at h, v⟩
  unfold rwCyc at h
  dsimp only at h
  by_cases h1 : s = symbols
  swap
  · rw [if_neg h1] at h; exact hexp h
  rw [if_pos h1] at h
  by_cases h2 : G.same H = true
  · rw [if_pos h2] at h
    simp only [Option.some.injEq] at h
    subst h
    exact ⟨hg0, fun _ => rfl, fun _ _ => rfl⟩
  rw [if_neg h2] at h
  by_cases h3 : (G.elems.all fun p => H.elems.contains p) = true
  · rw [if_pos h3] at h
    cases k with
    | prod => exact hexp h
    | sum =>
      simp only [Option.bind_eq_some_iff] at h
      obtain ⟨e1, he1, c, hc, e2, he2, h⟩ := h
      obtain ⟨g1, v1⟩ := doit1_value hb n .sum e s G e1 hg0 he1
      obtain ⟨gc, vc⟩ := (both_ok (gt := gt) cl_true hb n).2 .sum e s H c hge trivial hH (by simp) hc
      have hE2 : Good e2 ∧ ∀ env ∈ D, den I e2 env = den I c env := by
        cases c with
        | cyc k' e' s' G' => exact doit1_value hb n k' e' s' G' e2 gc he2
        | _ =>
          simp only [doitShallow, Option.some.injEq] at he2
          subst he2
          exact ⟨gc, fun _ _ => rfl⟩
      obtain ⟨g2, v2⟩ := hE2
      split at h
      · rename_i hz
        simp only [Option.some.injEq] at h
        subst h
        have gp : Good (bld (.pow (.num (H.elems.length / G.elems.length : ℕ)) (-1))) :=
          hb.good cl_true (.pow (.num _) _) trivial
        have gm1 : Good (bld (.mul [.num (H.elems.length / G.elems.length : ℕ), e1])) :=
          hb.good cl_true (.mul [.num _, e1]) ⟨trivial, g1, trivial⟩
        have gm2 : Good (bld (.mul [.num (-1), e2])) := hb.good cl_true (.mul [.num _, e2]) ⟨trivial, g2, trivial⟩
        refine ⟨hb.good cl_true (.mul [c, _]) ⟨gc, gp, trivial⟩, fun h => by simp at h, fun env henv => ?_⟩
        have hz' := hisz _ (hb.good cl_true (.add [_, _]) ⟨gm1, gm2, trivial⟩) hz env henv
        rw [hb.val (.add [_, _]) ⟨gm1, gm2, trivial⟩ env henv] at hz'
        simp only [den, denL, List.sum_cons, List.sum_nil] at hz'
        rw [hb.val (.mul [.num _, e1]) ⟨trivial, g1, trivial⟩ env henv,
          hb.val (.mul [.num _, e2]) ⟨trivial, g2, trivial⟩ env henv] at hz'
        simp only [den, denL, List.prod_cons, List.prod_nil] at hz'
        rw [v1 env henv, v2 env henv] at hz'
        dsimp only
        rw [hb.val (.mul [c, _]) ⟨gc, gp, trivial⟩ env henv]
        simp only [den, denL, List.prod_cons, List.prod_nil]
        rw [hb.val (.pow (.num _) _) trivial env henv]
        simp only [den] at hz' ⊢
        have hle : G.elems.length ≤ H.elems.length :=
          (List.subperm_of_subset hG.grp.nodup (fun p hp => by
            have := List.all_eq_true.1 h3 p hp
            simpa using this)).length_le
        have hpos : 0 < G.elems.length := List.length_pos_of_mem hG.grp.one
        have hm : (((H.elems.length / G.elems.length : ℕ) : ℚ) : K) ≠ 0 := by
          have : 0 < H.elems.length / G.elems.length := Nat.div_pos hle hpos
          exact_mod_cast this.ne'
        rw [zpow_neg, zpow_one]
        field_simp
        push_cast at hz' ⊢
        linear_combination -hz'
      · exact hexp h
  rw [if_neg h3] at h
  by_cases h4 : (H.elems.all fun p => G.elems.contains p) = true
  swap
  · rw [if_neg h4] at h; exact hexp h
  rw [if_pos h4] at h
  have hsub : ∀ p ∈ H.elems, p ∈ G.elems := fun p hp => by
    have := List.all_eq_true.1 h4 p hp
    simpa using this
  have hd : H.deg = G.deg := by
    have := hG.grp.length_eq (hsub _ hH.grp.one)
    simpa using this
  simp only [Option.bind_eq_some_iff, Option.map_eq_some_iff] at h
  obtain ⟨l, hl1, r, hr, rfl⟩ := h
  obtain ⟨g, v⟩ := rwCosets_value hb heqv htog hG hH hs hl hd hsub (hn.mem h1 hsub) (hn.cosets h1 hsub) n he
    (fun hp => hn.prod hp h1) hl1 hr
  exact ⟨g, fun h => by simp at h, v⟩

mutual
/-- Every cyclic expression inside is well formed, satisfies `NodeOk` and has no cyclic expression in its argument. -/
def FlatOk (trans : PGrp → PGrp → List (List ℕ)) (symbols : List ℕ) (H : PGrp) : CE → Prop
  | .num _ => True
  | .sym _ => True
  | .add l => FlatOkL trans symbols H l
  | .mul l => FlatOkL trans symbols H l
  | .pow b _ => FlatOk trans symbols H b
  | .app _ l => FlatOkL trans symbols H l
  | .cyc k e s G => Good (.cyc k e s G) ∧ NoCyc e ∧ NodeOk trans symbols H k s G
def FlatOkL (trans : PGrp → PGrp → List (List ℕ)) (symbols : List ℕ) (H : PGrp) : List CE → Prop
  | [] => True
  | e :: l => FlatOk trans symbols H e ∧ FlatOkL trans symbols H l
end

theorem rewriteL {symbols : List ℕ} {H : PGrp} {f : CE → Option (CE × Bool)}
    (hf : ∀ e x, FlatOk trans symbols H e → f e = some x →
      Good x.1 ∧ (x.2 = false → x.1 = e) ∧ ∀ env ∈ D, den I x.1 env = den I e env) :
    ∀ {l : List CE} {l' : List (CE × Bool)}, FlatOkL trans symbols H l → List.Forall₂ (fun a b => f a = some b) l l' →
      GoodL (fun _ => True) (fun _ _ _ => True) (l'.map (·.1)) ∧ (l'.any (·.2) = false → l'.map (·.1) = l) ∧
        ∀ env ∈ D, denL I (l'.map (·.1)) env = denL I l env := by
  intro l l' hl h
  induction h with
  | nil => exact ⟨trivial, fun _ => rfl, fun _ _ => rfl⟩
  | cons hab _ ih =>
    obtain ⟨g1, u1, v1⟩ := hf _ _ hl.1 hab
    obtain ⟨g2, u2, v2⟩ := ih hl.2
    refine ⟨⟨g1, g2⟩, ?_, fun env he => by simp only [List.map_cons, denL]; rw [v1 env he, v2 env he]⟩
    intro h
    simp only [List.any_cons, Bool.or_eq_false_iff] at h
    rw [List.map_cons, u1 h.1, u2 h.2]

theorem rewrite_noCyc {symbols : List ℕ} {H : PGrp} : ∀ (n : ℕ) (e : CE) (x : CE × Bool), NoCyc e →
    rewriteSym bld gt eqv trans tog isz symbols H n e = some x → x = (e, false)
  | 0, e, x, _, h => by simp [rewriteSym] at h
  | n + 1, .num q, x, _, h => by simp only [rewriteSym, Option.some.injEq] at h; exact h.symm
  | n + 1, .sym q, x, _, h => by simp only [rewriteSym, Option.some.injEq] at h; exact h.symm
  | n + 1, .add l, x, hg, h => by
    simp only [rewriteSym, Option.map_eq_some_iff] at h
    obtain ⟨l', hl', rfl⟩ := h
    rw [if_neg]
    rw [noCyc_any (rewrite_noCyc n) hg (mapO_forall₂ hl')]; simp
  | n + 1, .mul l, x, hg, h => by
    simp only [rewriteSym, Option.map_eq_some_iff] at h
    obtain ⟨l', hl', rfl⟩ := h
    rw [if_neg]
    rw [noCyc_any (rewrite_noCyc n) hg (mapO_forall₂ hl')]; simp
  | n + 1, .pow b m, x, hg, h => by
    simp only [rewriteSym, Option.map_eq_some_iff] at h
    obtain ⟨b', hb', rfl⟩ := h
    rw [rewrite_noCyc n b b' hg hb']; simp
  | n + 1, .app f l, x, hg, h => by
    simp only [rewriteSym, Option.map_eq_some_iff] at h
    obtain ⟨l', hl', rfl⟩ := h
    rw [if_neg]
    rw [noCyc_any (rewrite_noCyc n) hg (mapO_forall₂ hl')]; simp
  | n + 1, .cyc k e s G, x, hg, h => hg.2.2.2.2.2.elim
where
  noCyc_any {f : CE → Option (CE × Bool)} (hf : ∀ e x, NoCyc e → f e = some x → x = (e, false)) :
      ∀ {l : List CE} {l' : List (CE × Bool)}, GoodL (fun _ => True) (fun _ _ _ => False) l →
        List.Forall₂ (fun a b => f a = some b) l l' → l'.any (·.2) = false := by
    intro l l' hl h
    induction h with
    | nil => rfl
    | cons hab _ ih =>
      rw [List.any_cons, ih hl.2, hf _ _ hl.1 hab]
      rfl

/-- **C70** (partial).  `rewrite_symmetry(expr, symbols, H)`, when it returns, returns an expression with the same value
at every point of `D`.  Assumed of SymPy: `together`, `signsimp` and the constructors keep values; the coset
representatives `t` of `coset_transversal` are such that the products `t*h` with `h` in `H` run through the group once
(`cosets_of_normal`: true if `H` is normal; false for a right transversal in general, `rewrite_wrong`).  Missing: nested
cyclic expressions. -/
theorem rewriteSym_value_partial [CharZero K] (hb : BldOk I D bld)
    (heqv : ∀ u v, Good u → Good v → eqv u v = true → ∀ env ∈ D, den I u env = den I v env)
    (htog : ∀ e, Good e → Good (tog e) ∧ ∀ env ∈ D, den I (tog e) env = den I e env)
    (hisz : ∀ e, Good e → isz e = true → ∀ env ∈ D, den I e env = 0)
    {symbols : List ℕ} {H : PGrp} (hH : GrpOk H) : ∀ (n : ℕ) (e : CE) (x : CE × Bool), FlatOk trans symbols H e →
    rewriteSym bld gt eqv trans tog isz symbols H n e = some x →
    Good x.1 ∧ (x.2 = false → x.1 = e) ∧ ∀ env ∈ D, den I x.1 env = den I e env
  | 0, e, x, _, h => by simp [rewriteSym] at h
  | n + 1, .num q, x, _, h => by
    simp only [rewriteSym, Option.some.injEq] at h; subst h; exact ⟨trivial, fun _ => rfl, fun _ _ => rfl⟩
  | n + 1, .sym q, x, _, h => by
    simp only [rewriteSym, Option.some.injEq] at h; subst h; exact ⟨trivial, fun _ => rfl, fun _ _ => rfl⟩
  | n + 1, .add l, x, hg, h => by
    simp only [rewriteSym, Option.map_eq_some_iff] at h
    obtain ⟨l', hl', rfl⟩ := h
    obtain ⟨g, u, v⟩ := rewriteL (I := I) (D := D) (rewriteSym_value_partial hb heqv htog hisz hH n) hg (mapO_forall₂ hl')
    by_cases ha : l'.any (·.2) = true
    · rw [if_pos ha]
      exact ⟨hb.good cl_true (.add _) g, fun h => by simp at h, fun env he => by
        dsimp only; rw [hb.val (.add _) g env he]; simp only [den]; rw [v env he]⟩
    · rw [if_neg ha]
      have hu := u (by simpa using ha)
      exact ⟨hu ▸ g, fun _ => rfl, fun _ _ => rfl⟩
  | n + 1, .mul l, x, hg, h => by
    simp only [rewriteSym, Option.map_eq_some_iff] at h
    obtain ⟨l', hl', rfl⟩ := h
    obtain ⟨g, u, v⟩ := rewriteL (I := I) (D := D) (rewriteSym_value_partial hb heqv htog hisz hH n) hg (mapO_forall₂ hl')
    by_cases ha : l'.any (·.2) = true
    · rw [if_pos ha]
      exact ⟨hb.good cl_true (.mul _) g, fun h => by simp at h, fun env he => by
        dsimp only; rw [hb.val (.mul _) g env he]; simp only [den]; rw [v env he]⟩
    · rw [if_neg ha]
      have hu := u (by simpa using ha)
      exact ⟨hu ▸ g, fun _ => rfl, fun _ _ => rfl⟩
  | n + 1, .pow b m, x, hg, h => by
    simp only [rewriteSym, Option.map_eq_some_iff] at h
    obtain ⟨b', hb', rfl⟩ := h
    obtain ⟨g, u, v⟩ := rewriteSym_value_partial hb heqv htog hisz hH n b b' hg hb'
    by_cases ha : b'.2 = true
    · rw [if_pos ha]
      exact ⟨hb.good cl_true (.pow b'.1 m) g, fun h => by simp at h, fun env he => by
        dsimp only; rw [hb.val (.pow b'.1 m) g env he]; simp only [den]; rw [v env he]⟩
    · rw [if_neg ha]
      have hu := u (by simpa using ha)
      exact ⟨show Good b from hu ▸ g, fun _ => rfl, fun _ _ => rfl⟩
  | n + 1, .app f l, x, hg, h => by
    simp only [rewriteSym, Option.map_eq_some_iff] at h
    obtain ⟨l', hl', rfl⟩ := h
    obtain ⟨g, u, v⟩ := rewriteL (I := I) (D := D) (rewriteSym_value_partial hb heqv htog hisz hH n) hg (mapO_forall₂ hl')
    by_cases ha : l'.any (·.2) = true
    · rw [if_pos ha]
      exact ⟨hb.good cl_true (.app f _) g, fun h => by simp at h, fun env he => by
        dsimp only; rw [hb.val (.app f _) g env he]; simp only [den]; rw [v env he]⟩
    · rw [if_neg ha]
      have hu := u (by simpa using ha)
      exact ⟨hu ▸ g, fun _ => rfl, fun _ _ => rfl⟩
  | n + 1, .cyc k e s G, x, hg, h => by
    obtain ⟨hg, hne, hn⟩ := hg
    simp only [rewriteSym, Option.bind_eq_some_iff] at h
    obtain ⟨y, hy, h⟩ := h
    rw [rewrite_noCyc n e y hne hy] at h
    exact rwCyc_value hb heqv htog hisz hH hg hne hn n x (by simpa using h)

end

/-- For a normal subgroup any set of representatives of the right cosets will do. -/
theorem cosets_of_normal {G H : PGrp} (hG : IsPermGroup G.deg G.elems) {T : List (List ℕ)}
    (hTG : ∀ t ∈ T, t ∈ G.elems) (hH : ∀ h ∈ H.elems, h ∈ G.elems)
    (hnorm : ∀ t ∈ G.elems, (H.elems.map fun h => papply t h).Perm (H.elems.map fun h => papply h t))
    (hT : (T.flatMap fun t => H.elems.map fun h => papply h t).Perm G.elems) :
    (T.flatMap fun t => H.elems.map fun h => papply t h).Perm G.elems := by
  refine List.Perm.trans ?_ hT
  clear hT
  induction T with
  | nil => exact List.Perm.refl _
  | cons t T ih =>
    rw [List.flatMap_cons, List.flatMap_cons]
    exact (hnorm t (hTG t List.mem_cons_self)).append (ih fun t ht => hTG t (List.mem_cons_of_mem _ ht))

/-! ### examples and counterexample -/

/-- `CyclicSum(a*b**2, (a,b,c), S3)` rewritten over the cyclic group of order three, which is normal. -/
def transC3 (_ _ : PGrp) : List (List ℕ) := [[0, 1, 2], [1, 0, 2]]

def exSym : CE := .cyc .sum (.mul [.sym 0, .pow (.sym 1) 2]) [0, 1, 2] s3

example : FlatOk transC3 [0, 1, 2] c3 (.add [exSym, .sym 5]) :=
  ⟨⟨⟨⟨trivial, trivial, trivial⟩, by decide, by decide, s3_ok, by simp, trivial⟩, ⟨trivial, trivial, trivial⟩,
    ⟨fun _ _ => by decide, fun _ _ => by decide, by simp⟩⟩, trivial, trivial⟩

/-- the result is a cyclic sum over `c3` with the value of the symmetric sum -/
example : (rewriteSym (fun e => e) (fun _ _ => false) eqvMul transC3 (fun e => e) (fun _ => false) [0, 1, 2] c3 9
      (.add [exSym, .sym 5])).map (fun x => (den (K := ℚ) (fun _ _ => 0) x.1 (fun i => i + 1), x.2)) =
    some (1*4 + 2*9 + 3*1 + 2*1 + 1*9 + 3*4 + 6, true) := by decide +kernel

/-- the group generated by the transposition of the first two of three symbols -/
def c2 : PGrp := ⟨3, [[0, 1, 2], [1, 0, 2]], [[1, 0, 2]]⟩

/-- representatives of the right cosets `c2*t` in the symmetric group (the contract of `coset_transversal`) -/
def transC2 (_ _ : PGrp) : List (List ℕ) := [[0, 1, 2], [0, 2, 1], [1, 2, 0]]

/-- they are representatives of the right cosets -/
theorem transC2_right : ((transC2 s3 c2).flatMap fun t => c2.elems.map fun h => papply h t).Perm s3.elems := by decide

/-- **Defect**: rewriting over a subgroup that is not normal.  `CyclicSum(a**4*b**2, (a,b,c), S3)` rewritten over the
group of the transposition `(a b)` with representatives of the right cosets has another value: at `(1, 2, 3)` it is
`326` instead of `578`. -/
theorem rewrite_wrong : ∃ x, rewriteSym (fun e => e) (fun _ _ => false) eqvMul transC2 (fun e => e) (fun _ => false)
      [0, 1, 2] c2 9 (.cyc .sum (.mul [.pow (.sym 0) 4, .pow (.sym 1) 2]) [0, 1, 2] s3) = some x ∧
    den (K := ℚ) (fun _ _ => 0) x.1 (fun i => i + 1) ≠
      den (K := ℚ) (fun _ _ => 0) (.cyc .sum (.mul [.pow (.sym 0) 4, .pow (.sym 1) 2]) [0, 1, 2] s3) (fun i => i + 1) := by
  have h : (rewriteSym (fun e => e) (fun _ _ => false) eqvMul transC2 (fun e => e) (fun _ => false)
      [0, 1, 2] c2 9 (.cyc .sum (.mul [.pow (.sym 0) 4, .pow (.sym 1) 2]) [0, 1, 2] s3)).map
      (fun x => den (K := ℚ) (fun _ _ => 0) x.1 (fun i => i + 1)) = some 326 := by decide +kernel
  obtain ⟨x, hx, hv⟩ := Option.map_eq_some_iff.1 h
  refine ⟨x, hx, ?_⟩
  rw [hv]
  decide +kernel

end Verif.Cyc
