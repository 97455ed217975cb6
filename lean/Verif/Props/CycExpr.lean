import Verif.Proofs.CycExpr
import Mathlib.Algebra.BigOperators.Group.List.Lemmas
import Mathlib.Tactic.Ring
import Mathlib.Tactic.FieldSimp

/-!
# C39: building a cyclic sum or product does not change its value

`den` of a cyclic expression is the value of its expansion.  The theorems say that the evaluating constructor
(`newCyc`), the renaming of symbols (`rename`), the expansion (`doit`) and `as_content_primitive` keep it, for every
expression, symbol tuple and group; for products only when the order of the group is the number of symbols, because
an invariant factor is raised to the power `len(symbols)` instead of the order of the group (`newCyc_prod_wrong`).
-/

namespace Verif.Cyc

mutual
/-- Every symbol inside satisfies `V`; every cyclic expression inside has a tuple of distinct symbols satisfying `B`
and a group acting on it; under a product the order of the group is the number of symbols (as for the default
cyclic group). -/
def GoodW (V : ℕ → Prop) (B : Kind → List ℕ → PGrp → Prop) : CE → Prop
  | .num _ => True
  | .sym i => V i
  | .add l => GoodL V B l
  | .mul l => GoodL V B l
  | .pow b _ => GoodW V B b
  | .app _ l => GoodL V B l
  | .cyc k e s G => GoodW V B e ∧ s.Nodup ∧ s.length = G.deg ∧ GrpOk G ∧ (k = .prod → G.elems.length = G.deg) ∧ B k s G
def GoodL (V : ℕ → Prop) (B : Kind → List ℕ → PGrp → Prop) : List CE → Prop
  | [] => True
  | e :: l => GoodW V B e ∧ GoodL V B l
end

/-- `GoodW` without a condition on the symbols. -/
abbrev Good : CE → Prop := GoodW (fun _ => True) (fun _ _ _ => True)

/-- The conditions on symbols and tuples are kept by the translations of the tuples. -/
structure Cl (V : ℕ → Prop) (B : Kind → List ℕ → PGrp → Prop) : Prop where
  sub : ∀ k s G, B k s G → ∀ x ∈ s, V x
  perm : ∀ k s t G, B k s G → s.Perm t → B k t G
  trans : ∀ k l s t G H p, B k s G → s.Nodup → p.Perm (List.range s.length) → B l t H → B l (t.map (tr s p)) H

theorem cl_true : Cl (fun _ => True) (fun _ _ _ => True) := ⟨fun _ _ _ _ _ _ => trivial, fun _ _ _ _ _ _ => trivial,
  fun _ _ _ _ _ _ _ _ _ _ _ => trivial⟩

variable {V : ℕ → Prop} {B : Kind → List ℕ → PGrp → Prop}

theorem goodL_iff : ∀ {l : List CE}, GoodL V B l ↔ ∀ e ∈ l, GoodW V B e := by
  intro l
  induction l with
  | nil => simp [GoodL]
  | cons e l ih => simp [GoodL, ih]

theorem Cl.tr_V (hcl : Cl V B) {s : List ℕ} {G : PGrp} {k : Kind} (hB : B k s G) (p : List ℕ) (x : ℕ) (hx : V x) : V (tr s p x) := by
  by_cases h : x ∈ s
  · exact hcl.sub k s G hB _ (tr_mem h)
  · rw [tr_notin h]; exact hx

mutual
theorem goodW_good : ∀ (e : CE), GoodW V B e → Good e
  | .num _, _ => trivial
  | .sym _, _ => trivial
  | .add l, h => goodL_goodL l h
  | .mul l, h => goodL_goodL l h
  | .pow b _, h => goodW_good b h
  | .app _ l, h => goodL_goodL l h
  | .cyc k e s G, h => ⟨goodW_good e h.1, h.2.1, h.2.2.1, h.2.2.2.1, h.2.2.2.2.1, trivial⟩
theorem goodL_goodL : ∀ (l : List CE), GoodL V B l → GoodL (fun _ => True) (fun _ _ _ => True) l
  | [], _ => trivial
  | e :: l, h => ⟨goodW_good e h.1, goodL_goodL l h.2⟩
end

mutual
theorem free_of_good (hcl : Cl V B) : ∀ (e : CE), GoodW V B e → ∀ x ∈ free e, V x
  | .num _, _ => by simp [free]
  | .sym i, h => by intro x hx; simp only [free, List.mem_singleton] at hx; subst hx; exact h
  | .add l, h => by simpa [free] using freeL_of_good hcl l h
  | .mul l, h => by simpa [free] using freeL_of_good hcl l h
  | .pow b _, h => by simpa [free] using free_of_good hcl b h
  | .app _ l, h => by simpa [free] using freeL_of_good hcl l h
  | .cyc k e s G, h => by
    intro x hx
    simp only [free, List.mem_append] at hx
    rcases hx with hx | hx
    · exact free_of_good hcl e h.1 x hx
    · exact hcl.sub k s G h.2.2.2.2.2 x hx
theorem freeL_of_good (hcl : Cl V B) : ∀ (l : List CE), GoodL V B l → ∀ x ∈ freeL l, V x
  | [], _ => by simp [freeL]
  | e :: l, h => by
    intro x hx
    simp only [freeL, List.mem_append] at hx
    rcases hx with hx | hx
    · exact free_of_good hcl e h.1 x hx
    · exact freeL_of_good hcl l h.2 x hx
end

section
variable {K : Type*} [Field K] {I : ℕ → List K → K}

theorem denL_eq (l : List CE) (env : ℕ → K) : denL I l env = l.map fun e => den I e env := by
  induction l with
  | nil => simp [denL]
  | cons e l ih => simp [denL, ih]

/-- the operation of a kind of cyclic expression: `base_func` (cyclic.py 457, 575) -/
def fold (k : Kind) (l : List K) : K :=
  match k with
  | .sum => l.sum
  | .prod => l.prod

theorem fold_perm (k : Kind) {l l' : List K} (h : l.Perm l') : fold k l = fold k l' := by
  cases k
  · exact h.sum_eq
  · exact h.prod_eq

theorem den_cyc (k : Kind) (e : CE) (s : List ℕ) (G : PGrp) (env : ℕ → K) :
    den I (.cyc k e s G) env = fold k (G.elems.map fun p => den I e (env ∘ tr s p)) := by
  cases k <;> simp [den, fold]

/-! ### the value depends only on the free symbols -/

mutual
theorem den_congr : ∀ (e : CE) (env env' : ℕ → K), (∀ x ∈ free e, env x = env' x) → den I e env = den I e env'
  | .num _, _, _, _ => by simp [den]
  | .sym i, env, env', h => by simpa [den] using h i (by simp [free])
  | .add l, env, env', h => by
    simp only [den]; rw [denL_congr l env env' (by simpa [free] using h)]
  | .mul l, env, env', h => by
    simp only [den]; rw [denL_congr l env env' (by simpa [free] using h)]
  | .pow b n, env, env', h => by
    simp only [den]; rw [den_congr b env env' (by simpa [free] using h)]
  | .app f l, env, env', h => by
    simp only [den]; rw [denL_congr l env env' (by simpa [free] using h)]
  | .cyc k e s G, env, env', h => by
    rw [den_cyc, den_cyc]
    congr 1
    refine List.map_congr_left fun p _ => ?_
    refine den_congr e _ _ fun x hx => ?_
    dsimp only [Function.comp]
    apply h
    simp only [free, List.mem_append]
    by_cases hxs : x ∈ s
    · exact Or.inr (tr_mem hxs)
    · rw [tr_notin hxs]; exact Or.inl hx
theorem denL_congr : ∀ (l : List CE) (env env' : ℕ → K), (∀ x ∈ freeL l, env x = env' x) →
    denL I l env = denL I l env'
  | [], _, _, _ => by simp [denL]
  | e :: l, env, env', h => by
    simp only [denL]
    rw [den_congr e env env' (fun x hx => h x (by simp [freeL, hx])),
      denL_congr l env env' (fun x hx => h x (by simp [freeL, hx]))]
end

theorem disjointFrom_iff {l s : List ℕ} : disjointFrom l s = true ↔ ∀ x ∈ l, x ∉ s := by
  simp [disjointFrom]

theorem den_of_disjoint {e : CE} {s : List ℕ} (h : disjointFrom (free e) s = true) (p : List ℕ) (env : ℕ → K) :
    den I e (env ∘ tr s p) = den I e env := by
  apply den_congr
  intro x hx
  simp [tr_notin (disjointFrom_iff.1 h x hx)]

/-! ### `is_cyclic_expr` -/

/-- invariance under all translations does not depend on which image of the tuple is used -/
theorem inv_std {s : List ℕ} {G : PGrp} (hG : IsPermGroup G.deg G.elems) (hs : s.Nodup) (hl : s.length = G.deg)
    {e : CE} (h : ∀ p ∈ G.elems, ∀ env : ℕ → K, den I e (env ∘ tr (stdSeq s G) p) = den I e env) :
    ∀ p ∈ G.elems, ∀ env : ℕ → K, den I e (env ∘ tr s p) = den I e env := by
  obtain ⟨x, hx, he⟩ := stdSeq_spec (s := s) hG hl
  intro p hp env
  have := (tr_std_perm hG hs hl hx fun ρ => ρ).mem_iff (a := tr s p)
  rw [List.mem_map, List.mem_map] at this
  obtain ⟨q, hq, hqe⟩ := this.2 ⟨p, hp, rfl⟩
  rw [← hqe, ← he]
  exact h q hq env

theorem stdSeq_good {s : List ℕ} {G : PGrp} (hG : IsPermGroup G.deg G.elems) (hs : s.Nodup)
    (hl : s.length = G.deg) : (stdSeq s G).Nodup ∧ (stdSeq s G).length = G.deg := by
  obtain ⟨x, hx, he⟩ := stdSeq_spec (s := s) hG hl
  rw [he]
  exact ⟨papply_nodup hG hs hl hx, by simp [papply, hG.length_eq hx]⟩

/-- `den` of a cyclic expression does not change when its own symbols are translated -/
theorem den_cyc_inv {k : Kind} {e : CE} {s : List ℕ} {G : PGrp} (hG : IsPermGroup G.deg G.elems) (hs : s.Nodup)
    (hl : s.length = G.deg) {H : PGrp} (hH : H.elems.Perm G.elems) {p : List ℕ} (hp : p ∈ G.elems)
    (env : ℕ → K) : den I (.cyc k e s H) (env ∘ tr s p) = den I (.cyc k e s H) env := by
  rw [den_cyc, den_cyc]
  rw [fold_perm k (hH.map _), fold_perm k (hH.map fun p => den I e (env ∘ tr s p))]
  have e1 : (G.elems.map fun q => den I e ((env ∘ tr s p) ∘ tr s q)) =
      (G.elems.map fun q => papply q p).map fun q => den I e (env ∘ tr s q) := by
    rw [List.map_map]
    refine List.map_congr_left fun q hq => ?_
    dsimp only [Function.comp]
    congr 1
    funext x
    show env (tr s p (tr s q x)) = env (tr s (papply q p) x)
    rw [tr_comp hG hs hl hp hq]
  rw [e1]
  exact fold_perm k ((mulRight_perm hG hp).map _)

mutual
theorem isCyclicExpr_inv {G : PGrp} (hG : IsPermGroup G.deg G.elems) :
    ∀ (e : CE) (s : List ℕ), s.Nodup → s.length = G.deg → isCyclicExpr e s G = true →
      ∀ p ∈ G.elems, ∀ env : ℕ → K, den I e (env ∘ tr s p) = den I e env
  | .num _, _, _, _, _ => by intro p _ env; simp [den]
  | .sym i, s, hs, hl, h => by
    refine inv_std hG hs hl fun p _ env => den_of_disjoint ?_ p env
    simpa [isCyclicExpr] using h
  | .add l, s, hs, hl, h => by
    refine inv_std hG hs hl fun p hp env => ?_
    obtain ⟨g1, g2⟩ := stdSeq_good (s := s) hG hs hl
    simp only [isCyclicExpr, Bool.or_eq_true] at h
    rcases h with h | h
    · exact den_of_disjoint h p env
    · simp only [den]
      rw [allCyclic_inv hG l _ g1 g2 h p hp env]
  | .mul l, s, hs, hl, h => by
    refine inv_std hG hs hl fun p hp env => ?_
    obtain ⟨g1, g2⟩ := stdSeq_good (s := s) hG hs hl
    simp only [isCyclicExpr, Bool.or_eq_true] at h
    rcases h with h | h
    · exact den_of_disjoint h p env
    · simp only [den]
      rw [allCyclic_inv hG l _ g1 g2 h p hp env]
  | .pow b n, s, hs, hl, h => by
    refine inv_std hG hs hl fun p hp env => ?_
    obtain ⟨g1, g2⟩ := stdSeq_good (s := s) hG hs hl
    simp only [isCyclicExpr, Bool.or_eq_true] at h
    rcases h with h | h
    · exact den_of_disjoint h p env
    · simp only [den]
      rw [isCyclicExpr_inv hG b _ g1 g2 h p hp env]
  | .app f l, s, hs, hl, h => by
    refine inv_std hG hs hl fun p _ env => den_of_disjoint ?_ p env
    simpa [isCyclicExpr] using h
  | .cyc k e t H, s, hs, hl, h => by
    refine inv_std hG hs hl fun p hp env => ?_
    obtain ⟨g1, g2⟩ := stdSeq_good (s := s) hG hs hl
    simp only [isCyclicExpr, Bool.or_eq_true, Bool.and_eq_true, beq_iff_eq, PGrp.same] at h
    rcases h with h | ⟨h1, h2, h3⟩
    · exact den_of_disjoint h p env
    · rw [h1]
      exact den_cyc_inv hG g1 g2 (List.isPerm_iff.1 h3) hp env
theorem allCyclic_inv {G : PGrp} (hG : IsPermGroup G.deg G.elems) :
    ∀ (l : List CE) (s : List ℕ), s.Nodup → s.length = G.deg → allCyclic l s G = true →
      ∀ p ∈ G.elems, ∀ env : ℕ → K, denL I l (env ∘ tr s p) = denL I l env
  | [], _, _, _, _ => by intro p _ env; simp [denL]
  | e :: l, s, hs, hl, h => by
    intro p hp env
    simp only [allCyclic, Bool.and_eq_true] at h
    simp only [denL]
    rw [isCyclicExpr_inv hG e s hs hl h.1 p hp env, allCyclic_inv hG l s hs hl h.2 p hp env]
end

/-! ### the contract of SymPy's constructors -/

/-- `D` is a set of points, closed under renaming of symbols, at which SymPy's evaluating constructors keep the value
(for rational expressions: points where no denominator vanishes); the constructors introduce no symbols and no
cyclic expressions over new tuples. -/
structure BldOk (I : ℕ → List K → K) (D : Set (ℕ → K)) (bld : CE → CE) : Prop where
  dom : ∀ env ∈ D, ∀ ρ : ℕ → ℕ, Function.Injective ρ → env ∘ ρ ∈ D
  val : ∀ e, Good e → ∀ env ∈ D, den I (bld e) env = den I e env
  good : ∀ {V : ℕ → Prop} {B : Kind → List ℕ → PGrp → Prop}, Cl V B → ∀ e, GoodW V B e → GoodW V B (bld e)

variable {D : Set (ℕ → K)} {bld : CE → CE} {gt : CE → CE → Bool}

theorem BldOk.valW (hb : BldOk I D bld) (e : CE) (hg : GoodW V B e) (env : ℕ → K) (he : env ∈ D) :
    den I (bld e) env = den I e env := hb.val e (goodW_good e hg) env he

/-- what `rename` promises at a fuel level -/
def RenOk (V : ℕ → Prop) (B : Kind → List ℕ → PGrp → Prop) (I : ℕ → List K → K) (D : Set (ℕ → K)) (bld : CE → CE) (gt : CE → CE → Bool) (n : ℕ) : Prop :=
  ∀ (ρ : ℕ → ℕ), Function.Injective ρ → (∀ x, V x → V (ρ x)) → (∀ l t H, B l t H → B l (t.map ρ) H) → ∀ e e', GoodW V B e → rename bld gt n ρ e = some e' →
    GoodW V B e' ∧ ∀ env ∈ D, den I e' env = den I e (env ∘ ρ)

/-- what `newCyc` promises at a fuel level -/
def NewOk (V : ℕ → Prop) (B : Kind → List ℕ → PGrp → Prop) (I : ℕ → List K → K) (D : Set (ℕ → K)) (bld : CE → CE) (gt : CE → CE → Bool) (n : ℕ) : Prop :=
  ∀ (k : Kind) e s (G : PGrp) r, GoodW V B e → B k s G → GrpOk G → (k = .prod → G.elems.length = G.deg) →
    newCyc bld gt n k e s G = some r → GoodW V B r ∧ ∀ env ∈ D, den I r env = den I (.cyc k e s G) env

theorem forall₂_ren {f : CE → Option CE} {ρ : ℕ → ℕ}
    (hf : ∀ e e', GoodW V B e → f e = some e' → GoodW V B e' ∧ ∀ env ∈ D, den I e' env = den I e (env ∘ ρ)) :
    ∀ {l l' : List CE}, GoodL V B l → List.Forall₂ (fun a b => f a = some b) l l' →
      GoodL V B l' ∧ ∀ env ∈ D, denL I l' env = denL I l (env ∘ ρ) := by
  intro l l' hl h
  induction h with
  | nil => exact ⟨trivial, fun env _ => by simp [denL]⟩
  | cons hab _ ih =>
    obtain ⟨g1, v1⟩ := hf _ _ hl.1 hab
    obtain ⟨g2, v2⟩ := ih hl.2
    exact ⟨⟨g1, g2⟩, fun env he => by simp only [denL]; rw [v1 env he, v2 env he]⟩

theorem renOk_succ (hcl : Cl V B) (hb : BldOk I D bld) {n : ℕ} (hr : RenOk V B I D bld gt n) (hn : NewOk V B I D bld gt n) :
    RenOk V B I D bld gt (n + 1) := by
  intro ρ hρ hV hBρ e e' hg h
  cases e with
  | num q =>
    simp only [rename, Option.some.injEq] at h; subst h
    exact ⟨trivial, fun env _ => by simp [den]⟩
  | sym i =>
    simp only [rename, Option.some.injEq] at h; subst h
    exact ⟨hV i hg, fun env _ => by simp [den]⟩
  | add l =>
    simp only [rename, Option.map_eq_some_iff] at h
    obtain ⟨l', hl', rfl⟩ := h
    obtain ⟨g, v⟩ := forall₂_ren (hr ρ hρ hV hBρ) hg (mapO_forall₂ hl')
    exact ⟨hb.good hcl _ g, fun env he => by rw [hb.valW (.add l') g env he]; simp only [den]; rw [v env he]⟩
  | mul l =>
    simp only [rename, Option.map_eq_some_iff] at h
    obtain ⟨l', hl', rfl⟩ := h
    obtain ⟨g, v⟩ := forall₂_ren (hr ρ hρ hV hBρ) hg (mapO_forall₂ hl')
    exact ⟨hb.good hcl _ g, fun env he => by rw [hb.valW (.mul l') g env he]; simp only [den]; rw [v env he]⟩
  | pow b m =>
    simp only [rename, Option.map_eq_some_iff] at h
    obtain ⟨b', hb', rfl⟩ := h
    obtain ⟨g, v⟩ := hr ρ hρ hV hBρ b b' hg hb'
    exact ⟨hb.good hcl _ g, fun env he => by rw [hb.valW (.pow b' m) g env he]; simp only [den]; rw [v env he]⟩
  | app f l =>
    simp only [rename, Option.map_eq_some_iff] at h
    obtain ⟨l', hl', rfl⟩ := h
    obtain ⟨g, v⟩ := forall₂_ren (hr ρ hρ hV hBρ) hg (mapO_forall₂ hl')
    exact ⟨hb.good hcl _ g, fun env he => by rw [hb.valW (.app f l') g env he]; simp only [den]; rw [v env he]⟩
  | cyc k e s G =>
    obtain ⟨hge, hs, hl, hG, hk, hB⟩ := hg
    simp only [rename, Option.bind_eq_some_iff] at h
    obtain ⟨e1, he1, h⟩ := h
    obtain ⟨g1, v1⟩ := hr ρ hρ hV hBρ e e1 hge he1
    obtain ⟨g2, v2⟩ := hn k e1 (s.map ρ) G e' g1 (hBρ k s G hB) hG hk h
    refine ⟨g2, fun env he => ?_⟩
    rw [v2 env he, den_cyc, den_cyc]
    congr 1
    refine List.map_congr_left fun p hp => ?_
    have hinj := tr_injective hG.grp (List.Nodup.map hρ hs) (by simpa using hl) hp
    rw [v1 _ (hb.dom env he _ hinj)]
    congr 1
    funext x
    simp [tr_map hρ]

theorem sum_map_mul_const {α : Type*} (l : List α) (f : α → K) (c : K) :
    (l.map fun a => f a * c).sum = (l.map f).sum * c := by
  induction l with
  | nil => simp
  | cons a l ih => simp [ih, add_mul]

theorem prod_map_mul {α : Type*} (l : List α) (f g : α → K) :
    (l.map fun a => f a * g a).prod = (l.map f).prod * (l.map g).prod := by
  induction l with
  | nil => simp
  | cons a l ih => simp only [List.map_cons, List.prod_cons, ih]; ring

theorem filter_prod {α : Type*} (l : List α) (f : α → K) (q : α → Bool) :
    (l.map f).prod = ((l.filter q).map f).prod * ((l.filter fun a => !(q a)).map f).prod := by
  induction l with
  | nil => simp
  | cons a l ih =>
    rcases hq : q a
    · simp [hq, ih]; ring
    · simp [hq, ih]; ring

theorem pickMin_ok {cand : List ℕ → Option CE} {P : CE → Prop} :
    ∀ (ps : List (List ℕ)) (cur r : CE), P cur → (∀ p ∈ ps, ∀ e2, cand p = some e2 → P e2) →
      pickMin gt cand ps cur = some r → P r := by
  intro ps
  induction ps with
  | nil => intro cur r hc _ h; simp only [pickMin, Option.some.injEq] at h; exact h ▸ hc
  | cons p ps ih =>
    intro cur r hc hp h
    unfold pickMin at h
    rcases hcp : cand p with _ | e2
    · rw [hcp] at h; simp at h
    · rw [hcp] at h
      dsimp only at h
      refine ih _ r ?_ (fun q hq => hp q (List.mem_cons_of_mem _ hq)) h
      by_cases hgt : gt cur e2 = true
      · rw [if_pos hgt]; exact hp p List.mem_cons_self e2 hcp
      · rw [if_neg hgt]; exact hc

theorem evalSimplify_ok (hcl : Cl V B) (hb : BldOk I D bld) {cls : CE → Option CE} {k : Kind} {e : CE} {s : List ℕ} {G : PGrp}
    {r : CE} (hge : GoodW V B e) (hG : GrpOk G) (hs : s.Nodup) (hl : s.length = G.deg)
    (hk : k = .prod → G.elems.length = G.deg) (hB : B k s G)
    (hcls : ∀ e2 r2, GoodW V B e2 → cls e2 = some r2 → GoodW V B r2 ∧ ∀ env ∈ D, den I r2 env = den I (.cyc k e2 s G) env)
    (h : evalSimplify bld cls k e s G = some r) :
    GoodW V B r ∧ ∀ env ∈ D, den I r env = den I (.cyc k e s G) env := by
  unfold evalSimplify at h
  have hraw : GoodW V B (.cyc k e s G) := ⟨hge, hs, hl, hG, hk, hB⟩
  have hdom : ∀ env ∈ D, ∀ p ∈ G.elems, env ∘ tr s p ∈ D := fun env he p hp =>
    hb.dom env he _ (tr_injective hG.grp hs hl hp)
  by_cases hd : disjointFrom (free e) s = true
  · rw [if_pos hd] at h
    simp only [Option.some.injEq] at h
    subst h
    have hc : ∀ env : ℕ → K, (G.elems.map fun p => den I e (env ∘ tr s p)) =
        List.replicate G.elems.length (den I e env) := by
      intro env
      rw [List.eq_replicate_iff]
      refine ⟨by simp, ?_⟩
      intro b hbm
      obtain ⟨p, -, rfl⟩ := List.mem_map.1 hbm
      exact den_of_disjoint hd p env
    cases k with
    | sum =>
      have g : GoodW V B (.mul [e, .num (G.elems.length : ℚ)]) := ⟨hge, trivial, trivial⟩
      refine ⟨hb.good hcl _ g, fun env he => ?_⟩
      unfold degenerate
      dsimp only
      rw [hb.valW _ g env he, den_cyc, hc]
      simp [den, denL, fold, mul_comm]
    | prod =>
      have g : GoodW V B (.pow e (G.elems.length : ℤ)) := hge
      refine ⟨hb.good hcl _ g, fun env he => ?_⟩
      unfold degenerate
      dsimp only
      rw [hb.valW _ g env he, den_cyc, hc]
      simp [den, fold]
  · rw [if_neg hd] at h
    cases e with
    | mul args =>
      dsimp only at h
      set cs := args.filter fun a => isCyclicExpr a s G with hcs
      set us := args.filter fun a => !(isCyclicExpr a s G) with hus
      have hga : ∀ a ∈ args, GoodW V B a := goodL_iff.1 hge
      have hgu : GoodL V B us := goodL_iff.2 fun a ha => hga a (List.mem_filter.1 ha).1
      have hgc : GoodL V B cs := goodL_iff.2 fun a ha => hga a (List.mem_filter.1 ha).1
      have hinv : ∀ a ∈ cs, ∀ p ∈ G.elems, ∀ env : ℕ → K, den I a (env ∘ tr s p) = den I a env := fun a ha =>
        isCyclicExpr_inv hG.grp a s hs hl (List.mem_filter.1 ha).2
      have hsplit : ∀ env : ℕ → K, den I (.mul args) env =
          (us.map fun a => den I a env).prod * (cs.map fun a => den I a env).prod := by
        intro env
        simp only [den]
        rw [denL_eq, filter_prod args _ (fun a => isCyclicExpr a s G), mul_comm]
      have hcinv : ∀ p ∈ G.elems, ∀ env : ℕ → K,
          (cs.map fun a => den I a (env ∘ tr s p)).prod = (cs.map fun a => den I a env).prod := by
        intro p hp env
        congr 1
        exact List.map_congr_left fun a ha => hinv a ha p hp env
      cases k with
      | sum =>
        dsimp only at h
        by_cases hce : cs.isEmpty = true
        · rw [if_pos hce] at h
          simp only [Option.some.injEq] at h
          subst h
          exact ⟨hraw, fun _ _ => rfl⟩
        · rw [if_neg hce] at h
          simp only [Option.map_eq_some_iff] at h
          obtain ⟨obj0, ho, rfl⟩ := h
          have gmu : GoodW V B (.mul us) := hgu
          obtain ⟨g0, v0⟩ := hcls _ _ (hb.good hcl _ gmu) ho
          have g : GoodW V B (.mul (obj0 :: cs)) := ⟨g0, hgc⟩
          refine ⟨hb.good hcl _ g, fun env he => ?_⟩
          rw [hb.valW _ g env he]
          simp only [den, denL, List.prod_cons]
          rw [v0 env he, den_cyc, denL_eq]
          simp only [fold]
          rw [← sum_map_mul_const]
          congr 1
          refine List.map_congr_left fun p hp => ?_
          have := hsplit (env ∘ tr s p)
          simp only [den] at this
          rw [this, hcinv p hp env, hb.valW _ gmu _ (hdom env he p hp)]
          simp only [den]
          rw [denL_eq]
      | prod =>
        dsimp only at h
        simp only [Option.map_eq_some_iff] at h
        obtain ⟨objs, ho, rfl⟩ := h
        have key : ∀ {l l' : List CE}, GoodL V B l → List.Forall₂ (fun a b => cls a = some b) l l' →
            GoodL V B l' ∧ ∀ env ∈ D, (l'.map fun a => den I a env).prod =
              (G.elems.map fun p => (l.map fun a => den I a (env ∘ tr s p)).prod).prod := by
          intro l l' hl' hf
          induction hf with
          | nil => exact ⟨trivial, fun env _ => by simp⟩
          | cons hab _ ih =>
            obtain ⟨g1, v1⟩ := hcls _ _ hl'.1 hab
            obtain ⟨g2, v2⟩ := ih hl'.2
            refine ⟨⟨g1, g2⟩, fun env he => ?_⟩
            simp only [List.map_cons, List.prod_cons]
            rw [v2 env he, v1 env he, den_cyc, prod_map_mul]
            rfl
        obtain ⟨go, vo⟩ := key hgu (mapO_forall₂ ho)
        have gm : GoodW V B (.mul objs) := go
        have gp : GoodL V B (cs.map fun a => bld (.pow a s.length)) := by
          refine goodL_iff.2 fun a ha => ?_
          obtain ⟨c, hc, rfl⟩ := List.mem_map.1 ha
          exact hb.good hcl _ (show GoodW V B c from goodL_iff.1 hgc c hc)
        have g : GoodW V B (.mul (bld (.mul objs) :: cs.map fun a => bld (.pow a s.length))) := ⟨hb.good hcl _ gm, gp⟩
        refine ⟨hb.good hcl _ g, fun env he => ?_⟩
        rw [hb.valW _ g env he]
        simp only [den, denL, List.prod_cons]
        rw [hb.valW _ gm env he]
        simp only [den]
        rw [denL_eq, denL_eq, vo env he, List.map_map]
        have hpw : (cs.map ((fun e => den I e env) ∘ fun a => bld (.pow a s.length))) =
            cs.map fun a => den I a env ^ s.length := by
          refine List.map_congr_left fun a ha => ?_
          dsimp only [Function.comp]
          rw [hb.valW (.pow a s.length) (show GoodW V B a from goodL_iff.1 hgc a ha) env he]
          simp [den]
        rw [hpw]
        have hpow : (cs.map fun a => den I a env ^ s.length).prod = (cs.map fun a => den I a env).prod ^ s.length := by
          generalize cs = l
          induction l with
          | nil => simp
          | cons a l ih => simp [ih, mul_pow]
        rw [hpow]
        have hc : (G.elems.map fun p => (cs.map fun a => den I a (env ∘ tr s p)).prod) =
            List.replicate G.elems.length (cs.map fun a => den I a env).prod := by
          rw [List.eq_replicate_iff]
          refine ⟨by simp, ?_⟩
          intro b hbm
          obtain ⟨p, hp, rfl⟩ := List.mem_map.1 hbm
          exact hcinv p hp env
        have hc' := congrArg List.prod hc
        rw [List.prod_replicate, hk rfl, ← hl] at hc'
        rw [← hc', ← prod_map_mul]
        congr 1
        refine List.map_congr_left fun p hp => ?_
        have := hsplit (env ∘ tr s p)
        simp only [den] at this
        rw [this]
    | num q => simp only [Option.some.injEq] at h; subst h; exact ⟨hraw, fun _ _ => rfl⟩
    | sym q => simp only [Option.some.injEq] at h; subst h; exact ⟨hraw, fun _ _ => rfl⟩
    | add q => simp only [Option.some.injEq] at h; subst h; exact ⟨hraw, fun _ _ => rfl⟩
    | pow q m => simp only [Option.some.injEq] at h; subst h; exact ⟨hraw, fun _ _ => rfl⟩
    | app q m => simp only [Option.some.injEq] at h; subst h; exact ⟨hraw, fun _ _ => rfl⟩
    | cyc k' q m H => simp only [Option.some.injEq] at h; subst h; exact ⟨hraw, fun _ _ => rfl⟩

/-- the cyclic value of a translated expression -/
theorem fold_translate {k : Kind} {s : List ℕ} {G : PGrp} (hG : IsPermGroup G.deg G.elems) (hs : s.Nodup)
    (hl : s.length = G.deg) {q : List ℕ} (hq : q ∈ G.elems) (f : (ℕ → ℕ) → K) :
    fold k (G.elems.map fun p => f (tr s p ∘ tr s q)) = fold k (G.elems.map fun p => f (tr s p)) := by
  have e1 : (G.elems.map fun p => f (tr s p ∘ tr s q)) =
      (G.elems.map fun p => papply q p).map fun p => f (tr s p) := by
    rw [List.map_map]
    refine List.map_congr_left fun p hp => ?_
    dsimp only [Function.comp]
    congr 1
    funext x
    exact tr_comp hG hs hl hp hq x
  rw [e1]
  exact fold_perm k ((mulLeft_perm hG hq).map _)

theorem newOk_succ (hcl : Cl V B) (hb : BldOk I D bld) {n : ℕ} (hr : RenOk V B I D bld gt n) (hn : NewOk V B I D bld gt n) :
    NewOk V B I D bld gt (n + 1) := by
  intro k e s G r hge hB hG hk h
  unfold newCyc at h
  by_cases hs : s.Nodup
  swap
  · rw [if_pos hs] at h; simp at h
  rw [if_neg (not_not.2 hs)] at h
  by_cases ht : G.deg < 2 ∨ G.elems.length = 1
  · rw [if_pos ht] at h
    simp only [Option.some.injEq] at h
    subst h
    refine ⟨hge, fun env _ => ?_⟩
    have hone : G.elems = [List.range G.deg] := by
      have hall : ∀ p ∈ G.elems, p = List.range G.deg := by
        intro p hp
        rcases ht with ht | ht
        · have hperm := hG.grp.perm p hp
          have hd : G.deg = 0 ∨ G.deg = 1 := by omega
          rcases hd with hd | hd
          · rw [hd] at hperm ⊢; simpa using hperm
          · rw [hd] at hperm ⊢; simpa using hperm
        · obtain ⟨a, ha⟩ := List.length_eq_one_iff.1 ht
          have h1 := hG.grp.one
          rw [ha] at hp h1
          simp only [List.mem_singleton] at hp h1
          rw [hp, h1]
      have hlen : G.elems.length = 1 := by
        have hle : G.elems.length ≤ 1 := by
          have hsub : G.elems ⊆ [List.range G.deg] := fun p hp => by simp [hall p hp]
          simpa using (List.subperm_of_subset hG.grp.nodup hsub).length_le
        have : 0 < G.elems.length := List.length_pos_of_mem hG.grp.one
        omega
      obtain ⟨a, ha⟩ := List.length_eq_one_iff.1 hlen
      rw [ha, hall a (by rw [ha]; simp)]
    rw [den_cyc, hone]
    have hid : env ∘ tr s (List.range G.deg) = env := by funext x; simp [tr_range]
    cases k <;> simp [fold, hid]
  rw [if_neg ht] at h
  by_cases hl : s.length = G.deg
  swap
  · rw [if_pos hl] at h; simp at h
  rw [if_neg (not_not.2 hl)] at h
  simp only [Option.bind_eq_some_iff] at h
  obtain ⟨e', hpick, h⟩ := h
  obtain ⟨g1, g2⟩ := stdSeq_good (s := s) hG.grp hs hl
  obtain ⟨x, hx, hstd⟩ := stdSeq_spec (s := s) hG.grp hl
  have hBs : B k (stdSeq s G) G := by
    rw [hstd]; exact hcl.perm _ _ _ _ hB (hG.grp.papply_perm' hx hl).symm
  have hP : GoodW V B e' ∧ ∀ env ∈ D, den I (.cyc k e' (stdSeq s G) G) env = den I (.cyc k e (stdSeq s G) G) env := by
    refine pickMin_ok (P := fun e2 => GoodW V B e2 ∧ ∀ env ∈ D, den I (.cyc k e2 (stdSeq s G) G) env =
      den I (.cyc k e (stdSeq s G) G) env) G.elems e e' ⟨hge, fun _ _ => rfl⟩ ?_ hpick
    intro q hq e2 he2
    have hinj := tr_injective hG.grp g1 g2 hq
    obtain ⟨gg, vv⟩ := hr _ hinj (hcl.tr_V hBs q) (fun l t H ht => hcl.trans k l _ t G H q hBs g1 (by rw [g2]; exact hG.grp.perm q hq) ht) e e2 hge he2
    refine ⟨gg, fun env he => ?_⟩
    rw [den_cyc, den_cyc]
    rw [← fold_translate hG.grp g1 g2 hq (fun ρ => den I e (env ∘ ρ))]
    congr 1
    refine List.map_congr_left fun p hp => ?_
    rw [vv _ (hb.dom env he _ (tr_injective hG.grp g1 g2 hp))]
    rfl
  obtain ⟨hg', hv'⟩ := hP
  obtain ⟨gr, vr⟩ := evalSimplify_ok hcl hb hg' hG g1 g2 hk hBs
    (fun e2 r2 hg2 h2 => hn k e2 (stdSeq s G) G r2 hg2 hBs hG hk h2) h
  refine ⟨gr, fun env he => ?_⟩
  rw [vr env he, hv' env he, den_cyc, den_cyc, hstd]
  exact fold_perm k (tr_std_perm hG.grp hs hl hx fun ρ => den I e (env ∘ ρ))

theorem both_ok (hcl : Cl V B) (hb : BldOk I D bld) : ∀ n, RenOk V B I D bld gt n ∧ NewOk V B I D bld gt n
  | 0 => ⟨fun _ _ _ _ _ _ _ h => by simp [rename] at h, fun _ _ _ _ _ _ _ _ _ h => by simp [newCyc] at h⟩
  | n + 1 => ⟨renOk_succ hcl hb (both_ok hcl hb n).1 (both_ok hcl hb n).2,
      newOk_succ hcl hb (both_ok hcl hb n).1 (both_ok hcl hb n).2⟩

/-! ### C39 -/

/-- **C39** (partial).  `CyclicSum(e, symbols, perm)` and `CyclicProduct(e, symbols, perm)`, when they return, return
an expression with the value of the expansion: the sum (product) over the elements of the group of `e` with the
symbols permuted, and the result may be used again in a cyclic expression.  Missing: products over a group whose
order is not the number of symbols (`newCyc_prod_wrong`); a group on fewer points than there are symbols. -/
theorem newCyc_value_partial (hb : BldOk I D bld) (n : ℕ) (k : Kind) (e : CE) (s : List ℕ) (G : PGrp) (r : CE)
    (he : Good e) (hG : GrpOk G) (hk : k = .prod → G.elems.length = G.deg)
    (h : newCyc bld gt n k e s G = some r) :
    Good r ∧ ∀ env ∈ D, den I r env =
      match k with
      | .sum => (G.elems.map fun p => den I e (env ∘ tr s p)).sum
      | .prod => (G.elems.map fun p => den I e (env ∘ tr s p)).prod := by
  obtain ⟨g, v⟩ := (both_ok (gt := gt) cl_true hb n).2 k e s G r he trivial hG hk h
  refine ⟨g, fun env hD => ?_⟩
  rw [v env hD, den_cyc]
  cases k <;> rfl

/-- `_replace_symbols` with a one-to-one renaming gives the expression whose value at a point is the value of the
original at the renamed point. -/
theorem rename_value (hb : BldOk I D bld) (n : ℕ) (ρ : ℕ → ℕ) (hρ : Function.Injective ρ) (e e' : CE) (he : Good e)
    (h : rename bld gt n ρ e = some e') : Good e' ∧ ∀ env ∈ D, den I e' env = den I e (env ∘ ρ) :=
  (both_ok (gt := gt) cl_true hb n).1 ρ hρ (fun _ _ => trivial) (fun _ _ _ _ => trivial) e e' he h

/-- `doit(deep=False)` keeps the value. -/
theorem doit1_value (hb : BldOk I D bld) (n : ℕ) (k : Kind) (e : CE) (s : List ℕ) (G : PGrp) (r : CE)
    (hg : Good (.cyc k e s G)) (h : doit1 bld gt n k e s G = some r) :
    Good r ∧ ∀ env ∈ D, den I r env = den I (.cyc k e s G) env := by
  obtain ⟨hge, hs, hl, hG, hk, -⟩ := hg
  simp only [doit1, Option.map_eq_some_iff] at h
  obtain ⟨l, hl', rfl⟩ := h
  have key : ∀ {ps : List (List ℕ)} {l : List CE}, (∀ p ∈ ps, p ∈ G.elems) →
      List.Forall₂ (fun p b => rename bld gt n (tr s p) e = some b) ps l →
      GoodL (fun _ => True) (fun _ _ _ => True) l ∧ ∀ env ∈ D, denL I l env = ps.map fun p => den I e (env ∘ tr s p) := by
    intro ps l hps hf
    induction hf with
    | nil => exact ⟨trivial, fun env _ => by simp [denL]⟩
    | cons hab _ ih =>
      obtain ⟨g1, v1⟩ := rename_value hb n _ (tr_injective hG.grp hs hl (hps _ List.mem_cons_self)) e _ hge hab
      obtain ⟨g2, v2⟩ := ih fun p hp => hps p (List.mem_cons_of_mem _ hp)
      exact ⟨⟨g1, g2⟩, fun env he => by simp only [denL, List.map_cons]; rw [v1 env he, v2 env he]⟩
  obtain ⟨gl, vl⟩ := key (fun p hp => hp) (mapO_forall₂ hl')
  cases k with
  | sum =>
    refine ⟨hb.good cl_true _ (show Good (.add l) from gl), fun env he => ?_⟩
    simp only [base]
    rw [hb.val _ (show Good (.add l) from gl) env he, den_cyc]
    simp only [den, fold]
    rw [vl env he]
  | prod =>
    refine ⟨hb.good cl_true _ (show Good (.mul l) from gl), fun env he => ?_⟩
    simp only [base]
    rw [hb.val _ (show Good (.mul l) from gl) env he, den_cyc]
    simp only [den, fold]
    rw [vl env he]

/-- `doit()` keeps the value. -/
theorem doit_value (hb : BldOk I D bld) : ∀ (n : ℕ) (e e' : CE), Good e → doit bld gt n e = some e' →
    Good e' ∧ ∀ env ∈ D, den I e' env = den I e env
  | 0, e, e', _, h => by simp [doit] at h
  | n + 1, .num q, e', _, h => by simp only [doit, Option.some.injEq] at h; subst h; exact ⟨trivial, fun _ _ => rfl⟩
  | n + 1, .sym q, e', _, h => by simp only [doit, Option.some.injEq] at h; subst h; exact ⟨trivial, fun _ _ => rfl⟩
  | n + 1, .add l, e', hg, h => by
    simp only [doit, Option.map_eq_some_iff] at h
    obtain ⟨l', hl', rfl⟩ := h
    obtain ⟨g, v⟩ := forall₂_ren (ρ := id) (fun e e' => doit_value hb n e e') hg (mapO_forall₂ hl')
    exact ⟨hb.good cl_true _ (show Good (.add l') from g), fun env he => by
      rw [hb.val (.add l') g env he]; simp only [den]; rw [v env he]; rfl⟩
  | n + 1, .mul l, e', hg, h => by
    simp only [doit, Option.map_eq_some_iff] at h
    obtain ⟨l', hl', rfl⟩ := h
    obtain ⟨g, v⟩ := forall₂_ren (ρ := id) (fun e e' => doit_value hb n e e') hg (mapO_forall₂ hl')
    exact ⟨hb.good cl_true _ (show Good (.mul l') from g), fun env he => by
      rw [hb.val (.mul l') g env he]; simp only [den]; rw [v env he]; rfl⟩
  | n + 1, .pow b m, e', hg, h => by
    simp only [doit, Option.map_eq_some_iff] at h
    obtain ⟨b', hb', rfl⟩ := h
    obtain ⟨g, v⟩ := doit_value hb n b b' hg hb'
    exact ⟨hb.good cl_true _ (show Good (.pow b' m) from g), fun env he => by
      rw [hb.val (.pow b' m) g env he]; simp only [den]; rw [v env he]⟩
  | n + 1, .app f l, e', hg, h => by
    simp only [doit, Option.map_eq_some_iff] at h
    obtain ⟨l', hl', rfl⟩ := h
    obtain ⟨g, v⟩ := forall₂_ren (ρ := id) (fun e e' => doit_value hb n e e') hg (mapO_forall₂ hl')
    exact ⟨hb.good cl_true _ (show Good (.app f l') from g), fun env he => by
      rw [hb.val (.app f l') g env he]; simp only [den]; rw [v env he]; rfl⟩
  | n + 1, .cyc k e s G, e', hg, h => by
    simp only [doit, Option.bind_eq_some_iff] at h
    obtain ⟨e1, h1, h2⟩ := h
    obtain ⟨g1, v1⟩ := doit1_value hb n k e s G e1 hg h1
    obtain ⟨g2, v2⟩ := doit_value hb n e1 e' g1 h2
    exact ⟨g2, fun env he => by rw [v2 env he, v1 env he]⟩

/-- `as_content_primitive` (partial): the content times the primitive part is the expression.  The same restriction
on products as in `newCyc_value_partial` (`contentPrimitive_wrong`). -/
theorem contentPrimitive_value_partial (hb : BldOk I D bld) (n : ℕ) (cp : ℚ × CE) (k : Kind) (e : CE) (s : List ℕ)
    (G : PGrp) (r : ℚ × CE) (hg : Good (.cyc k e s G)) (hcp : Good cp.2)
    (hv : ∀ env ∈ D, den I e env = (cp.1 : K) * den I cp.2 env) [CharZero K]
    (h : contentPrimitive bld gt n cp k e s G = some r) :
    ∀ env ∈ D, (r.1 : K) * den I r.2 env = den I (.cyc k e s G) env := by
  obtain ⟨hge, hs, hl, hG, hk, -⟩ := hg
  unfold contentPrimitive at h
  by_cases hc : cp.1 = 1
  · rw [if_pos hc] at h
    simp only [Option.some.injEq] at h
    subst h
    intro env _; simp
  · rw [if_neg hc] at h
    simp only [Option.map_eq_some_iff] at h
    obtain ⟨r', hr', rfl⟩ := h
    obtain ⟨-, v⟩ := newCyc_value_partial hb n k cp.2 s G r' hcp hG hk hr'
    intro env he
    have hd : ∀ p ∈ G.elems, den I e (env ∘ tr s p) = (cp.1 : K) * den I cp.2 (env ∘ tr s p) := fun p hp =>
      hv _ (hb.dom env he _ (tr_injective hG.grp hs hl hp))
    rw [den_cyc, List.map_congr_left hd]
    cases k with
    | sum =>
      dsimp only
      rw [v env he]
      simp only [fold]
      rw [mul_comm, ← sum_map_mul_const]
      simp only [mul_comm]
    | prod =>
      dsimp only
      rw [v env he]
      simp only [fold]
      rw [prod_map_mul]
      simp [hl, hk rfl]

end

/-! ### examples and counterexamples -/

/-- the cyclic group on three points -/
def c3 : PGrp := ⟨3, [[0, 1, 2], [1, 2, 0], [2, 0, 1]], [[1, 2, 0]]⟩

/-- the symmetric group on three points -/
def s3 : PGrp := ⟨3, [[0, 1, 2], [0, 2, 1], [1, 0, 2], [1, 2, 0], [2, 0, 1], [2, 1, 0]], [[1, 2, 0], [1, 0, 2]]⟩

theorem c3_ok : GrpOk c3 where
  grp := ⟨by decide, by decide, by decide, by decide, by decide⟩
  mem := by decide
  gen := by
    intro p hp
    simp only [c3, List.mem_cons, List.not_mem_nil, or_false] at hp
    rcases hp with rfl | rfl | rfl
    · exact ⟨[], by decide, by decide⟩
    · exact ⟨[[1, 2, 0]], by decide, by decide⟩
    · exact ⟨[[1, 2, 0], [1, 2, 0]], by decide, by decide⟩

theorem s3_ok : GrpOk s3 where
  grp := ⟨by decide, by decide, by decide, by decide, by decide⟩
  mem := by decide
  gen := by
    intro p hp
    simp only [s3, List.mem_cons, List.not_mem_nil, or_false] at hp
    rcases hp with rfl | rfl | rfl | rfl | rfl | rfl
    · exact ⟨[], by decide, by decide⟩
    · exact ⟨[[1, 2, 0], [1, 0, 2]], by decide, by decide⟩
    · exact ⟨[[1, 0, 2]], by decide, by decide⟩
    · exact ⟨[[1, 2, 0]], by decide, by decide⟩
    · exact ⟨[[1, 2, 0], [1, 2, 0]], by decide, by decide⟩
    · exact ⟨[[1, 0, 2], [1, 2, 0]], by decide, by decide⟩

/-- the constructors that do nothing meet the contract at every point -/
theorem bldOk_id {K : Type*} [Field K] (I : ℕ → List K → K) : BldOk I Set.univ (fun e => e) where
  dom := fun _ _ _ _ => trivial
  val := fun _ _ _ _ => rfl
  good := fun _ _ h => h

/-- `CyclicSum(c*d, (c, a, b), C3)` with an outer factor: the simplified form and its value. -/
example : (newCyc (fun e => e) (fun _ _ => false) 5 .sum (.mul [.sym 2, .sym 7]) [2, 0, 1] c3).map
    (fun r => den (K := ℚ) (fun _ _ => 0) r (fun i => i + 1)) = some ((3 + 1 + 2) * 8) := by decide +kernel

/-- the invariant factor was taken out and the tuple was sorted -/
example : (match newCyc (fun e => e) (fun _ _ => false) 5 .sum (.mul [.sym 2, .sym 7]) [2, 0, 1] c3 with
    | some (.mul [.cyc .sum _ [0, 1, 2] _, .sym 7]) => true
    | _ => false) = true := by decide +kernel

/-- **Defect**: `CyclicProduct(2*a, (a, b, c), SymmetricGroup(3))` is built as `2**3 * CyclicProduct(a, ...)`, while
the product over the six elements of the group has the factor `2**6`. -/
theorem newCyc_prod_wrong : ∃ r, newCyc (fun e => e) (fun _ _ => false) 5 .prod (.mul [.num 2, .sym 0]) [0, 1, 2] s3
      = some r ∧
    den (K := ℚ) (fun _ _ => 0) r (fun _ => 1) = 8 ∧
    (s3.elems.map fun p => den (K := ℚ) (fun _ _ => 0) (.mul [.num 2, .sym 0])
      ((fun _ => 1) ∘ tr [0, 1, 2] p)).prod = 64 := by
  have h : (newCyc (fun e => e) (fun _ _ => false) 5 .prod (.mul [.num 2, .sym 0]) [0, 1, 2] s3).map
      (fun r => den (K := ℚ) (fun _ _ => 0) r (fun _ => 1)) = some 8 := by decide +kernel
  obtain ⟨r, hr, h8⟩ := Option.map_eq_some_iff.1 h
  exact ⟨r, hr, h8, by decide +kernel⟩

/-- **Defect**: `CyclicProduct(2*a + 2*b, (a, b, c), SymmetricGroup(3)).as_content_primitive()` has the content
`2**3` instead of `2**6`. -/
theorem contentPrimitive_wrong :
    ∃ r, contentPrimitive (fun e => e) (fun _ _ => false) 5 (2, .add [.sym 0, .sym 1]) .prod
      (.add [.mul [.num 2, .sym 0], .mul [.num 2, .sym 1]]) [0, 1, 2] s3 = some r ∧
    (r.1 : ℚ) * den (K := ℚ) (fun _ _ => 0) r.2 (fun _ => 1) ≠
      den (K := ℚ) (fun _ _ => 0) (.cyc .prod (.add [.mul [.num 2, .sym 0], .mul [.num 2, .sym 1]]) [0, 1, 2] s3)
        (fun _ => 1) := by
  have h : (contentPrimitive (fun e => e) (fun _ _ => false) 5 (2, .add [.sym 0, .sym 1]) .prod
      (.add [.mul [.num 2, .sym 0], .mul [.num 2, .sym 1]]) [0, 1, 2] s3).map
      (fun r => (r.1 : ℚ) * den (K := ℚ) (fun _ _ => 0) r.2 (fun _ => 1)) = some 512 := by decide +kernel
  obtain ⟨r, hr, h8⟩ := Option.map_eq_some_iff.1 h
  exact ⟨r, hr, by rw [h8]; decide +kernel⟩

end Verif.Cyc
