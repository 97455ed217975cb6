import Verif.Model.Dense
import Verif.Props.AcuteDense
import Verif.Props.Univariate
import Verif.Proofs.SymDiv

/-!
# Homogenisation of the axis

`_homogenize_sym_axis` and `_homogenize_sym_proof` give polynomials that are homogeneous of the wanted degree, symmetric in `b` and `c`, nonnegative
on the octant, and have the given values at `(t, 1, 1)`.
-/

namespace Verif.Dense

open Verif.Ternary Verif.TermsPoly Verif.Acute
open Verif.Univariate (Sos Raw sosVal rawVal SosNonneg)

variable {K : Type*} [Field K] [LinearOrder K] [IsStrictOrderedRing K]

/-- What the lifted polynomial must satisfy. -/
structure LiftOk (d : ℕ) (g : K → K) (l : TP K) : Prop where
  arity : Arity 3 l
  hom : HomDeg d l
  sym : ∀ a b c, polyVal l a c b = polyVal l a b c
  axis : ∀ t, polyVal l t 1 1 = g t

theorem polyVal_append (p q : TP K) (a b c : K) : polyVal (p ++ q) a b c = polyVal p a b c + polyVal q a b c := by
  unfold polyVal
  exact evalDict_append _ _ _

theorem polyVal_cons3 (i j k : ℕ) (v : K) (p : TP K) (a b c : K) : polyVal (([i, j, k], v) :: p) a b c = v * (a ^ i * b ^ j * c ^ k) + polyVal p a b c := by
  unfold polyVal
  rw [evalDict_cons]
  simp only [Coeff.evalMonom, List.zipWith_cons_cons, List.zipWith_nil_right, List.prod_cons, List.prod_nil]
  ring

theorem polyVal_nil (a b c : K) : polyVal ([] : TP K) a b c = 0 := by
  unfold polyVal
  exact evalDict_nil _

theorem LiftOk.nil (d : ℕ) : LiftOk d (fun _ => 0) ([] : TP K) := ⟨by simp [Arity], by simp [HomDeg], fun _ _ _ => by rw [polyVal_nil, polyVal_nil], fun _ => polyVal_nil _ _ _⟩

theorem LiftOk.append {d : ℕ} {g h : K → K} {p q : TP K} (hp : LiftOk d g p) (hq : LiftOk d h q) : LiftOk d (fun t => g t + h t) (p ++ q) :=
  ⟨arity_append hp.arity hq.arity, homDeg_append hp.hom hq.hom, fun a b c => by rw [polyVal_append, polyVal_append, hp.sym, hq.sym],
    fun t => by rw [polyVal_append, hp.axis, hq.axis]⟩

theorem LiftOk.mul {d e : ℕ} {g h : K → K} {p q : TP K} (hp : LiftOk d g p) (hq : LiftOk e h q) : LiftOk (d + e) (fun t => g t * h t) (TermsPoly.pmul p q) :=
  ⟨arity_pmul hp.arity hq.arity, homDeg_pmul hp.arity hq.arity hp.hom hq.hom,
    fun a b c => by rw [polyVal_pmul hp.arity hq.arity, polyVal_pmul hp.arity hq.arity, hp.sym, hq.sym],
    fun t => by rw [polyVal_pmul hp.arity hq.arity, hp.axis, hq.axis]⟩

theorem LiftOk.congr {d : ℕ} {g h : K → K} {p : TP K} (hp : LiftOk d g p) (e : ∀ t, g t = h t) : LiftOk d h p := ⟨hp.arity, hp.hom, hp.sym, fun t => by rw [hp.axis, e]⟩

/-- The polynomial is nonnegative on the octant. -/
def Pos (l : TP K) : Prop := ∀ a b c : K, Octant a b c → 0 ≤ polyVal l a b c

theorem homTerm_ok {d m : ℕ} (v : K) (h : m ≤ d) : LiftOk d (fun t => v * t ^ m) (homTerm d m v) := by
  unfold homTerm
  dsimp only
  by_cases hr : (d - m) % 2 = 0
  · rw [if_pos hr]
    refine ⟨?_, ?_, ?_, ?_⟩
    · intro t ht
      rw [List.mem_singleton.1 ht]
      rfl
    · intro t ht
      rw [List.mem_singleton.1 ht]
      simp
      omega
    · intro a b c
      rw [polyVal_cons3, polyVal_cons3, polyVal_nil, polyVal_nil]
      ring
    · intro t
      rw [polyVal_cons3, polyVal_nil]
      ring
  · rw [if_neg hr]
    refine ⟨?_, ?_, ?_, ?_⟩
    · intro t ht
      simp only [List.mem_cons, List.not_mem_nil, or_false] at ht
      rcases ht with rfl | rfl <;> rfl
    · intro t ht
      simp only [List.mem_cons, List.not_mem_nil, or_false] at ht
      rcases ht with rfl | rfl
      all_goals
        simp
        omega
    · intro a b c
      rw [polyVal_cons3, polyVal_cons3, polyVal_cons3, polyVal_cons3, polyVal_nil, polyVal_nil]
      ring
    · intro t
      rw [polyVal_cons3, polyVal_cons3, polyVal_nil]
      ring

theorem homTerm_pos {d m : ℕ} {v : K} (hv : 0 ≤ v) : Pos (homTerm d m v) := by
  rintro a b c ⟨ha, hb, hc⟩
  unfold homTerm
  dsimp only
  by_cases hr : (d - m) % 2 = 0
  · rw [if_pos hr, polyVal_cons3, polyVal_nil]
    positivity
  · rw [if_neg hr, polyVal_cons3, polyVal_cons3, polyVal_nil]
    positivity

theorem homAxis_ok {d : ℕ} : ∀ {s : TP K}, Arity 1 s → (∀ t ∈ s, t.1.getD 0 0 ≤ d) → LiftOk d (fun t => Coeff.evalDict s [t]) (homAxis s d)
  | [], _, _ => (LiftOk.nil d).congr fun t => (evalDict_nil _).symm
  | u :: s, ha, hd => by
    have h1 := homTerm_ok u.2 (hd u (List.mem_cons_self ..))
    have h2 := homAxis_ok (s := s) (fun t ht => ha t (List.mem_cons_of_mem _ ht)) (fun t ht => hd t (List.mem_cons_of_mem _ ht))
    refine (h1.append h2).congr fun t => ?_
    rw [evalDict_cons]
    obtain ⟨m, v⟩ := u
    obtain ⟨e, rfl⟩ := List.length_eq_one_iff.1 (ha (m, v) (List.mem_cons_self ..))
    simp [Coeff.evalMonom]

theorem homAxis_pos {d : ℕ} : ∀ {s : TP K}, (∀ t ∈ s, 0 ≤ t.2) → Pos (homAxis s d)
  | [], _ => fun a b c _ => le_of_eq (polyVal_nil a b c).symm
  | u :: s, h => fun a b c ho => by
    have h1 := homTerm_pos (d := d) (m := u.1.getD 0 0) (h u (List.mem_cons_self ..)) a b c ho
    have h2 := homAxis_pos (d := d) (s := s) (fun t ht => h t (List.mem_cons_of_mem _ ht)) a b c ho
    have : homAxis (u :: s) d = homTerm d (u.1.getD 0 0) u.2 ++ homAxis s d := rfl
    rw [this, polyVal_append]
    exact add_nonneg h1 h2

theorem uterms_value (v : UPoly K) (t : K) : Coeff.evalDict (uterms v) [t] = uev v t := by
  unfold uterms
  rw [evalDict_filter]
  have : ∀ (v : UPoly K) (k : ℕ), Coeff.evalDict ((v.zipIdx k).map fun t => ([t.2], t.1)) [t] = t ^ k * uev v t := by
    intro v
    induction v with
    | nil => intro k; simp [evalDict_nil, uev]
    | cons x v ih =>
      intro k
      rw [List.zipIdx_cons, List.map_cons, evalDict_cons, ih, uev_cons]
      simp only [Coeff.evalMonom, List.zipWith_cons_cons, List.zipWith_nil_right, List.prod_cons, List.prod_nil]
      ring
  rw [this, pow_zero, one_mul]

theorem arity_uterms (v : UPoly K) : Arity 1 (uterms v) := by
  intro t ht
  obtain ⟨u, _, rfl⟩ := List.mem_map.1 (List.mem_filter.1 ht).1
  rfl

theorem mem_le_max : ∀ (l : List ℕ) (e : ℕ), l.max? = some e → ∀ x ∈ l, x ≤ e := by
  intro l e h x hx
  exact (List.max?_eq_some_iff.1 h).2 x hx

theorem homSquare_ok {d ld : ℕ} {kv : K × UPoly K} {p : TP K} (h : homSquare d ld kv = .ok p) :
    LiftOk (d - ld - (d - ld) % 2) (fun t => kv.1 * uev kv.2 t ^ 2) p ∧ (0 ≤ kv.1 → Pos p) := by
  unfold homSquare at h
  split at h
  · exact absurd h (by simp)
  · rename_i e he
    split at h
    · exact absurd h (by simp)
    · rename_i hlt
      rw [← Except.ok.inj h]
      have h1 : LiftOk e (fun t => Coeff.evalDict (uterms kv.2) [t]) (homAxis (uterms kv.2) e) :=
        homAxis_ok (arity_uterms _) fun t ht => mem_le_max _ _ he _ (List.mem_map_of_mem ht)
      have hc : LiftOk 0 (fun _ => kv.1) (pconst 3 kv.1) :=
        ⟨arity_pconst _ _, homDeg_pconst _ _, fun a b c => (evalDict_pconst 3 _ _).trans (evalDict_pconst 3 _ _).symm, fun t => evalDict_pconst 3 _ _⟩
      have hm : LiftOk (2 * ((d - ld - e * 2) / 2)) (fun _ => (1 : K)) [([0, (d - ld - e * 2) / 2, (d - ld - e * 2) / 2], 1)] := by
        refine ⟨?_, ?_, ?_, ?_⟩
        · intro t ht
          rw [List.mem_singleton.1 ht]
          rfl
        · intro t ht
          rw [List.mem_singleton.1 ht]
          simp
          omega
        · intro a b c
          rw [polyVal_cons3, polyVal_cons3, polyVal_nil, polyVal_nil]
          ring
        · intro t
          rw [polyVal_cons3, polyVal_nil]
          ring
      have hall := (hc.mul (h1.mul h1)).mul hm
      refine ⟨?_, ?_⟩
      · have e1 : 0 + (e + e) + 2 * ((d - ld - e * 2) / 2) = d - ld - (d - ld) % 2 := by omega
        rw [e1] at hall
        refine hall.congr fun t => ?_
        rw [uterms_value]
        ring
      · rintro hk a b c ⟨ha, hb, hc'⟩
        rw [polyVal_pmul (hc.mul (h1.mul h1)).arity hm.arity, polyVal_pmul hc.arity (h1.mul h1).arity, polyVal_pmul h1.arity h1.arity, polyVal_cons3, polyVal_nil]
        have : polyVal (pconst 3 kv.1) a b c = kv.1 := evalDict_pconst 3 _ _
        rw [this]
        have := mul_self_nonneg (polyVal (homAxis (uterms kv.2) e) a b c)
        positivity

theorem homSquares_ok {d ld : ℕ} : ∀ {L : List (K × UPoly K)} {p : TP K}, homSquares d ld L = .ok p →
    LiftOk (d - ld - (d - ld) % 2) (fun t => sosVal L t) p ∧ (SosNonneg L → Pos p)
  | [], p, h => by
    rw [← Except.ok.inj h]
    exact ⟨(LiftOk.nil _).congr fun t => by simp [sosVal], fun _ a b c _ => le_of_eq (polyVal_nil a b c).symm⟩
  | kv :: L, p, h => by
    unfold homSquares at h
    cases h1 : homSquare d ld kv with
    | error e =>
      rw [h1] at h
      exact absurd h (by simp [bind, Except.bind])
    | ok q =>
      cases h2 : homSquares d ld L with
      | error e =>
        rw [h1, h2] at h
        exact absurd h (by simp [bind, Except.bind])
      | ok r =>
        rw [h1, h2] at h
        rw [← Except.ok.inj h]
        obtain ⟨a1, a2⟩ := homSquare_ok h1
        obtain ⟨b1, b2⟩ := homSquares_ok h2
        refine ⟨(a1.append b1).congr fun t => by simp [sosVal], ?_⟩
        intro hn a b c ho
        rw [polyVal_append]
        exact add_nonneg (a2 (hn kv (List.mem_cons_self ..)) a b c ho) (b2 (fun t ht => hn t (List.mem_cons_of_mem _ ht)) a b c ho)

theorem homPart_ok {d : ℕ} {e : Bool × Sos K} {p : TP K} (h : homPart d e = .ok p) :
    LiftOk d (fun t => (if e.1 then t else 1) * sosVal e.2 t) p ∧ (SosNonneg e.2 → Pos p) := by
  unfold homPart at h
  dsimp only at h
  generalize hld : (if e.1 = true then 1 else 0) = ld at h
  split at h
  · exact absurd h (by simp)
  · rename_i hlt
    cases h1 : homSquares d ld e.2 with
    | error x =>
      rw [h1] at h
      exact absurd h (by simp [bind, Except.bind])
    | ok q =>
      rw [h1] at h
      obtain ⟨a1, a2⟩ := homSquares_ok h1
      have hm : LiftOk ld (fun t : K => t ^ ld) [([ld, 0, 0], 1)] := by
        refine ⟨?_, ?_, ?_, ?_⟩
        · intro t ht
          rw [List.mem_singleton.1 ht]
          rfl
        · intro t ht
          rw [List.mem_singleton.1 ht]
          simp
        · intro a b c
          rw [polyVal_cons3, polyVal_cons3, polyVal_nil, polyVal_nil]
          ring
        · intro t
          rw [polyVal_cons3, polyVal_nil]
          ring
      have hb : LiftOk 1 (fun _ : K => 1) [([0, 1, 0], 1 / 2), ([0, 0, 1], 1 / 2)] := by
        refine ⟨?_, ?_, ?_, ?_⟩
        · intro t ht
          simp only [List.mem_cons, List.not_mem_nil, or_false] at ht
          rcases ht with rfl | rfl <;> rfl
        · intro t ht
          simp only [List.mem_cons, List.not_mem_nil, or_false] at ht
          rcases ht with rfl | rfl <;> simp
        · intro a b c
          rw [polyVal_cons3, polyVal_cons3, polyVal_cons3, polyVal_cons3, polyVal_nil, polyVal_nil]
          ring
        · intro t
          rw [polyVal_cons3, polyVal_cons3, polyVal_nil]
          ring
      have hpow : ∀ t : K, t ^ ld = if e.1 = true then t else 1 := by
        intro t
        rw [← hld]
        split <;> simp
      have p1 : SosNonneg e.2 → Pos (TermsPoly.pmul q [([ld, 0, 0], 1)]) := by
        rintro hn a b c ho
        rw [polyVal_pmul a1.arity hm.arity, polyVal_cons3, polyVal_nil]
        have := a2 hn a b c ho
        have := ho.1
        positivity
      change Except.ok (if (d - ld) % 2 = 1 then TermsPoly.pmul (TermsPoly.pmul q [([ld, 0, 0], 1)]) [([0, 1, 0], 1 / 2), ([0, 0, 1], 1 / 2)]
        else TermsPoly.pmul q [([ld, 0, 0], 1)]) = Except.ok p at h
      rw [← Except.ok.inj h]
      by_cases hodd : (d - ld) % 2 = 1
      · rw [if_pos hodd]
        refine ⟨?_, ?_⟩
        · have := (a1.mul hm).mul hb
          have e1 : d - ld - (d - ld) % 2 + ld + 1 = d := by omega
          rw [e1] at this
          refine this.congr fun t => ?_
          rw [hpow]
          ring
        · rintro hn a b c ho
          rw [polyVal_pmul (a1.mul hm).arity hb.arity, polyVal_cons3, polyVal_cons3, polyVal_nil]
          have := p1 hn a b c ho
          obtain ⟨_, h2, h3⟩ := ho
          positivity
      · rw [if_neg hodd]
        refine ⟨?_, p1⟩
        have := a1.mul hm
        have e1 : d - ld - (d - ld) % 2 + ld = d := by omega
        rw [e1] at this
        refine this.congr fun t => ?_
        rw [hpow]
        ring

/-- The homogenised proof. -/
theorem homProof_ok {d : ℕ} : ∀ {R : Raw K} {p : TP K}, homProof d R = .ok p → LiftOk d (fun t => rawVal R t) p ∧ ((∀ e ∈ R, SosNonneg e.2) → Pos p)
  | [], p, h => by
    rw [← Except.ok.inj h]
    exact ⟨(LiftOk.nil _).congr fun t => by simp [rawVal], fun _ a b c _ => le_of_eq (polyVal_nil a b c).symm⟩
  | e :: R, p, h => by
    unfold homProof at h
    cases h1 : homPart d e with
    | error x =>
      rw [h1] at h
      exact absurd h (by simp [bind, Except.bind])
    | ok q =>
      cases h2 : homProof d R with
      | error x =>
        rw [h1, h2] at h
        exact absurd h (by simp [bind, Except.bind])
      | ok r =>
        rw [h1, h2] at h
        rw [← Except.ok.inj h]
        obtain ⟨a1, a2⟩ := homPart_ok h1
        obtain ⟨b1, b2⟩ := homProof_ok h2
        refine ⟨(a1.append b1).congr fun t => by simp [rawVal], ?_⟩
        intro hn a b c ho
        rw [polyVal_append]
        exact add_nonneg (a2 (hn e (List.mem_cons_self ..)) a b c ho) (b2 (fun t ht => hn t (List.mem_cons_of_mem _ ht)) a b c ho)

/-- The proof `x * 1^2 + 2 * (x - 1)^2` is homogenised to degree three. -/
example : ∃ p, homProof 3 ([(true, [(1, [1])]), (false, [(2, [-1, 1])])] : Raw ℚ) = .ok p ∧ p ≠ [] := ⟨_, rfl, by decide +kernel⟩

end Verif.Dense
