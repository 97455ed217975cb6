import Verif.Props.Coeff
import Mathlib.Algebra.BigOperators.Ring.List
import Mathlib.Tactic.Ring
import Mathlib.Tactic.LinearCombination

/-!
# Polynomials as lists of terms

SymPy's `Poly` arithmetic, used by the models: the terms of a product are multiplied out, collected by exponent tuple, and terms with
coefficient zero are dropped.  The lemmas state that the value at every point is the expected one.
-/

namespace Verif.TermsPoly

open Verif Coeff

variable {K : Type*}

/-- Collect terms with equal exponents and drop zeros (SymPy keeps every `Poly` in this form). -/
def collect [AddMonoid K] [DecidableEq K] (p : List (List ℕ × K)) : List (List ℕ × K) :=
  (p.foldl (fun d t => dset d t.1 ((dget d t.1).getD 0 + t.2)) []).filter fun t => decide (t.2 ≠ 0)

/-- All products of terms. -/
def rawMul [Mul K] (p q : List (List ℕ × K)) : List (List ℕ × K) :=
  p.flatMap fun s => q.map fun t => (List.zipWith (· + ·) s.1 t.1, s.2 * t.2)

/-- `p * q` for `Poly` objects (SymPy). -/
def pmul [Semiring K] [DecidableEq K] (p q : List (List ℕ × K)) : List (List ℕ × K) := collect (rawMul p q)

/-- `-p`. -/
def pneg [Neg K] (p : List (List ℕ × K)) : List (List ℕ × K) := p.map fun t => (t.1, -t.2)

/-- `Poly(c, *gens)`. -/
def pconst [Zero K] [DecidableEq K] (n : ℕ) (c : K) : List (List ℕ × K) := if c = 0 then [] else [(List.replicate n 0, c)]

/-- `p**k`. -/
def ppow [Semiring K] [DecidableEq K] (n : ℕ) (p : List (List ℕ × K)) : ℕ → List (List ℕ × K)
  | 0 => pconst n 1
  | k + 1 => pmul (ppow n p k) p

/-- `prod(l)`. -/
def pprod [Semiring K] [DecidableEq K] (n : ℕ) (l : List (List (List ℕ × K))) : List (List ℕ × K) := l.foldl pmul (pconst n 1)

/-- All exponent tuples have length `n`. -/
def Arity (n : ℕ) (p : List (List ℕ × K)) : Prop := ∀ t ∈ p, t.1.length = n

/-- All terms have total degree `d`. -/
def HomDeg (d : ℕ) (p : List (List ℕ × K)) : Prop := ∀ t ∈ p, t.1.sum = d

theorem evalDict_cons [CommSemiring K] (t : List ℕ × K) (p : List (List ℕ × K)) (x : List K) :
    evalDict (t :: p) x = t.2 * evalMonom t.1 x + evalDict p x := by simp [evalDict]

theorem evalDict_nil [CommSemiring K] (x : List K) : evalDict ([] : List (List ℕ × K)) x = 0 := by simp [evalDict]

theorem evalDict_append [CommSemiring K] (p q : List (List ℕ × K)) (x : List K) : evalDict (p ++ q) x = evalDict p x + evalDict q x := by
  simp [evalDict]

theorem evalDict_dset [CommSemiring K] (d : List (List ℕ × K)) (k : List ℕ) (v : K) (x : List K) :
    evalDict (dset d k ((dget d k).getD 0 + v)) x = evalDict d x + v * evalMonom k x := by
  induction d with
  | nil => simp [dset, dget, evalDict]
  | cons e d ih =>
    obtain ⟨k', v'⟩ := e
    by_cases h : k' = k
    · subst h
      simp only [dset, dget, if_true, evalDict_cons, Option.getD_some]
      ring
    · simp only [dset, dget, if_neg h, evalDict_cons, ih]
      ring

theorem evalDict_filter [CommSemiring K] [DecidableEq K] (d : List (List ℕ × K)) (x : List K) :
    evalDict (d.filter fun t => decide (t.2 ≠ 0)) x = evalDict d x := by
  induction d with
  | nil => rfl
  | cons e d ih =>
    by_cases h : e.2 = 0
    · rw [List.filter_cons_of_neg (by simp [h]), ih, evalDict_cons, h]; ring
    · rw [List.filter_cons_of_pos (by simp [h]), evalDict_cons, evalDict_cons, ih]

theorem evalDict_collect [CommSemiring K] [DecidableEq K] (p : List (List ℕ × K)) (x : List K) : evalDict (collect p) x = evalDict p x := by
  unfold collect
  rw [evalDict_filter]
  have : ∀ (p d : List (List ℕ × K)), evalDict (p.foldl (fun d t => dset d t.1 ((dget d t.1).getD 0 + t.2)) d) x = evalDict d x + evalDict p x := by
    intro p
    induction p with
    | nil => intro d; simp [evalDict_nil]
    | cons t p ih =>
      intro d
      rw [List.foldl_cons, ih, evalDict_dset, evalDict_cons]
      ring
  rw [this, evalDict_nil, zero_add]

theorem mem_collect [AddMonoid K] [DecidableEq K] (p : List (List ℕ × K)) (t : List ℕ × K) (h : t ∈ collect p) : ∃ u ∈ p, u.1 = t.1 := by
  have : ∀ (p d : List (List ℕ × K)), t.1 ∈ dkeys (p.foldl (fun d t => dset d t.1 ((dget d t.1).getD 0 + t.2)) d) →
      t.1 ∈ dkeys d ∨ ∃ u ∈ p, u.1 = t.1 := by
    intro p
    induction p with
    | nil => intro d hd; exact Or.inl hd
    | cons u p ih =>
      intro d hd
      rw [List.foldl_cons] at hd
      rcases ih _ hd with h1 | ⟨w, hw, hw2⟩
      · rw [mem_dkeys_dset] at h1
        rcases h1 with h1 | h1
        · exact Or.inr ⟨u, List.mem_cons_self .., h1.symm⟩
        · exact Or.inl h1
      · exact Or.inr ⟨w, List.mem_cons_of_mem _ hw, hw2⟩
  have h1 := (List.mem_filter.1 h).1
  rcases this p [] (List.mem_map_of_mem h1) with h2 | h2
  · simp [dkeys] at h2
  · exact h2

/-- The collected list has distinct exponents and no zero coefficients. -/
theorem collect_isPoly [AddMonoid K] [DecidableEq K] (p : List (List ℕ × K)) : (dkeys (collect p)).Nodup ∧ ∀ t ∈ collect p, t.2 ≠ 0 := by
  constructor
  · have : ∀ (p d : List (List ℕ × K)), (dkeys d).Nodup → (dkeys (p.foldl (fun d t => dset d t.1 ((dget d t.1).getD 0 + t.2)) d)).Nodup := by
      intro p
      induction p with
      | nil => intro d hd; exact hd
      | cons u p ih => intro d hd; exact ih _ (dkeys_nodup_dset _ _ _ hd)
    exact (this p [] (by simp [dkeys])).sublist (List.Sublist.map _ List.filter_sublist)
  · intro t ht
    simpa using (List.mem_filter.1 ht).2

theorem evalMonom_add [CommSemiring K] : ∀ (a b : List ℕ) (x : List K), a.length = x.length → b.length = x.length →
    evalMonom (List.zipWith (· + ·) a b) x = evalMonom a x * evalMonom b x
  | [], [], [], _, _ => by simp [evalMonom]
  | a :: as, b :: bs, x :: xs, h1, h2 => by
      have ih := evalMonom_add as bs xs (by simpa using h1) (by simpa using h2)
      simp only [evalMonom, List.zipWith_cons_cons, List.prod_cons] at ih ⊢
      rw [ih, pow_add]; ring
  | [], _ :: _, [], _, h => by simp at h
  | _ :: _, _, [], h, _ => by simp at h
  | [], _, _ :: _, h, _ => by simp at h
  | _ :: _, [], _ :: _, _, h => by simp at h

theorem evalDict_rawMul [CommSemiring K] (p q : List (List ℕ × K)) (x : List K) (hp : Arity x.length p) (hq : Arity x.length q) :
    evalDict (rawMul p q) x = evalDict p x * evalDict q x := by
  have inner : ∀ (s : List ℕ × K) (q : List (List ℕ × K)), s.1.length = x.length → Arity x.length q →
      evalDict (q.map fun t => (List.zipWith (· + ·) s.1 t.1, s.2 * t.2)) x = s.2 * evalMonom s.1 x * evalDict q x := by
    intro s q hs hq
    induction q with
    | nil => simp [evalDict_nil]
    | cons t q ih =>
      rw [List.map_cons, evalDict_cons, evalDict_cons, ih (fun t ht => hq t (List.mem_cons_of_mem _ ht)), evalMonom_add _ _ _ hs (hq t (List.mem_cons_self ..))]
      ring
  unfold rawMul
  induction p with
  | nil => simp [evalDict_nil]
  | cons s p ih =>
    rw [List.flatMap_cons, evalDict_append, inner s q (hp s (List.mem_cons_self ..)) hq, ih (fun t ht => hp t (List.mem_cons_of_mem _ ht)), evalDict_cons]
    ring

theorem arity_rawMul [Mul K] {n : ℕ} {p q : List (List ℕ × K)} (hp : Arity n p) (hq : Arity n q) : Arity n (rawMul p q) := by
  intro t ht
  obtain ⟨s, hs, ht⟩ := List.mem_flatMap.1 ht
  obtain ⟨u, hu, rfl⟩ := List.mem_map.1 ht
  simp [hp s hs, hq u hu]

theorem arity_collect [AddMonoid K] [DecidableEq K] {n : ℕ} {p : List (List ℕ × K)} (hp : Arity n p) : Arity n (collect p) := by
  intro t ht
  obtain ⟨u, hu, e⟩ := mem_collect p t ht
  rw [← e]; exact hp u hu

theorem homDeg_collect [AddMonoid K] [DecidableEq K] {d : ℕ} {p : List (List ℕ × K)} (hp : HomDeg d p) : HomDeg d (collect p) := by
  intro t ht
  obtain ⟨u, hu, e⟩ := mem_collect p t ht
  rw [← e]; exact hp u hu

theorem sum_zipWith_add : ∀ (a b : List ℕ), a.length = b.length → (List.zipWith (· + ·) a b).sum = a.sum + b.sum
  | [], [], _ => rfl
  | a :: as, b :: bs, h => by
      have := sum_zipWith_add as bs (by simpa using h)
      simp only [List.zipWith_cons_cons, List.sum_cons, this]; omega
  | [], _ :: _, h => by simp at h
  | _ :: _, [], h => by simp at h

theorem homDeg_rawMul [Mul K] {n a b : ℕ} {p q : List (List ℕ × K)} (hp : Arity n p) (hq : Arity n q) (h1 : HomDeg a p) (h2 : HomDeg b q) :
    HomDeg (a + b) (rawMul p q) := by
  intro t ht
  obtain ⟨s, hs, ht⟩ := List.mem_flatMap.1 ht
  obtain ⟨u, hu, rfl⟩ := List.mem_map.1 ht
  rw [sum_zipWith_add _ _ (by rw [hp s hs, hq u hu]), h1 s hs, h2 u hu]

theorem arity_pmul [Semiring K] [DecidableEq K] {n : ℕ} {p q : List (List ℕ × K)} (hp : Arity n p) (hq : Arity n q) : Arity n (pmul p q) :=
  arity_collect (arity_rawMul hp hq)

theorem homDeg_pmul [Semiring K] [DecidableEq K] {n a b : ℕ} {p q : List (List ℕ × K)} (hp : Arity n p) (hq : Arity n q) (h1 : HomDeg a p) (h2 : HomDeg b q) :
    HomDeg (a + b) (pmul p q) := homDeg_collect (homDeg_rawMul hp hq h1 h2)

theorem evalDict_pmul [CommSemiring K] [DecidableEq K] (p q : List (List ℕ × K)) (x : List K) (hp : Arity x.length p) (hq : Arity x.length q) :
    evalDict (pmul p q) x = evalDict p x * evalDict q x := by
  unfold pmul; rw [evalDict_collect, evalDict_rawMul p q x hp hq]

theorem evalDict_pneg [CommRing K] (p : List (List ℕ × K)) (x : List K) : evalDict (pneg p) x = - evalDict p x := by
  induction p with
  | nil => simp [pneg, evalDict_nil]
  | cons t p ih =>
    have : pneg (t :: p) = (t.1, -t.2) :: pneg p := rfl
    rw [this, evalDict_cons, evalDict_cons, ih]; ring

theorem arity_pneg [Neg K] {n : ℕ} {p : List (List ℕ × K)} (hp : Arity n p) : Arity n (pneg p) := by
  intro t ht
  obtain ⟨u, hu, rfl⟩ := List.mem_map.1 ht
  exact hp u hu

theorem homDeg_pneg [Neg K] {d : ℕ} {p : List (List ℕ × K)} (hp : HomDeg d p) : HomDeg d (pneg p) := by
  intro t ht
  obtain ⟨u, hu, rfl⟩ := List.mem_map.1 ht
  exact hp u hu

theorem evalMonom_zero [CommSemiring K] : ∀ (n : ℕ) (x : List K), evalMonom (List.replicate n 0) x = 1
  | 0, _ => by simp [evalMonom]
  | _ + 1, [] => by simp [evalMonom]
  | n + 1, x :: xs => by
      have := evalMonom_zero n xs
      simp only [evalMonom, List.replicate_succ, List.zipWith_cons_cons, List.prod_cons, pow_zero, one_mul] at this ⊢
      exact this

theorem evalDict_pconst [CommSemiring K] [DecidableEq K] (n : ℕ) (c : K) (x : List K) : evalDict (pconst n c) x = c := by
  unfold pconst
  by_cases h : c = 0
  · rw [if_pos h, evalDict_nil, h]
  · rw [if_neg h, evalDict_cons, evalDict_nil, evalMonom_zero]; ring

theorem arity_pconst [Zero K] [DecidableEq K] (n : ℕ) (c : K) : Arity n (pconst n c) := by
  intro t ht
  unfold pconst at ht
  by_cases h : c = 0
  · rw [if_pos h] at ht; simp at ht
  · rw [if_neg h, List.mem_singleton] at ht; rw [ht]; simp

theorem homDeg_pconst [Zero K] [DecidableEq K] (n : ℕ) (c : K) : HomDeg 0 (pconst n c) := by
  intro t ht
  unfold pconst at ht
  by_cases h : c = 0
  · rw [if_pos h] at ht; simp at ht
  · rw [if_neg h, List.mem_singleton] at ht; rw [ht]; simp

theorem arity_ppow [Semiring K] [DecidableEq K] {n : ℕ} {p : List (List ℕ × K)} (hp : Arity n p) : ∀ k, Arity n (ppow n p k)
  | 0 => arity_pconst _ _
  | k + 1 => arity_pmul (arity_ppow hp k) hp

theorem homDeg_ppow [Semiring K] [DecidableEq K] {n d : ℕ} {p : List (List ℕ × K)} (hp : Arity n p) (hd : HomDeg d p) : ∀ k, HomDeg (k * d) (ppow n p k)
  | 0 => by rw [Nat.zero_mul]; exact homDeg_pconst _ _
  | k + 1 => by rw [Nat.succ_mul]; exact homDeg_pmul (arity_ppow hp k) hp (homDeg_ppow hp hd k) hd

theorem evalDict_ppow [CommSemiring K] [DecidableEq K] (p : List (List ℕ × K)) (x : List K) (hp : Arity x.length p) :
    ∀ k, evalDict (ppow x.length p k) x = evalDict p x ^ k
  | 0 => by rw [pow_zero]; exact evalDict_pconst _ _ _
  | k + 1 => by rw [ppow, evalDict_pmul _ _ _ (arity_ppow hp k) hp, evalDict_ppow p x hp k, pow_succ]

theorem foldl_pmul [CommSemiring K] [DecidableEq K] (x : List K) : ∀ (l : List (List (List ℕ × K))) (a : List (List ℕ × K)),
    (∀ p ∈ l, Arity x.length p) → Arity x.length a → Arity x.length (l.foldl pmul a) ∧ evalDict (l.foldl pmul a) x = evalDict a x * (l.map fun p => evalDict p x).prod
  | [], a, _, ha => ⟨ha, by simp⟩
  | p :: l, a, hl, ha => by
      have h1 := hl p (List.mem_cons_self ..)
      obtain ⟨h2, h3⟩ := foldl_pmul x l (pmul a p) (fun q hq => hl q (List.mem_cons_of_mem _ hq)) (arity_pmul ha h1)
      refine ⟨h2, ?_⟩
      rw [List.foldl_cons, h3, evalDict_pmul _ _ _ ha h1, List.map_cons, List.prod_cons]; ring

theorem evalDict_pprod [CommSemiring K] [DecidableEq K] (l : List (List (List ℕ × K))) (x : List K) (hl : ∀ p ∈ l, Arity x.length p) :
    evalDict (pprod x.length l) x = (l.map fun p => evalDict p x).prod := by
  unfold pprod
  rw [(foldl_pmul x l _ hl (arity_pconst _ _)).2, evalDict_pconst, one_mul]

theorem arity_foldl_pmul [Semiring K] [DecidableEq K] {n : ℕ} : ∀ (l : List (List (List ℕ × K))) (a : List (List ℕ × K)),
    (∀ p ∈ l, Arity n p) → Arity n a → Arity n (l.foldl pmul a)
  | [], _, _, ha => ha
  | p :: l, a, hl, ha => arity_foldl_pmul l _ (fun q hq => hl q (List.mem_cons_of_mem _ hq)) (arity_pmul ha (hl p (List.mem_cons_self ..)))

theorem arity_pprod [Semiring K] [DecidableEq K] {n : ℕ} (l : List (List (List ℕ × K))) (hl : ∀ p ∈ l, Arity n p) : Arity n (pprod n l) :=
  arity_foldl_pmul l _ hl (arity_pconst _ _)

end Verif.TermsPoly
