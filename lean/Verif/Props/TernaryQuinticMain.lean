import Verif.Props.TernaryQuinticWind

/-!
# What the solver for cyclic ternary quintics guarantees: the main theorem and the dispatch
-/

set_option linter.unusedSectionVars false

namespace Verif.Ternary

open Verif Verif.Acute

variable {K : Type*} [Field K] [LinearOrder K] [IsStrictOrderedRing K]

theorem Holds.over {f g e : Val3 K} {C : Cert K} (h : Holds g C) (hg : ∀ a b c, g a b c = e a b c * f a b c) (he : ∀ a b c, Octant a b c → 0 ≤ e a b c)
    (hp : ∀ a b c, 0 < a → 0 < b → 0 < c → ¬ (a = b ∧ b = c) → 0 < e a b c) : Holds f (Acute.over C e) := (h.ident.over hg he hp).holds h.1.weights

theorem Holds.reflect {g : Val3 K} {C : Cert K} (h : Holds g C) : Holds (fun a b c => g a c b) C.reflect := by
  refine ⟨⟨?_, ?_, ?_, ?_⟩, ?_⟩
  · intro a b c
    change ((C.terms.map _).map _).sum = _
    rw [List.map_map]
    change C.num a c b = C.den a c b * g a c b
    rw [h.1.identity]
  · intro t ht
    obtain ⟨s, hs, rfl⟩ := List.mem_map.1 ht
    exact h.1.weights s hs
  · intro t ht a b c ⟨ha, hb, hc⟩
    obtain ⟨s, hs, rfl⟩ := List.mem_map.1 ht
    exact h.1.exprs s hs _ _ _ ⟨ha, hc, hb⟩
  · intro a b c ⟨ha, hb, hc⟩
    exact h.1.den _ _ _ ⟨ha, hc, hb⟩
  · intro a b c ha hb hc hn
    exact h.2 _ _ _ ha hc hb fun ⟨h1, h2⟩ => hn ⟨h1.trans h2, h2.symm⟩

theorem windTrivial2_holds {X : Q5Ext K} {f : Quintic K} (h5 : f.c500 = 0) (h4 : f.c410 = 0) (h1 : 0 < f.c140) {C : Cert K}
    (h : windTrivial2 X f = .ok (some C)) : Holds f.poly C := by
  unfold windTrivial2 at h
  dsimp only at h
  split_ifs at h with c1 c2
  · cases h
  · split at h
    · cases h
    · rename_i u _
      split_ifs at h with c3
      generalize (2 * u ^ 2 - u * (f.c311 / f.c140) - f.c311 / f.c140 - 2) / (2 * (2 * u + f.c320 / f.c140 + 1)) = v at h
      cases hC : windRec X (triv2Rest f u v) with
      | error e =>
        rw [hC] at h
        cases h
      | ok r =>
        rw [hC] at h
        cases r with
        | none => cases h
        | some C' =>
          rw [← Option.some.inj (Except.ok.inj h)]
          obtain ⟨hh, _⟩ := windRec_base (f := triv2Rest f u v) rfl rfl rfl hC
          refine ((hh.smul h1.le).add h1.le (e := cyc3 fun a b c => c * (a ^ 2 + (u - v - 1) * a * b - u * a * c + v * b * c) ^ 2) (by oct_sum)).congr ?_
          intro a b c
          simp only [triv2Rest, Quintic.poly, cyc3, h5, h4]
          field_simp
          ring
  · cases h

theorem quadC2_le {f : Quintic K} {d : K} (h : quadC2 f = some d) : d ≤ f.c230 := by
  unfold quadC2 at h
  dsimp only at h
  split_ifs at h with c1 c2 c3
  · rw [← Option.some.inj h]
  · rw [← Option.some.inj h]
    exact c1
  · rw [← Option.some.inj h]
    exact not_lt.1 c2

theorem quadA_holds {f : Quintic K} (h5 : f.c500 = 0) (h4 : f.c410 = 0) (h1 : 0 < f.c140) (hs : 0 ≤ f.sum7) {C : Cert K} (h : quadA f = some C) : Holds f.poly C := by
  unfold quadA at h
  split at h
  · cases h
  · rename_i d hd
    have hd' := sub_nonneg.2 (quadC2_le hd)
    split_ifs at h with c1
    obtain ⟨k1, k2, k3⟩ := c1
    rw [← Option.some.inj h]
    have k4 : 0 ≤ f.c320 - d ^ 2 / (4 * f.c140) := by
      rw [sub_nonneg, div_le_iff₀ (by positivity)]
      linarith
    refine ((holds_over (f := fun a b c => f.poly a b c - f.sum7 * tail5 a b c) ?_ ?_ ?_ (fun a b c _ => sd3_nonneg a b c) fun a b c _ _ _ hn => sd3_pos hn).add hs
      tail5_nonneg).congr fun a b c => by ring
    · intro a b c
      have key := quadSq_identity (d / (2 * f.c140)) a b c
      simp only [List.map_cons, List.map_nil, List.sum_cons, List.sum_nil]
      have e : f.poly a b c - f.sum7 * tail5 a b c = f.c140 * (⟨0, 0, (d / (2 * f.c140)) ^ 2, 2 * (d / (2 * f.c140)), 1, -(3 + 2 * (d / (2 * f.c140))), 2 - (d / (2 * f.c140)) ^ 2⟩ : Quintic K).poly a b c +
          cyc3 (fun a b c => c ^ 2 * (a - b) ^ 2 * ((f.c320 - d ^ 2 / (4 * f.c140)) * b + (f.c230 - d) * a)) a b c + (f.c311 + 3 * f.c140 + d) / 2 * (prodA a b c * sd3 a b c) := by
        simp only [cyc3, sd3, tail5, prodA, cycp3, sab3, Quintic.poly, Quintic.sum7, h5, h4]
        field_simp
        ring
      rw [e]
      linear_combination f.c140 * key
    · each_mem
      · exact k2
      · exact zero_le_one
      · exact k3
    · each_mem
      · intro _ a b c ho
        obtain ⟨ha, hb, hc⟩ := ho
        unfold quadSq cyc3
        dsimp only
        positivity
      · intro _ a b c ho
        refine mul_nonneg ?_ (sd3_nonneg a b c)
        obtain ⟨ha, hb, hc⟩ := ho
        unfold cyc3
        dsimp only
        positivity
      · intro _ a b c ho
        exact mul_nonneg (prodA_nonneg a b c ho) (sq_nonneg _)

theorem windQuadratic_holds {X : Q5Ext K} {f : Quintic K} (h5 : f.c500 = 0) (h4 : f.c410 = 0) (h1 : 0 < f.c140) (hs : 0 ≤ f.sum7) {C : Cert K}
    (h : windQuadratic X f = .ok (some C)) : Holds f.poly C := by
  unfold windQuadratic at h
  split at h
  · rename_i C' hC
    rw [← Option.some.inj (Except.ok.inj h)]
    exact quadA_holds h5 h4 h1 hs hC
  · split_ifs at h with c1
    · cases h
    · split at h
      · cases h
      · rename_i w _
        cases hC : windRec X (quadRest f w) with
        | error e =>
          rw [hC] at h
          cases h
        | ok r =>
          rw [hC] at h
          cases r with
          | none => cases h
          | some C' =>
            rw [← Option.some.inj (Except.ok.inj h)]
            obtain ⟨hh, _⟩ := windRec_base (f := quadRest f w) rfl rfl rfl hC
            refine ((hh.times (fun a b c _ => sd3_nonneg a b c)).add (w := 2 * f.c140) (by positivity) (e := quadSq w) ?_).over ?_ (fun a b c _ => sd3_nonneg a b c)
              fun a b c _ _ _ hn => sd3_pos hn
            · intro a b c ho
              obtain ⟨ha, hb, hc⟩ := ho
              unfold quadSq cyc3
              dsimp only
              positivity
            · intro a b c
              have key := quadSq_identity w a b c
              have e : f.poly a b c = (quadRest f w).poly a b c + f.c140 * (⟨0, 0, w ^ 2, 2 * w, 1, -(3 + 2 * w), 2 - w ^ 2⟩ : Quintic K).poly a b c := by
                simp only [Quintic.poly, quadRest, h5, h4]
                ring
              rw [e]
              linear_combination f.c140 * key

/-! ### The main theorem -/

theorem wind20_D {u v : K} (hu : 1 ≤ u) (h : 0 ≤ u ^ 2 + u * v - u - v ^ 2 + v - 1) : 0 ≤ windD u v := by
  by_contra hc
  have hd : 0 < -windD u v := by linarith
  have hP : u * v = u ^ 3 - u ^ 2 + u + 1 + -windD u v := by
    unfold windD
    ring
  generalize -windD u v = d at *
  have e : u ^ 2 * (u ^ 2 + u * v - u - v ^ 2 + v - 1) = -((u ^ 2 - u - 1) ^ 2 * (u ^ 2 - u + 1)) - d * (d + 2 * u ^ 3 - 3 * u ^ 2 + u + 2) := by
    linear_combination (u ^ 2 + u - u * v - (u ^ 3 - u ^ 2 + u + 1 + d)) * hP
  have h1 : 0 ≤ u ^ 2 * (u ^ 2 + u * v - u - v ^ 2 + v - 1) := by positivity
  have h2 : 0 < d * (d + 2 * u ^ 3 - 3 * u ^ 2 + u + 2) := by
    refine mul_pos hd ?_
    have : 0 ≤ u * (2 * u - 1) * (u - 1) := mul_nonneg (mul_nonneg (by linarith) (by linarith)) (by linarith)
    nlinarith
  have h3 : 0 ≤ (u ^ 2 - u - 1) ^ 2 * (u ^ 2 - u + 1) := mul_nonneg (sq_nonneg _) (uE_pos u).le
  linarith

theorem wind1_D {u v : K} (hu : 1 ≤ u) (h : (v - 1) ^ 2 / 4 + 1 ≤ u) : 0 ≤ windD u v := by
  by_contra hc
  have hd : 0 < -windD u v := by linarith
  have hP : u * v = u ^ 3 - u ^ 2 + u + 1 + -windD u v := by
    unfold windD
    ring
  generalize -windD u v = d at *
  have hs : 0 ≤ u ^ 3 - u ^ 2 := by
    have : 0 ≤ u ^ 2 * (u - 1) := mul_nonneg (sq_nonneg _) (by linarith)
    linarith
  have e : u ^ 2 * ((v - 1) ^ 2 - 4 * (u - 1)) = (u ^ 3 - u ^ 2 - 1) ^ 2 + d * (d + 2 * (u ^ 3 - u ^ 2 + 1)) := by
    linear_combination (u * v + (u ^ 3 - u ^ 2 + u + 1 + d) - 2 * u) * hP
  have h1 : u ^ 2 * ((v - 1) ^ 2 - 4 * (u - 1)) ≤ 0 := mul_nonpos_of_nonneg_of_nonpos (sq_nonneg _) (by linarith)
  have h2 : 0 < d * (d + 2 * (u ^ 3 - u ^ 2 + 1)) := by positivity
  nlinarith [sq_nonneg (u ^ 3 - u ^ 2 - 1)]

theorem wind21_D {u v : K} (hu : 1 ≤ u) (h : 0 ≤ 3 * u ^ 2 + 2 * u * v - 4 * u - v ^ 2 - 8) : 0 ≤ windD u v := by
  by_contra hc
  have hd : 0 < -windD u v := by linarith
  have hP : u * v = u ^ 3 - u ^ 2 + u + 1 + -windD u v := by
    unfold windD
    ring
  generalize -windD u v = d at *
  have e : u ^ 2 * (3 * u ^ 2 + 2 * u * v - 4 * u - v ^ 2 - 8) = -(u ^ 3 - 2 * u ^ 2 - u - 1) ^ 2 - d * (d + 2 * (u * (u - 1) ^ 2 + 1)) := by
    linear_combination (2 * u ^ 2 - u * v - (u ^ 3 - u ^ 2 + u + 1 + d)) * hP
  have h1 : 0 ≤ u ^ 2 * (3 * u ^ 2 + 2 * u * v - 4 * u - v ^ 2 - 8) := by positivity
  have h2 : 0 < d * (d + 2 * (u * (u - 1) ^ 2 + 1)) := by positivity
  nlinarith [sq_nonneg (u ^ 3 - 2 * u ^ 2 - u - 1)]

/-- What the answers of `_sos_struct_quintic_windmill_uv` are. -/
structure UVProof (u v : K) (mult : Val3 K) (l : List (K × Val3 K)) : Prop where
  denom : 0 ≤ windD u v
  identity : ∀ a b c, (l.map fun t => t.1 * t.2 a b c).sum = mult a b c * uvPoly u v a b c
  weights : ∀ t ∈ l, 0 ≤ t.1
  exprs : ∀ t ∈ l, ∀ a b c, Octant a b c → 0 ≤ t.2 a b c
  nonneg : ∀ a b c, Octant a b c → 0 ≤ mult a b c
  pos : ∀ a b c, 0 < a → 0 < b → 0 < c → ¬ (a = b ∧ b = c) → 0 < mult a b c

theorem uv20_proof {u v : K} (hu : 1 < u) (hs : 1 ≤ u + v) (hA : 0 ≤ 2 * u ^ 2 - u * v - 2 * u + 3) (hB : 0 ≤ u ^ 2 + u * v - u - v ^ 2 + v - 1) {r : Val3 K × List (K × Val3 K)}
    (h : uv20 u v = .ok r) : UVProof u v r.1 r.2 := by
  unfold uv20 at h
  dsimp only at h
  split_ifs at h with c1
  push Not at c1
  obtain ⟨k1, _⟩ := c1
  have hd : 0 < 2 * u - v + 1 := by
    by_contra hc
    push Not at hc
    have : u ^ 2 + u * v - u - v ^ 2 + v - 1 = -(u + 1) ^ 2 - (v - 2 * u - 1) * (v + u) := by ring
    have h2 : 0 ≤ (v - 2 * u - 1) * (v + u) := mul_nonneg (by linarith) (by linarith)
    nlinarith [sq_nonneg (u + 1)]
  have hc1 : 0 < (u - 1) * (u + v - 1) := lt_of_le_of_ne (mul_nonneg (by linarith) (by linarith)) (Ne.symm k1)
  have hN : 0 ≤ 2 * u ^ 2 - u * v - 2 * u + 3 - (-u ^ 2 + u * v + 3 * u - v ^ 2 + 3 * v - 5) ^ 2 / (4 * ((u - 1) * (u + v - 1))) := by
    rw [sub_nonneg, div_le_iff₀ (by positivity)]
    have e : (2 * u ^ 2 - u * v - 2 * u + 3) * (4 * ((u - 1) * (u + v - 1))) - (-u ^ 2 + u * v + 3 * u - v ^ 2 + 3 * v - 5) ^ 2 =
        (u ^ 2 + u * v - u - v ^ 2 + v - 1) * ((v - (u + 5) / 2) ^ 2 + 27 / 4 * (u - 1) ^ 2) := by ring
    have : 0 ≤ (u ^ 2 + u * v - u - v ^ 2 + v - 1) * ((v - (u + 5) / 2) ^ 2 + 27 / 4 * (u - 1) ^ 2) := by positivity
    linarith
  have hr := Except.ok.inj h
  subst hr
  refine ⟨wind20_D hu.le hB, ?_, ?_, ?_, fun a b c _ => sd3_nonneg a b c, fun a b c _ _ _ hn => sd3_pos hn⟩
  · intro a b c
    simp only [List.map_cons, List.map_nil, List.sum_cons, List.sum_nil, add_zero]
    exact uv20_identity u v hc1.ne' hd.ne' a b c
  · each_mem
    · dsimp only; positivity
    · dsimp only; positivity
  · each_mem
    · oct_sum
    · oct_sum

theorem pqForm_nonneg (u v a b c : K) (ho : Octant a b c) : 0 ≤ prodA a b c * cyc3 (fun a b c => uvForm u v a b c ^ 2) a b c := by
  refine mul_nonneg (prodA_nonneg a b c ho) ?_
  unfold cyc3
  positivity

theorem uv1_proof {u v : K} (hu : 1 ≤ u) (hs : 1 ≤ u + v) (hA : (v - 1) ^ 2 / 4 + 1 ≤ u) : UVProof u v (uv1 u v).1 (uv1 u v).2 := by
  refine ⟨wind1_D hu hA, uv1_identity u v, ?_, ?_, mulW_nonneg (by linarith), mulW_pos (by linarith)⟩
  · unfold uv1
    each_mem
    · dsimp only; positivity
    · dsimp only
      refine div_nonneg ?_ zero_le_two
      nlinarith
    · dsimp only
      refine mul_nonneg (by linarith) ?_
      nlinarith [sq_nonneg (v - 1 / 2)]
  · unfold uv1
    each_mem
    · oct_sum
    · oct_sum
    · exact pqForm_nonneg u v

theorem uv21_proof {u v : K} (hu : 1 ≤ u) (hs : 1 ≤ u + v) (hA : 0 ≤ 3 * u ^ 2 + 2 * u * v - 4 * u - v ^ 2 - 8) {r : Val3 K × List (K × Val3 K)}
    (h : uv21 u v = .ok r) : UVProof u v r.1 r.2 := by
  unfold uv21 at h
  dsimp only at h
  split_ifs at h with c1
  push Not at c1
  obtain ⟨k1, k2⟩ := c1
  have hD0 := wind21_D hu hA
  have hD : 0 < windD u v := lt_of_le_of_ne hD0 fun hc => k1 (by rw [← hc]; ring)
  have hr := Except.ok.inj h
  subst hr
  refine ⟨hD0, ?_, ?_, ?_, sab3_nonneg, ?_⟩
  · intro a b c
    simp only [List.map_cons, List.map_nil, List.sum_cons, List.sum_nil, add_zero]
    exact uv21_identity u v (by linarith) hD.ne' k2 _ rfl a b c
  · each_mem
    · dsimp only; positivity
    · dsimp only; positivity
    · dsimp only; linarith
  · each_mem
    · oct_sum
    · oct_sum
    · exact pqForm_nonneg u v
  · intro a b c ha hb hc _
    unfold sab3 cyc3
    dsimp only
    positivity

theorem uv22_proof {u v : K} (hu : 1 ≤ u) {r : Val3 K × List (K × Val3 K)} (h : uv22 u v = .ok (some r)) : UVProof u v r.1 r.2 := by
  unfold uv22 at h
  split_ifs at h with c1 c2 c3 c4
  · push Not at c1
    have hr := Option.some.inj (Except.ok.inj h)
    subst hr
    refine ⟨?_, uv22_identity u v c1.1 c1.2 c3, c4, ?_, mulW_nonneg c2, mulW_pos c2⟩
    · have := c4 _ (List.mem_cons_self ..)
      dsimp only at this
      have hu2 : 0 < u ^ 2 := by positivity
      rw [div_nonneg_iff] at this
      rcases this with ⟨g, _⟩ | ⟨_, g⟩
      · linarith
      · linarith
    · unfold uv22Terms
      each_mem
      · oct_sum
      · oct_sum
      · oct_sum
      · oct_sum
      · exact pqForm_nonneg u v
  · cases h
  · cases h

theorem windUV_proof {u v : K} (hu : 1 ≤ u) {r : Val3 K × List (K × Val3 K)} (h : windUV u v = .ok (some r)) : UVProof u v r.1 r.2 := by
  unfold windUV at h
  split_ifs at h with c1 c2 c3 c4 c5
  · cases h
  · cases hr : uv20 u v with
    | error e =>
      rw [hr] at h
      cases h
    | ok r' =>
      rw [hr] at h
      have := Option.some.inj (Except.ok.inj h)
      subst this
      exact uv20_proof c2.1 (not_lt.1 c1) c2.2.1 c2.2.2 hr
  · have := Option.some.inj (Except.ok.inj h)
    subst this
    exact uv1_proof hu (not_lt.1 c1) c3
  · cases hr : uv21 u v with
    | error e =>
      rw [hr] at h
      cases h
    | ok r' =>
      rw [hr] at h
      have := Option.some.inj (Except.ok.inj h)
      subst this
      exact uv21_proof hu (not_lt.1 c1) c4 hr
  · exact uv22_proof hu h
  · cases h

theorem windMain_holds {X : Q5Ext K} {f : Quintic K} (h5 : f.c500 = 0) (h4 : f.c410 = 0) (h3 : 0 < f.c320) {u v : K} (hu : 1 ≤ u)
    (hv : validUV (f.c140 / f.c320) (f.c230 / f.c320) (f.c311 / f.c320) u v = .ok true) {C : Cert K} (h : windMain X f u v = .ok (some C)) : Holds f.poly C := by
  unfold validUV at hv
  split_ifs at hv with c0
  have hv := Except.ok.inj hv
  simp only [decide_eq_true_eq] at hv
  obtain ⟨v1, v2, v3⟩ := hv
  unfold windMain at h
  split at h
  · cases h
  · cases h
  · rename_i mult l hr
    have P := windUV_proof hu hr
    dsimp only at P
    rw [if_neg c0] at h
    have hD : 0 < windD u v := lt_of_le_of_ne P.denom (Ne.symm c0)
    cases hC : windRec X (mainRest f u v) with
    | error e =>
      rw [hC] at h
      cases h
    | ok r =>
      rw [hC] at h
      cases r with
      | none => cases h
      | some C' =>
        rw [← Option.some.inj (Except.ok.inj h)]
        have hz : 0 ≤ (mainRest f u v).c311 / 2 + (mainRest f u v).c140 := by
          unfold mainRest
          dsimp only
          have e : (2 * u ^ 2 * v - u ^ 2 - u * v + v ^ 2) / windD u v = -((-2 * u ^ 2 * v + u ^ 2 + u * v - v ^ 2) / windD u v) := by
            rw [← neg_div]
            congr 1
            ring
          rw [e]
          linarith
        obtain ⟨hh, hden⟩ := windRec_unc (f := mainRest f u v) rfl rfl rfl hz hC
        refine Holds.over (g := fun a b c => mult a b c * f.poly a b c) (Holds.more (g := fun a b c => f.c320 * (mult a b c * (mainRest f u v).poly a b c))
          ((hh.times P.nonneg).smul h3.le) hden ?_ ?_ ?_) (fun _ _ _ => rfl) P.nonneg P.pos
        · intro t ht
          obtain ⟨s, hs, rfl⟩ := List.mem_map.1 ht
          exact mul_nonneg (by positivity) (P.weights s (mem_sumY hs).1)
        · intro t ht
          obtain ⟨s, hs, rfl⟩ := List.mem_map.1 ht
          exact P.exprs s (mem_sumY hs).1
        · intro a b c
          have e1 : (((sumY l).map fun t => (f.c320 / 2 / windD u v * t.1, t.2)).map fun t => t.1 * t.2 a b c).sum = f.c320 / 2 / windD u v * (mult a b c * uvPoly u v a b c) := by
            rw [← P.identity, ← sumY_sum l, List.map_map, ← List.sum_map_mul_left]
            congr 1
            refine List.map_congr_left fun t _ => ?_
            simp only [Function.comp_apply]
            ring
          rw [e1, uvPoly_eq]
          have e2 : f.poly a b c = f.c320 * (mainRest f u v).poly a b c + f.c320 / 2 / windD u v * (uvQuin u v).poly a b c := by
            unfold mainRest uvQuin Quintic.poly
            dsimp only
            rw [h5, h4]
            generalize windD u v = d at *
            field_simp
            ring
          rw [e2]
          ring

theorem windLimit_holds {X : Q5Ext K} {f : Quintic K} (h5 : f.c500 = 0) (h4 : f.c410 = 0) (h3 : 0 < f.c320) (hs : 0 ≤ f.sum7) (hy : (f.c230 / f.c320) ^ 2 = 4 * (f.c140 / f.c320))
    {C : Cert K} (h : windLimit X f = some C) : Holds f.poly C := by
  unfold windLimit at h
  dsimp only at h
  obtain ⟨p, hp, rfl⟩ := Option.map_eq_some_iff.1 h
  have hd := List.find?_some hp
  simp only [decide_eq_true_eq] at hd
  clear hp h
  obtain ⟨hd, hm⟩ := hd
  unfold specialCert
  dsimp only
  generalize hM : specMNPQ (-(f.c230 / f.c320) / 2) (f.c311 / f.c320) p.1 p.2.1 p.2.2 = M at *
  obtain ⟨m, n, q, q'⟩ := M
  dsimp only at hm ⊢
  have hw : 0 ≤ f.c221 / f.c320 + (f.c140 / f.c320 + f.c230 / f.c320 + f.c311 / f.c320 + 1) := by
    have e : f.c221 / f.c320 + (f.c140 / f.c320 + f.c230 / f.c320 + f.c311 / f.c320 + 1) = f.sum7 / f.c320 := by
      unfold Quintic.sum7
      rw [h5, h4]
      field_simp
      ring
    rw [e]
    positivity
  have hz : -1 ≤ p.1 ^ 2 + 2 := by nlinarith [sq_nonneg p.1]
  refine holds_over ?_ ?_ ?_ (mulW_nonneg hz) (mulW_pos hz)
  · intro a b c
    have key := limit_identity (-(f.c230 / f.c320) / 2) (f.c311 / f.c320) p.1 p.2.1 p.2.2 (f.c221 / f.c320) m n q q' hm.ne' hM a b c
    have er : (-(f.c230 / f.c320) / 2) ^ 2 = f.c140 / f.c320 := by linear_combination hy / 4
    have er2 : -2 * (-(f.c230 / f.c320) / 2) = f.c230 / f.c320 := by ring
    rw [er, er2] at key
    have e : f.poly a b c = f.c320 * (⟨0, 0, 1, f.c230 / f.c320, f.c140 / f.c320, f.c311 / f.c320, f.c221 / f.c320⟩ : Quintic K).poly a b c := by
      unfold Quintic.poly
      dsimp only
      rw [h5, h4]
      field_simp
      ring
    rw [e]
    simp only [List.map_cons, List.map_nil, List.sum_cons, List.sum_nil]
    linear_combination f.c320 * key
  · each_mem
    · dsimp only; positivity
    · dsimp only; positivity
    · dsimp only; positivity
    · dsimp only; positivity
  · each_mem
    · intro _; oct_sum
    · intro _ a b c ho
      refine mul_nonneg (prodA_nonneg a b c ho) ?_
      unfold cyc3
      positivity
    · intro _ a b c ho
      refine mul_nonneg (prodA_nonneg a b c ho) ?_
      unfold cyc3
      positivity
    · intro _ a b c ho
      refine mul_nonneg (tail5_nonneg a b c ho) ?_
      obtain ⟨ha, hb, hc⟩ := ho
      unfold cyc3
      dsimp only
      positivity

theorem findE_some {t : K → Except PyErr Bool} {l : List K} {u : K} (h : findE t l = .ok (some u)) : t u = .ok true := by
  induction l with
  | nil => cases h
  | cons x l ih =>
    unfold findE at h
    split at h
    · cases h
    · rename_i hx
      rw [← Option.some.inj (Except.ok.inj h)]
      exact hx
    · exact ih h

theorem validU_some {x y z u : K} (h : validU x y z u = .ok true) : 1 ≤ u ∧ validUV x y z u (windV x u) = .ok true := by
  unfold validU at h
  split_ifs at h with c
  · cases h
  · exact ⟨not_lt.1 c, h⟩

theorem windLift_holds {X : Q5Ext K} {f : Quintic K} (h5 : f.c500 = 0) (h4 : f.c410 = 0) (h3 : 0 < f.c320) (hs : 0 ≤ f.sum7) {C : Cert K}
    (h : windLift X f = .ok (some C)) : Holds f.poly C := by
  unfold windLift at h
  dsimp only at h
  split at h
  · cases h
  · rename_i u hu
    obtain ⟨h1, h2⟩ := validU_some (findE_some hu)
    exact windMain_holds h5 h4 h3 h1 h2 h
  · split_ifs at h with c
    · exact windLimit_holds h5 h4 h3 hs c.2 (Except.ok.inj h)
    · split at h
      · cases h
      · cases h
      · rename_i u hu
        obtain ⟨h1, h2⟩ := validU_some (rationalizeFunc_valid hu)
        split at h
        · cases h
        · rename_i v hv
          exact windMain_holds h5 h4 h3 h1 (findE_some hv) h
        · exact windMain_holds h5 h4 h3 h1 h2 h


/-! ### Windmills -/

theorem windCore_holds {X : Q5Ext K} (hX : X.Sound) {f : Quintic K} (h5 : f.c500 = 0) (h4 : f.c410 = 0) (hs : 0 ≤ f.sum7) (hb : ¬ (f.c140 ≠ 0 ∧ f.c320 = 0 ∧ Unchecked f)) {C : Cert K}
    (h : windCore X f = .ok (some C)) : Holds f.poly C := by
  unfold windCore at h
  by_cases c1 : f.c140 < 0
  · rw [if_pos c1] at h
    cases h
  rw [if_neg c1] at h
  by_cases c2 : f.c140 = 0
  · rw [if_pos c2] at h
    exact (windBase_holds h5 h4 c2 (Except.ok.inj h)).1
  rw [if_neg c2] at h
  have k1 : 0 < f.c140 := lt_of_le_of_ne (not_lt.1 c1) (Ne.symm c2)
  by_cases c3 : f.c320 = 0
  · rw [if_pos c3] at h
    split_ifs at h with c4
    · exact unc5_holds hX h5 h4 c3 c4 (fun hc => hb ⟨c2, c3, hc⟩) h
    · cases h
  rw [if_neg c3] at h
  by_cases c4 : f.c320 < 0
  · rw [if_pos c4] at h
    cases h
  rw [if_neg c4] at h
  have k3 : 0 < f.c320 := lt_of_le_of_ne (not_lt.1 c4) (Ne.symm c3)
  split at h
  · rename_i C' hC
    rw [← Option.some.inj (Except.ok.inj h)]
    exact windTrivial_holds h5 h4 k3 hs hC
  · split at h
    · cases h
    · rename_i C' hC
      rw [← Option.some.inj (Except.ok.inj h)]
      exact windTrivial2_holds h5 h4 k1 hC
    · split at h
      · cases h
      · rename_i C' hC
        rw [← Option.some.inj (Except.ok.inj h)]
        exact windQuadratic_holds h5 h4 k1 hs hC
      · split_ifs at h
        · exact windLift_holds h5 h4 k3 hs h
        · cases h

theorem quintic_reflect_poly (f : Quintic K) (a b c : K) : f.reflect.poly a c b = f.poly a b c := by
  unfold Quintic.reflect Quintic.poly
  ring

/-- The windmills for which the answer does not depend on the coefficient of `a^2 b^2 c`. -/
def BadWind (f : Quintic K) : Prop :=
  (f.c410 = 0 ∧ f.c140 ≠ 0 ∧ f.c320 = 0 ∨ f.c410 ≠ 0 ∧ f.c230 = 0) ∧ 0 < f.sum7 ∧ f.c311 < -2 * (f.c410 + f.c140)

theorem windmill_holds {X : Q5Ext K} (hX : X.Sound) {f : Quintic K} (hb : ¬ BadWind f) {C : Cert K} (h : windmill X f = .ok (some C)) : Holds f.poly C := by
  unfold windmill at h
  by_cases c1 : f.c500 ≠ 0 ∨ (f.c410 ≠ 0 ∧ f.c140 ≠ 0)
  · rw [if_pos c1] at h
    cases h
  rw [if_neg c1] at h
  push Not at c1
  obtain ⟨h5, h41⟩ := c1
  by_cases c2 : f.sum7 < 0
  · rw [if_pos c2] at h
    cases h
  rw [if_neg c2] at h
  by_cases c3 : f.c410 ≠ 0
  · rw [if_pos c3] at h
    have h1 := h41 c3
    have hsum : f.reflect.sum7 = f.sum7 := by
      unfold Quintic.reflect Quintic.sum7
      ring
    cases hC : windCore X f.reflect with
    | error e =>
      rw [hC] at h
      cases h
    | ok r =>
      rw [hC] at h
      cases r with
      | none => cases h
      | some C' =>
        rw [← Option.some.inj (Except.ok.inj h)]
        have hh : Holds f.reflect.poly C' := by
          refine windCore_holds hX (f := f.reflect) h5 h1 (hsum ▸ not_lt.1 c2) ?_ hC
          rintro ⟨_, g1, g2, g3⟩
          refine hb ⟨.inr ⟨c3, g1⟩, hsum ▸ g2, ?_⟩
          have g4 : f.c311 < -2 * f.c410 := g3
          rw [h1]
          linarith
        exact hh.reflect.congr fun a b c => quintic_reflect_poly f a b c
  · rw [if_neg c3] at h
    push Not at c3
    refine windCore_holds hX h5 c3 (not_lt.1 c2) ?_ h
    rintro ⟨g0, g1, g2, g3⟩
    refine hb ⟨.inl ⟨c3, g0, g1⟩, g2, ?_⟩
    rw [c3]
    linarith

theorem quinHex_holds {X : Q5Ext K} (hX : X.Sound) {f : Quintic K} (hb : ¬ BadWind f ∨ (f.c410 ≠ 0 ∧ f.c140 ≠ 0)) (hb' : ¬ BadHex f) {C : Cert K} (h : quinHex X f = .ok (some C)) : Holds f.poly C := by
  unfold quinHex at h
  by_cases c1 : f.c500 ≠ 0 ∨ f.c410 < 0 ∨ f.c140 < 0
  · rw [if_pos c1] at h
    cases h
  rw [if_neg c1] at h
  push Not at c1
  by_cases c2 : f.c410 = 0 ∨ f.c140 = 0
  · rw [if_pos c2] at h
    refine windmill_holds hX (hb.resolve_right ?_) h
    rintro ⟨g1, g2⟩
    rcases c2 with c2 | c2
    · exact g1 c2
    · exact g2 c2
  rw [if_neg c2] at h
  push Not at c2
  dsimp only at h
  split_ifs at h with c3 c4
  · cases h
  · exact hexEq5_holds c1.1 (lt_of_le_of_ne c1.2.1 (Ne.symm c2.1)) c4 (not_lt.1 c3) hb' (Except.ok.inj h)
  · exact hexNe5_holds c1.1 h


/-! ### Quintics with `a^5` -/

theorem mulCubic_holds {X : Q5Ext K} (hX : X.Sound) {x y m : K} (hm : 0 < m) {C : Cert K} (h : mulCubic X x y m = .ok (some C)) :
    Holds (fun a b c => m * (cubQuin x y).poly a b c) C := by
  unfold mulCubic at h
  split_ifs at h with c1
  · split at h
    · cases h
    · cases h
    · rename_i C' hC
      rw [← Option.some.inj (Except.ok.inj h)]
      refine (((hX.cubic _ _ hC).times (fun a b c _ => sd3_nonneg a b c)).smul (w := 1 / 2 * m) (by positivity)).congr fun a b c => ?_
      simp only [sd3, cyc3, Cubic.poly, cubQuin, Quintic.poly]
      ring
  · split at h
    · rename_i t ht
      obtain ⟨k1, k2, k3⟩ := hX.gcdT _ _ _ ht
      rw [← Option.some.inj (Except.ok.inj h)]
      refine holds_plain ?_ ?_ ?_
      · intro a b c
        simp only [cubSq, List.map_cons, List.map_nil, List.sum_cons, List.sum_nil]
        linear_combination m * cubSq_identity t x y k1 k2 k3 a b c
      · unfold cubSq
        each_mem
        dsimp only
        positivity
      · unfold cubSq
        each_mem
        oct_sum
    · split at h
      · cases h
      · cases h
      · rename_i t ht
        obtain ⟨_, k1, k2⟩ := rationalizeFunc_sound (hX.cubT x y) ht
        have k2 := Except.ok.inj k2
        simp only [decide_eq_true_eq] at k2
        obtain ⟨k2, k3⟩ := k2
        rw [mul_one] at k1
        have q1 : 0 ≤ x + (2 * t ^ 3 - 1) / t ^ 2 := by
          have e : x + (2 * t ^ 3 - 1) / t ^ 2 = (2 * t ^ 3 + x * t ^ 2 - 1) / t ^ 2 := by
            field_simp
            ring
          rw [e]
          positivity
        have q2 : 0 ≤ y - (t ^ 3 - 2) / t := by
          have e : y - (t ^ 3 - 2) / t = (-t ^ 3 + y * t + 2) / t := by
            field_simp
            ring
          rw [e]
          positivity
        rw [← Option.some.inj (Except.ok.inj h)]
        refine holds_plain ?_ ?_ ?_
        · intro a b c
          have key := cubSq_identity t ((1 - 2 * t ^ 3) / t ^ 2) ((t ^ 3 - 2) / t) k2.ne' (by field_simp; ring) (by field_simp; ring) a b c
          have e1 : (2 * t ^ 3 - 1) / t ^ 2 = -((1 - 2 * t ^ 3) / t ^ 2) := by
            rw [← neg_div]
            congr 1
            ring
          simp only [cubSq, List.map_cons, List.map_nil, List.sum_cons, List.sum_nil]
          rw [e1]
          generalize (1 - 2 * t ^ 3) / t ^ 2 = x' at *
          generalize (t ^ 3 - 2) / t = y' at *
          generalize 1 / t ^ 2 = i at *
          generalize cyc3 (fun a b c => a * (t * a - (t - 1) * b - c) ^ 2 * (t * b - (t - 1) * c - a) ^ 2) a b c = G at *
          have e2 : (cubQuin x y).poly a b c = (cubQuin x' y').poly a b c + cyc3 (fun a b c => a * ((x - x') * (a - c) ^ 2 + (y - y') * (a - b) ^ 2) * (b - c) ^ 2) a b c := by
            simp only [cyc3, cubQuin, Quintic.poly]
            ring
          rw [e2, ← key]
          simp only [cyc3]
          ring
        · unfold cubSq
          each_mem
          · dsimp only
            positivity
          · exact zero_le_one
        · unfold cubSq
          each_mem
          · oct_sum
          · intro a b c ho
            obtain ⟨ha, hb, hc⟩ := ho
            unfold cyc3
            dsimp only
            positivity

theorem firstMethod_holds {X : Q5Ext K} (hX : X.Sound) {f : Quintic K} (hm : 0 < f.c500) {C : Cert K} (h : firstMethod X f = .ok (some C)) : Holds f.poly C := by
  unfold firstMethod at h
  dsimp only at h
  generalize hx0 : f.c410 / f.c500 + 1 = x0 at h
  generalize hy0 : f.c140 / f.c500 + 1 = y0 at h
  generalize hp : f.c320 / f.c500 - (1 - x0 + y0) = p at h
  generalize hq : f.c230 / f.c500 - (1 - y0 + x0) = q at h
  generalize hz : f.c311 / f.c500 + (4 + 4 * (x0 + y0)) = z0 at h
  split at h
  · cases h
  · rename_i t0 ht
    split_ifs at h with c1
    · split at h
      · cases h
      · cases h
      · rename_i P hP
        have k1 := mulCubic_holds hX hm hP
        generalize hg : (⟨0, t0, p, q, t0, z0 - 8 * t0, -(-6 * t0 + p + q + z0) + f.sum7 / f.c500⟩ : Quintic K) = g at h
        cases hC : quinHex X g with
        | error e =>
          rw [hC] at h
          cases h
        | ok r =>
          rw [hC] at h
          cases r with
          | none => cases h
          | some C' =>
            rw [← Option.some.inj (Except.ok.inj h)]
            have k2 : Holds g.poly C' := by
              refine quinHex_holds hX ?_ ?_ hC
              · by_cases h0 : t0 = 0
                · refine .inl ?_
                  rintro ⟨g1 | g1, _⟩
                  · refine g1.2.1 ?_
                    rw [← hg]
                    exact h0
                  · refine g1.1 ?_
                    rw [← hg]
                    exact h0
                · refine .inr ?_
                  rw [← hg]
                  exact ⟨h0, h0⟩
              · rw [← hg]
                rintro ⟨g0, _, _, g3⟩
                dsimp only at g0 g3
                unfold firstT at ht
                dsimp only at ht
                split_ifs at ht with c2 c3
                · exact g0 (Option.some.inj ht).symm
                · push Not at c3
                  obtain ⟨d1, d2⟩ := c3
                  refine g3 ⟨le_of_eq ?_, ?_⟩
                  · have e := Option.some.inj ht
                    rw [div_eq_iff (mul_pos (by norm_num) d1).ne'] at e
                    have h1 : (z0 - 8 * t0) / t0 = z0 / t0 - 8 := by field_simp
                    have h2 : hexDet (p / t0) (q / t0) (z0 / t0 - 8) =
                        (t0 * (8 * ((2 * p + 2 * q + z0) * (4 * p ^ 2 - 4 * p * q - 2 * p * z0 + 4 * q ^ 2 - 2 * q * z0 + z0 ^ 2))) - (-4 * p * q + z0 ^ 2) ^ 2) / t0 ^ 4 := by
                      unfold hexDet
                      field_simp
                      ring
                    rw [h1, h2, ← e, sub_self, zero_div]
                  · by_contra hc
                    push Not at hc
                    obtain ⟨e1, e2⟩ := hc
                    have e3 : z0 = 2 * q := by linarith
                    rw [e1, e3] at d1
                    have : (2 * q + 2 * q + 2 * q) * (4 * q ^ 2 - 4 * q * q - 2 * q * (2 * q) + 4 * q ^ 2 - 2 * q * (2 * q) + (2 * q) ^ 2) = 0 := by ring
                    linarith
            refine (k1.plus (k2.smul hm.le)).congr fun a b c => ?_
            rw [← hg, ← hz, ← hp, ← hq, ← hx0, ← hy0]
            simp only [cubQuin, Quintic.poly, Quintic.sum7]
            field_simp
            ring
    · cases h

theorem uvxy_identity {f : Quintic K} (hm : f.c500 ≠ 0) {u v x : K} (hx : 2 * (u + v - 1) * x = -(f.c410 / f.c500) + f.c140 / f.c500 + 4 * u - 2 * v - 1) (a b c : K) :
    (uvxyRest f u v x).poly a b c + f.c500 * cyc3 (fun a b c => a * (a ^ 2 - b ^ 2 + (u - v) * a * b - u * a * c + v * b * c + x * b ^ 2 - x * c ^ 2 + (x * u - x * v) * b * c - x * u * b * a + x * v * c * a) ^ 2) a b c =
      f.poly a b c := by
  have h1 : f.c140 = (2 * (u + v - 1) * x + f.c410 / f.c500 - 4 * u + 2 * v + 1) * f.c500 := by
    rw [hx]
    field_simp
    ring
  unfold uvxyRest Quintic.poly cyc3
  dsimp only
  rw [h1]
  field_simp
  ring

/-- The `x_` of the second method (quintic.py 314). -/
def uvxyX (f : Quintic K) (u v : K) : K := (-(f.c410 / f.c500) + f.c140 / f.c500 + 4 * u - 2 * v - 1) / (2 * (u + v - 1))

theorem uvxyLoop_holds {X : Q5Ext K} (hX : X.Sound) {f : Quintic K} (hm : 0 < f.c500) {l : List (K × K)} (hb : ∀ p ∈ l, ¬ BadHex (uvxyRest f p.1 p.2 (uvxyX f p.1 p.2))) {C : Cert K}
    (h : uvxyLoop X f l = .ok (some C)) : Holds f.poly C := by
  induction l with
  | nil => cases h
  | cons p l ih =>
    obtain ⟨u, v⟩ := p
    have ih := ih fun q hq => hb q (List.mem_cons_of_mem _ hq)
    have hb := hb (u, v) (List.mem_cons_self ..)
    unfold uvxyLoop at h
    split_ifs at h with c1
    · exact ih h
    dsimp only at h
    split_ifs at h with c2
    · split at h
      · cases h
      · rename_i C' hC
        rw [← Option.some.inj (Except.ok.inj h)]
        have k := quinHex_holds (hX.rational true) (f := uvxyRest f u v (uvxyX f u v)) ?_ hb hC
        · refine (k.add hm.le (by oct_sum)).congr fun a b c => ?_
          refine uvxy_identity hm.ne' ?_ a b c
          unfold uvxyX
          rw [mul_comm]
          exact div_mul_cancel₀ _ c1
        · by_cases h0 : (uvxyRest f u v (uvxyX f u v)).c410 = 0
          · refine .inl ?_
            rintro ⟨g | g, _⟩
            · exact g.2.1 h0
            · exact g.1 h0
          · exact .inr ⟨h0, h0⟩
      · exact ih h
    · exact ih h

/-- The quintics for which an answer may be wrong (see `hexPqz_nine_wrong` and `unc5_wrong`). -/
def Doubtful (X : Q5Ext K) (f : Quintic K) : Prop :=
  f.c500 = 0 ∧ (BadWind f ∨ BadHex f) ∨ f.c500 ≠ 0 ∧ ∃ l, X.uvxy f = some (some l) ∧ ∃ p ∈ l, BadHex (uvxyRest f p.1 p.2 (uvxyX f p.1 p.2))

/-- **C92 (partial: the quintic is not doubtful).** What the quintic solver answers is a complete proof: an identity with nonnegative weights and nonnegative
expressions on the octant, with a denominator that is positive at positive points that are not all equal.  For doubtful quintics this is false (`quintic_nine_wrong`,
`quintic_windmill_wrong`). -/
theorem quintic_sound_partial {X : Q5Ext K} (hX : X.Sound) {f : Quintic K} (hd : ¬ Doubtful X f) {C : Cert K} (h : quintic X f = .ok (some C)) : Holds f.poly C := by
  unfold quintic at h
  split_ifs at h with c1 c2
  · exact hX.symm f C c1.1 c1.2 h
  · exact quinHex_holds hX (.inl fun hc => hd (.inl ⟨c2, .inl hc⟩)) (fun hc => hd (.inl ⟨c2, .inr hc⟩)) h
  · unfold quinFull at h
    by_cases c3 : f.c500 ≤ 0
    · rw [if_pos c3] at h
      cases h
    rw [if_neg c3] at h
    have hm := not_le.1 c3
    split at h
    · cases h
    · rename_i C' hC
      rw [← Option.some.inj (Except.ok.inj h)]
      exact firstMethod_holds hX hm hC
    · by_cases c4 : X.rational = false
      · rw [if_pos c4] at h
        cases h
      rw [if_neg c4] at h
      split at h
      · cases h
      · rename_i l hl
        exact uvxyLoop_holds hX hm (fun p hp hc => hd (.inr ⟨c2, l, hl, p, hp, hc⟩)) h
      · exact hX.third f C h

/-- **So an answer for a quintic that is not doubtful shows that it is nonnegative on the closed octant.** -/
theorem quintic_nonneg_partial {X : Q5Ext K} (hX : X.Sound) {f : Quintic K} (hd : ¬ Doubtful X f) {C : Cert K} (h : quintic X f = .ok (some C)) {a b c : K} (ha : 0 ≤ a) (hb : 0 ≤ b)
    (hc : 0 ≤ c) : 0 ≤ f.poly a b c := (quintic_sound_partial hX hd h).quintic_nonneg ha hb hc

end Verif.Ternary
