import Verif.Props.Coeff
import Verif.Props.Monomials

/-!
# The value of a homogeneous dictionary as a sum over all monomials of the degree
-/

set_option linter.unusedSectionVars false

namespace Verif.Coeff

variable {K : Type*} [CommRing K] [DecidableEq K]

theorem evalDict_eq_sum_of_keys : ∀ (d : List (List ℕ × K)), (dkeys d).Nodup → ∀ (l : List (List ℕ)), l.Nodup →
    (∀ k ∈ dkeys d, k ∈ l) → ∀ x : List K,
    evalDict d x = (l.map fun m => (dget d m).getD 0 * evalMonom m x).sum
  | [], _, l, _, _, x => by simp [evalDict, dget]
  | (k, v) :: d, hn, l, hl, hs, x => by
      rw [dkeys_cons, List.nodup_cons] at hn
      have ih := evalDict_eq_sum_of_keys d hn.2 l hl (fun k' hk' => hs k' (by rw [dkeys_cons]; simp [hk'])) x
      have hcons : evalDict ((k, v) :: d) x = v * evalMonom k x + evalDict d x := by simp [evalDict]
      rw [hcons, ih]
      have hkl : k ∈ l := hs k (by rw [dkeys_cons]; simp)
      have hnone : dget d k = none := (dget_eq_none_iff _ _).2 hn.1
      clear ih hs hcons
      induction l with
      | nil => simp at hkl
      | cons m l ihl =>
        rw [List.nodup_cons] at hl
        simp only [List.map_cons, List.sum_cons]
        by_cases hkm : k = m
        · subst hkm
          have : (l.map fun m => (dget ((k, v) :: d) m).getD 0 * evalMonom m x) =
              l.map fun m => (dget d m).getD 0 * evalMonom m x := by
            apply List.map_congr_left
            intro m' hm'
            have : k ≠ m' := by rintro rfl; exact hl.1 hm'
            simp [dget, this]
          rw [this, hnone]
          simp [dget]
        · have hk' : k ∈ l := by
            simp only [List.mem_cons] at hkl; exact hkl.resolve_left hkm
          rw [← ihl hl.2 hk']
          simp only [dget, if_neg hkm]
          ring

/-- Homogeneous of degree `d`: every stored monomial has degree `d`. -/
def Hom (c : Coeff K) (d : ℕ) : Prop := ∀ kv ∈ c.coeffs, kv.1.sum = d

theorem evalDict_hom (c : Coeff K) (h : c.WF) (d : ℕ) (hd : c.Hom d) (x : List K) :
    evalDict c.coeffs x = ((generatePartitions c.nvars d true).map fun m => c.call m * evalMonom m x).sum := by
  apply evalDict_eq_sum_of_keys c.coeffs h.nodup _ (generatePartitions_nodup _ _ _)
  intro k hk
  unfold dkeys at hk
  rw [List.mem_map] at hk
  obtain ⟨kv, hkv, rfl⟩ := hk
  rw [(generatePartitions_mem _ _ _).2]
  exact ⟨h.length kv hkv, hd kv hkv⟩

end Verif.Coeff
