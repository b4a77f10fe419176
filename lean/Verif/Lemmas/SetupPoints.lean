import Verif.Lemmas.SetupData
import Verif.Spec.Pairing
import Verif.Lemmas.EC
/-!
What the evaluation in `SetupData.lean` says about the points.
-/
namespace Festa
open RootOps WeierstrassCurve.Affine N2

/-- Two points are a basis of order `D` if they are so for every prime of `D`. -/
theorem isBasis_of_primes {H : Type*} [AddCommGroup H] {D : Nat} (hD : D ≠ 0) {P Q : H} (hP : D • P = 0) (hQ : D • Q = 0)
    (h : ∀ l : Nat, l.Prime → l ∣ D → (D / l) • P ≠ 0 ∧ (D / l) • Q ∉ AddSubgroup.zmultiples ((D / l) • P)) : IsBasis D P Q := by
  intro a b
  constructor
  · intro hab
    by_contra hcon
    obtain ⟨g, hg⟩ : ∃ g : Nat, g = Nat.gcd (Int.gcd a b) D := ⟨_, rfl⟩
    have hgD : g ∣ D := hg ▸ Nat.gcd_dvd_right _ _
    have hga : (g : Int) ∣ a := (Int.natCast_dvd_natCast.mpr (hg ▸ Nat.gcd_dvd_left _ _)).trans (Int.gcd_dvd_left a b)
    have hgb : (g : Int) ∣ b := (Int.natCast_dvd_natCast.mpr (hg ▸ Nat.gcd_dvd_left _ _)).trans (Int.gcd_dvd_right a b)
    obtain ⟨r, hr⟩ := hgD
    obtain ⟨a', ha⟩ := hga
    obtain ⟨b', hb⟩ := hgb
    have g0 : g ≠ 0 := by rintro rfl; exact hD (by rw [hr, zero_mul])
    have r1 : r ≠ 1 := by
      rintro rfl
      rw [mul_one] at hr
      rw [hr] at hcon
      exact hcon ⟨⟨a', ha⟩, ⟨b', hb⟩⟩
    obtain ⟨l, hl, s, hs⟩ := Nat.exists_prime_and_dvd r1
    have hDl : D = l * (g * s) := by rw [hr, hs]; ring
    obtain ⟨h1, h2⟩ := h l hl ⟨g * s, hDl⟩
    have eD : D / l = g * s := by rw [hDl, Nat.mul_div_cancel_left _ hl.pos]
    rw [eD] at h1 h2
    have lP : (l : Int) • ((g * s) • P) = 0 := by rw [natCast_zsmul, ← mul_nsmul', ← hDl, hP]
    have lQ : (l : Int) • ((g * s) • Q) = 0 := by rw [natCast_zsmul, ← mul_nsmul', ← hDl, hQ]
    have hab' : a' • ((g * s) • P) + b' • ((g * s) • Q) = 0 := by
      have := congrArg (fun X => (s : Int) • X) hab
      simp only [smul_zero, smul_add] at this
      rw [← this, ha, hb]
      simp only [← natCast_zsmul, smul_smul]
      push_cast
      congr 2 <;> ring
    -- `l` does not divide both
    have hl' : ¬((l : Int) ∣ a' ∧ (l : Int) ∣ b') := by
      rintro ⟨⟨u, hu⟩, ⟨v, hv⟩⟩
      have d1 : ((g * l : Nat) : Int) ∣ a := ⟨u, by rw [ha, hu]; push_cast; ring⟩
      have d2 : ((g * l : Nat) : Int) ∣ b := ⟨v, by rw [hb, hv]; push_cast; ring⟩
      have d3 : g * l ∣ D := ⟨s, by rw [hDl]; ring⟩
      have d4 : g * l ∣ g := by
        rw [hg]
        refine Nat.dvd_gcd ?_ (hg ▸ d3)
        exact Int.natCast_dvd_natCast.mp (hg ▸ Int.dvd_coe_gcd d1 d2)
      have := Nat.le_of_dvd (Nat.pos_of_ne_zero g0) d4
      have := hl.two_le
      nlinarith [Nat.pos_of_ne_zero g0]
    have kill : ∀ {X : H} {c : Int}, (l : Int) • X = 0 → ¬(l : Int) ∣ c → ∀ Y : H, c • X = Y → ∃ z : Int, X = z • Y := by
      intro X c hX hc Y hY
      have cop : Int.gcd c l = 1 := by
        rw [Int.gcd_comm]
        exact (Int.isCoprime_iff_gcd_eq_one.mp ((Nat.prime_iff_prime_int.mp hl).coprime_iff_not_dvd.mpr hc))
      have bz := Int.gcd_eq_gcd_ab c l
      rw [cop] at bz
      refine ⟨Int.gcdA c l, ?_⟩
      rw [← hY, smul_smul]
      have : X = (1 : Int) • X := (one_zsmul X).symm
      rw [Nat.cast_one] at bz
      conv_lhs => rw [this, bz, add_zsmul, mul_comm (l : Int), mul_zsmul X _ (l : Int), hX, smul_zero, add_zero, mul_comm c]
    by_cases hb' : (l : Int) ∣ b'
    · have ha' : ¬(l : Int) ∣ a' := fun h => hl' ⟨h, hb'⟩
      obtain ⟨v, rfl⟩ := hb'
      rw [mul_comm (l : Int) v, mul_zsmul, lQ, smul_zero, add_zero] at hab'
      obtain ⟨z, hz⟩ := kill lP ha' _ hab'
      exact h1 (by rw [hz, smul_zero])
    · obtain ⟨z, hz⟩ := kill lQ hb' (-(a' • ((g * s) • P))) (by rw [eq_neg_iff_add_eq_zero, add_comm]; exact hab')
      exact h2 (AddSubgroup.mem_zmultiples_iff.mpr ⟨-(z * a'), by rw [hz, neg_zsmul, mul_zsmul, smul_neg]⟩)
  · rintro ⟨⟨u, rfl⟩, ⟨v, rfl⟩⟩
    rw [mul_comm, mul_zsmul, natCast_zsmul, hP, mul_comm, mul_zsmul, natCast_zsmul, hQ]
    simp

variable {E : Crv Fq}

theorem apart_spec (hE : E.Good) (hA : E.A = 6) {R R' : N2 × N2} {P Q : MPoint E.A} (hR : NK R.1 R.2 P) (hR' : NK R'.1 R'.2 Q)
    (n1 : kNotZero R = true) (n2 : kNotZero R' = true) {l m t : Nat} (hl : l % 2 = 1) (ht : 2 ≤ t) (hlt : m < 2 ^ t)
    (tP : l • m • P = 0) (h : checkPrime R R' l m t = true) :
    m • P ≠ 0 ∧ m • Q ∉ AddSubgroup.zmultiples (m • P) := by
  unfold checkPrime at h
  simp only [forceP_eq, Bool.and_eq_true, Bool.not_eq_true'] at h
  unfold kNotZero at n1 n2
  simp only [Bool.and_eq_true, Bool.not_eq_true'] at n1 n2
  obtain ⟨⟨⟨s1, s2⟩, t2⟩, ha⟩ := h
  have hS := nk_lad hE hA hR n1.1 n1.2 m t hlt
  have hT := nk_lad hE hA hR' n2.1 n2.2 m t hlt
  generalize lad R.1 R.2 m t = S' at s1 s2 ha hS
  generalize lad R'.1 R'.2 m t = T' at t2 ha hT
  have hS2 := nk_lad hE hA hS s1 s2 2 t ((by norm_num : 2 < 2 ^ 2).trans_le (Nat.pow_le_pow_right (by norm_num) ht))
  generalize lad S'.1 S'.2 2 t = U at ha hS2
  generalize m • P = S at *
  generalize m • Q = T at *
  have nS : S ≠ 0 := fun h => by rw [(nk_zero hS).mp h] at s2; cases s2
  have nT : T ≠ 0 := fun h => by rw [(nk_zero hT).mp h] at t2; cases t2
  refine ⟨nS, fun hm => ?_⟩
  obtain ⟨z, hz⟩ := AddSubgroup.mem_zmultiples_iff.mp hm
  obtain ⟨j, hj⟩ : ∃ j : Nat, (j : Int) = z % l := ⟨(z % l).toNat, Int.toNat_of_nonneg (Int.emod_nonneg _ (by omega))⟩
  have hjl : j < l := by
    have := Int.emod_lt_of_pos z (show (0 : Int) < l by omega)
    omega
  have hTj : T = j • S := by
    rw [← natCast_zsmul, hj, ← hz]
    conv_lhs => rw [← Int.emod_add_mul_ediv z l]
    rw [add_zsmul, mul_comm (l : Int), mul_zsmul, natCast_zsmul, tP, smul_zero, add_zero]
  have a1 := nk_apart hE hS hT ((l - 1) / 2) 1 ⟨S'.1, S'.2, U.1, U.2⟩ (by rw [one_nsmul]; exact hS) hS2 ha
  have a2 := nk_apart hE hS (krep_neg hT) ((l - 1) / 2) 1 ⟨S'.1, S'.2, U.1, U.2⟩ (by rw [one_nsmul]; exact hS) hS2 ha
  rcases Nat.eq_zero_or_pos j with rfl | hj0
  · exact nT (by rw [hTj, zero_nsmul])
  · by_cases hjs : j < 1 + (l - 1) / 2
    · exact a1 j hj0 hjs hTj
    · refine a2 (l - j) (by omega) (by omega) ?_
      rw [neg_eq_iff_add_eq_zero, hTj, ← add_nsmul, show j + (l - j) = l by omega, tP]

end Festa
