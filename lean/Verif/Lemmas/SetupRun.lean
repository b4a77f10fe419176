import Verif.Lemmas.SetupPoints
import Verif.Lemmas.TorsionRun
import Verif.Model.Festa
/-!
The run of `torsion_basis` on the starting curve with the order `d1`.
-/
namespace Festa
open RootOps WeierstrassCurve.Affine N2
variable {E : Crv Fq}

/-- The abscissa of the `k`-th number tried by the iterator. -/
theorem toFq_kx (k : Nat) : (kx k).toFq = 1 + zeta + k := by
  simp only [toFq, kx]
  push_cast
  ring

theorem toFq_krhs (x : N2) : (krhs x).toFq = curveRhs 6 x.toFq := by
  have h6 : toFq ⟨6, 0⟩ = 6 := by simp [toFq]
  simp only [krhs, toFq_mul, toFq_add, toFq_one, h6, curveRhs]
  ring

theorem start_square1 : IsSquare (curveRhs (6 : Fq) (1 + zeta + 1)) := by
  refine ⟨ky1.toFq, ?_⟩
  have := (toFq_eq_zero _).mpr check_squares.1
  rw [toFq_sub, toFq_mul, toFq_krhs, toFq_kx, Nat.cast_one] at this
  exact (sub_eq_zero.mp this).symm

theorem start_square3 : IsSquare (curveRhs (6 : Fq) (1 + zeta + 1 + 1 + 1)) := by
  refine ⟨ky3.toFq, ?_⟩
  have := (toFq_eq_zero _).mpr check_squares.2
  rw [toFq_sub, toFq_mul, toFq_krhs, toFq_kx] at this
  rw [show (1 + zeta + 1 + 1 + 1 : Fq) = 1 + zeta + (3 : Nat) by push_cast; ring]
  exact (sub_eq_zero.mp this).symm

theorem start_nonsquare : ¬IsSquare (curveRhs (6 : Fq) (1 + zeta)) := by
  obtain ⟨h1, h2⟩ := check_nonsquare
  have e : (krhs (kx 0)).toFq = curveRhs (6 : Fq) (1 + zeta) := by
    rw [toFq_krhs, toFq_kx, Nat.cast_zero, add_zero]
  rw [← e]
  have h0 : (krhs (kx 0)).toFq ≠ 0 := fun h => by rw [(toFq_eq_zero _).mp h] at h2; cases h2
  have hc : ringChar Fq ≠ 2 := by
    rw [ringChar.eq Fq festaFp.p, kP_eq]
    decide +kernel
  rw [FiniteField.isSquare_iff hc h0, fq_card, kP_eq]
  intro h
  have hk : kP ^ 2 / 2 = (kP * kP - 1) / 2 := by decide +kernel
  have hlt : (kP * kP - 1) / 2 < 2 ^ 2590 := by decide +kernel
  have := powGo_spec (krhs (kx 0)) ((kP * kP - 1) / 2) 2590 ⟨1, 0⟩
  rw [Nat.mod_eq_of_lt hlt, ← hk, toFq_one, one_pow, one_mul, h, hk] at this
  have h3 : (N2.sub (powGo (krhs (kx 0)) ((kP * kP - 1) / 2) 2590 ⟨1, 0⟩) ⟨1, 0⟩).toFq = 0 := by
    rw [toFq_sub, this, toFq_one, sub_self]
  rw [toFq_eq_zero, h1] at h3
  cases h3

/-- The cofactor. -/
def kCof : Nat := 2 ^ 634 * ((ofSlice BASIS_ORDER / festaConsts.f1.value) >>> 634)

/-- The primes of `d1`. -/
theorem f1_primes : ∀ q ∈ festaConsts.f1, q.1.toNat ∈ kPrimes := by decide +kernel
theorem f1_value_dvd : (ofSlice BASIS_ORDER / festaConsts.f1.value) * festaConsts.f1.value = kN := by decide +kernel
theorem f1_cofactor : kCof * festaConsts.f1.value = kN := by decide +kernel
theorem kPrimes_num : ∀ l ∈ kPrimes, festaConsts.f1.value / l * kCof = kRad / l * (kN / kRad) ∧ l * (kRad / l * (kN / kRad)) = kN ∧ l % 2 = 1 ∧ kRad / l < 2 ^ 160 := by decide +kernel

theorem kpt_eq {m t : Nat} (k : Nat) (hm : m = kN / kRad) (ht : t = 1300) : kpt k = lad (kx k) ⟨1, 0⟩ m t := by
  rw [hm, ht]; rfl

theorem nk_kpt (hE : E.Good) (hA : E.A = 6) {k : Nat} {X : MPoint E.A} (h : NK (kx k) ⟨1, 0⟩ X) (h0 : (kx k).isZero = false)
    {m t : Nat} (hm : m = kN / kRad) (ht : t = 1300) (hlt : m < 2 ^ t) : NK (kpt k).1 (kpt k).2 (m • X) := by
  rw [kpt_eq k hm ht]
  exact nk_lad hE hA h h0 (by decide +kernel) _ _ hlt

/-- The points of the starting curve with abscissas `2 + i`, `3 + i`, `4 + i`: the first and the last one give a basis, the
second one no multiple of the first one. -/
theorem start_points_d1 (hE : E.Good) (hA : E.A = 6) (hd : Factored.Distinct festaConsts.f1) (hN : ∀ X : MPoint E.A, kN • X = 0)
    {X1 X3 : MPoint E.A} (h1 : KRep (1 + zeta + 1) 1 X1) (h3 : KRep (1 + zeta + 1 + 1 + 1) 1 X3) :
    IsBasis festaConsts.f1.value (kCof • X1) (kCof • X3) ∧
      ∀ X2 : MPoint E.A, KRep (1 + zeta + 1 + 1) 1 X2 → kCof • X2 ∉ AddSubgroup.zmultiples (kCof • X1) := by
  have hc := checkAll_true
  unfold checkAll at hc
  simp only [forceP_eq, Bool.and_eq_true, List.all_eq_true] at hc
  obtain ⟨⟨⟨⟨c1, c2⟩, c3⟩, c4⟩, c5⟩ := hc
  have k1 : NK (kx 1) ⟨1, 0⟩ X1 := by unfold NK; rw [toFq_kx, toFq_one, Nat.cast_one]; exact h1
  have k3 : NK (kx 3) ⟨1, 0⟩ X3 := by
    unfold NK
    rw [toFq_kx, toFq_one, show (1 + zeta + (3 : Nat) : Fq) = 1 + zeta + 1 + 1 + 1 by push_cast; ring]; exact h3
  have nz : ∀ k ∈ [1, 2, 3], (kx k).isZero = false := by decide +kernel
  obtain ⟨m, hm⟩ : ∃ m, m = kN / kRad := ⟨_, rfl⟩
  have hlt : m < 2 ^ 1300 := by rw [hm]; decide +kernel
  have r1 := nk_kpt hE hA k1 (nz 1 (by simp)) hm rfl hlt
  have r3 := nk_kpt hE hA k3 (nz 3 (by simp)) hm rfl hlt
  have key : ∀ {R : N2 × N2} {X : MPoint E.A} {l : Nat}, l ∈ kPrimes → NK R.1 R.2 (m • X) → kNotZero R = true →
      checkPrime (kpt 1) R l (kRad / l) 160 = true → (festaConsts.f1.value / l) • (kCof • X1) ≠ 0 ∧
        (festaConsts.f1.value / l) • (kCof • X) ∉ AddSubgroup.zmultiples ((festaConsts.f1.value / l) • (kCof • X1)) := by
    intro R X l hl hR hR0 hch
    obtain ⟨e1, e2, e3, e4⟩ := kPrimes_num l hl
    rw [← hm] at e1 e2
    have e : ∀ Y : MPoint E.A, (festaConsts.f1.value / l) • (kCof • Y) = (kRad / l) • (m • Y) := fun Y => by
      rw [← mul_nsmul', ← mul_nsmul']
      exact congrArg (fun n : Nat => n • Y) e1
    rw [e, e]
    refine apart_spec hE hA r1 hR c1 hR0 e3 (by norm_num) e4 ?_ hch
    rw [← mul_nsmul', ← mul_nsmul', mul_assoc]
    rw [e2]
    exact hN X1
  have kill : ∀ Y : MPoint E.A, festaConsts.f1.value • (kCof • Y) = 0 := fun Y => by
    rw [← mul_nsmul', mul_comm, f1_cofactor]
    exact hN Y
  refine ⟨isBasis_of_primes (value_pos (fs := festaConsts.f1) (fun p hp' => (hd.1 p hp').ne_zero)).ne' (kill X1) (kill X3) ?_, ?_⟩
  · intro l hl hdv
    rw [value_eq] at hdv
    obtain ⟨y, hy1, hy2⟩ := (hl.prime.dvd_prod_iff).mp hdv
    obtain ⟨p, hp1, rfl⟩ := List.mem_map.mp hy1
    have hlp : l = p.1.toNat := (Nat.prime_dvd_prime_iff_eq hl (hd.1 p hp1)).mp (hl.dvd_of_dvd_pow hy2)
    have hm : l ∈ kPrimes := hlp ▸ f1_primes p hp1
    exact key hm r3 c3 (c5 l hm)
  · intro X2 h2 hz
    have k2 : NK (kx 2) ⟨1, 0⟩ X2 := by
      unfold NK
      rw [toFq_kx, toFq_one, show (1 + zeta + (2 : Nat) : Fq) = 1 + zeta + 1 + 1 by push_cast; ring]; exact h2
    have r2 := nk_kpt hE hA k2 (nz 2 (by simp)) hm rfl hlt
    obtain ⟨z, hz⟩ := AddSubgroup.mem_zmultiples_iff.mp hz
    refine (key (l := 19) (by decide) r2 c2 c4).2 (AddSubgroup.mem_zmultiples_iff.mpr ⟨z, ?_⟩)
    rw [← hz, smul_comm]

end Festa
