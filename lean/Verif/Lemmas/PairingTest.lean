import Verif.Lemmas.PairingDeg
import Verif.Spec.TestField2
import Verif.Props.EC
/-!
A concrete basis of order 59, for the concrete cases of the statements on pairings.
-/
namespace Festa
open WeierstrassCurve.Affine

theorem isBasis_prime {H : Type*} [AddCommGroup H] {n : Nat} (hn : n.Prime) {P Q : H}
    (hP : n • P = 0) (hQ : n • Q = 0) (hQ0 : Q ≠ 0) (hPQ : P ∉ AddSubgroup.zmultiples Q) :
    IsBasis n P Q := by
  intro a b
  constructor
  · intro h
    have ha : (n : Int) ∣ a := by
      by_contra hnd
      have hco : IsCoprime (n : Int) a :=
        (Int.prime_iff_natAbs_prime.mpr (by simpa using hn)).coprime_iff_not_dvd.mpr hnd
      obtain ⟨u, v, huv⟩ := hco
      apply hPQ
      rw [AddSubgroup.mem_zmultiples_iff]
      refine ⟨-(v * b), ?_⟩
      have e : P = (u * n + v * a) • P := by rw [huv, one_zsmul]
      have e2 : (u * n + v * a) • P = u • ((n : Int) • P) + v • (a • P + b • Q) + (-(v * b)) • Q := by
        module
      rw [e, e2, h, natCast_zsmul, hP, zsmul_zero, zsmul_zero, zero_add, zero_add]
    refine ⟨ha, ?_⟩
    obtain ⟨a', rfl⟩ := ha
    rw [mul_comm, mul_zsmul, natCast_zsmul, hP, zsmul_zero, zero_add] at h
    have ho := addOrderOf_eq_prime (hp := ⟨hn⟩) hQ hQ0
    rw [← ho]
    exact addOrderOf_dvd_iff_zsmul_eq_zero.mpr h
  · rintro ⟨⟨a', rfl⟩, ⟨b', rfl⟩⟩
    rw [mul_comm, mul_zsmul, natCast_zsmul, hP, mul_comm, mul_zsmul, natCast_zsmul, hQ]
    simp

/-- `y² = x³ + 6x² + x` over the field with 55697 elements. -/
def e59 : Crv F557 := ⟨6, 2⟩
def p59 : Pt F557 := ⟨34495, 51593, 30058⟩
def q59 : Pt F557 := ⟨25988, 15658, 6371⟩

theorem e59_good : e59.Good := ⟨by decide +kernel, by decide +kernel, by decide +kernel⟩

theorem p59_ex : ∃ P : MPoint e59.A, PRep p59 P := ((C28_on_curve e59_good _).1).mp (by decide +kernel)
theorem q59_ex : ∃ P : MPoint e59.A, PRep q59 P := ((C28_on_curve e59_good _).1).mp (by decide +kernel)

theorem mulBig_prep {K : Type*} [Field K] [DecidableEq K] {E : Crv K} (hE : E.Good) {P R : Pt K}
    {Q : MPoint E.A} (hP : PRep P Q) {n : Nat} (h : E.mulBig P n = some R) : PRep R (n • Q) := by
  obtain ⟨R', h1, h2⟩ := C27_mul_big hE hP n
  rw [h] at h1
  cases h1
  exact h2

theorem nsmul_eq_zero_of {K : Type*} [Field K] [DecidableEq K] {E : Crv K} (hE : E.Good) {P : Pt K}
    {Q : MPoint E.A} (hP : PRep P Q) {n : Nat} (h : (E.mulBig P n).map Pt.isInf = some true) :
    n • Q = 0 := by
  obtain ⟨R, h1, h2⟩ := C27_mul_big hE hP n
  rw [h1] at h
  simp only [Option.map_some, Option.some.injEq] at h
  exact (isInf_false h2).mp h

theorem basis59 {P Q : MPoint e59.A} (hp : PRep p59 P) (hq : PRep q59 Q) : IsBasis 59 P Q := by
  have hP : 59 • P = 0 := nsmul_eq_zero_of e59_good hp (by decide +kernel)
  have hQ : 59 • Q = 0 := nsmul_eq_zero_of e59_good hq (by decide +kernel)
  refine isBasis_prime (by norm_num) hP hQ ?_ ?_
  · intro h
    have := (isInf_false hq).mpr h
    revert this; decide +kernel
  · intro h
    obtain ⟨k, hk⟩ := AddSubgroup.mem_zmultiples_iff.mp h
    have h1 : 0 ≤ k % 59 := Int.emod_nonneg _ (by norm_num)
    have h2 : k % 59 < 59 := Int.emod_lt_of_pos _ (by norm_num)
    have hk2 : (k % 59).toNat • Q = P := by
      rw [← hk, ← natCast_zsmul, Int.toNat_of_nonneg h1]
      conv_rhs => rw [← Int.emod_add_mul_ediv k 59, add_zsmul, mul_comm, mul_zsmul]
      have : (59 : Int) • Q = 0 := by rw [← hQ, ← natCast_zsmul]; rfl
      rw [this, zsmul_zero, add_zero]
    have hall : ∀ n < 59, (e59.mulBig q59 n).map (fun R => R.equals p59) = some false := by
      decide +kernel
    have hn := hall (k % 59).toNat (by omega)
    obtain ⟨R, r1, r2⟩ := C27_mul_big e59_good hq (k % 59).toNat
    rw [r1] at hn
    rw [hk2] at r2
    simp only [Option.map_some, Option.some.injEq] at hn
    have := (prep_equals r2 hp).mpr rfl
    rw [hn] at this
    exact absurd this (by decide)

theorem weil59 : weilPairing true e59 p59 q59 59 = some 7616 := by decide +kernel

theorem order59 : orderOf (7616 : F557) = 59 :=
  orderOf_eq_prime (hp := ⟨by norm_num⟩) (by decide +kernel) (by decide +kernel)

end Festa
