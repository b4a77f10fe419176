import Verif.Lemmas.WeilNondeg
import Verif.Lemmas.PairingCode
import Mathlib.RingTheory.RootsOfUnity.PrimitiveRoots
/-! A basis of order `n` generates all points killed by `n`. -/
namespace Festa
open WeierstrassCurve.Affine
variable {K : Type*} [Field K] [DecidableEq K] {A : K}

theorem isBasis_of_prime {H : Type*} [AddCommGroup H] {r : Nat} (hr : r.Prime) {P X : H}
    (oP : addOrderOf P = r) (tX : r • X = 0) (hX : X ∉ AddSubgroup.zmultiples P) : IsBasis r P X := by
  have zP : ∀ a : Int, a • P = 0 ↔ (r : Int) ∣ a := fun a => by rw [← oP]; exact addOrderOf_dvd_iff_zsmul_eq_zero.symm
  intro a b
  constructor
  · intro h
    have hb : (r : Int) ∣ b := by
      by_contra hb
      apply hX
      obtain ⟨u, v, huv⟩ : IsCoprime (r : Int) b :=
        (Nat.prime_iff_prime_int.mp hr).irreducible.coprime_iff_not_dvd.mpr hb
      have e : X = (-(v * a)) • P := by
        calc X = (u * r + v * b) • X := by rw [huv, one_zsmul]
          _ = v • (b • X) := by rw [add_zsmul, mul_zsmul, natCast_zsmul, tX, smul_zero, zero_add, mul_zsmul]
          _ = _ := by rw [eq_neg_of_add_eq_zero_right h, smul_neg, neg_zsmul, mul_zsmul]
      rw [e]
      exact AddSubgroup.zsmul_mem_zmultiples P _
    refine ⟨?_, hb⟩
    obtain ⟨c, rfl⟩ := hb
    rw [mul_comm, mul_zsmul, natCast_zsmul, tX, smul_zero, add_zero] at h
    exact (zP a).mp h
  · rintro ⟨ha, c, rfl⟩
    rw [(zP a).mpr ha, mul_comm, mul_zsmul, natCast_zsmul, tX, smul_zero, add_zero]

/-- Prime orders. -/
theorem span_prime (h2 : (2 : K) ≠ 0) (hA : A * A ≠ 4) {r : Nat} (hr : r.Prime) {P Q X : MPoint A}
    (hb : IsBasis r P Q) (tX : r • X = 0) : ∃ a b : Int, X = a • P + b • Q := by
  by_contra hno
  have h2r := hr.two_le
  have off : ∀ k : Int, X + k • Q ∉ AddSubgroup.zmultiples P := by
    intro k h
    obtain ⟨a, ha⟩ := AddSubgroup.mem_zmultiples_iff.mp h
    exact hno ⟨a, -k, by rw [ha, neg_zsmul, add_neg_cancel_right]⟩
  have bas : ∀ k : Int, IsBasis r P (X + k • Q) := fun k =>
    isBasis_of_prime hr hb.order_left (by
      rw [nsmul_add, tX, smul_comm, hb.nsmul_right, smul_zero, add_zero]) (off k)
  have bX : IsBasis r P X := by have := bas 0; rwa [zero_zsmul, add_zero] at this
  have o := hb.we_orderOf h2 hA h2r
  have prim : IsPrimitiveRoot (we r P Q) r := by
    have := IsPrimitiveRoot.orderOf (we r P Q); rwa [o] at this
  have wX : we r P X ^ r = 1 := by
    have := pow_orderOf_eq_one (we r P X); rwa [bX.we_orderOf h2 hA h2r] at this
  have : NeZero r := ⟨hr.ne_zero⟩
  obtain ⟨i, hi, e⟩ := prim.eq_pow_of_pow_eq_one wX
  -- the point with trivial pairing
  have ndX := bX.nd h2r
  rcases Nat.eq_zero_or_pos i with rfl | hi0
  · rw [pow_zero] at e
    have := bX.we_orderOf h2 hA h2r
    rw [← e, orderOf_one] at this
    omega
  have bm := bas ((r - i : Nat) : Int)
  rw [natCast_zsmul] at bm
  have hri : ¬((r : Int) ∣ ((r - i : Nat) : Int)) := by
    exact_mod_cast not_dvd_lt (d := r) (a := r - i) (by omega) (by omega)
  have bq : IsBasis r P ((r - i) • Q) := by
    refine isBasis_of_prime hr hb.order_left (by rw [smul_comm, hb.nsmul_right, smul_zero]) ?_
    intro h
    obtain ⟨a, ha⟩ := AddSubgroup.mem_zmultiples_iff.mp h
    refine hri ((hb (-a) (r - i : Nat)).mp ?_).2
    rw [neg_zsmul, ha, natCast_zsmul, neg_add_cancel]
  have ad := we_add (n := r) hr.one_le ndX (bq.nd h2r) (bm.nd h2r) hb.nsmul_left tX bq.nsmul_right
  have pw := (hb.symm.we_eq h2 hA h2r (r - i) 0 (by omega) (by omega)).1
  rw [zero_nsmul, add_zero] at pw
  rw [pw, ← e, ← pow_add, Nat.add_sub_cancel' hi.le, prim.pow_eq_one] at ad
  have := bm.we_orderOf h2 hA h2r
  rw [ad, orderOf_one] at this
  omega

/-- All orders. -/
theorem span_basis (h2 : (2 : K) ≠ 0) (hA : A * A ≠ 4) {n : Nat} (hn : 1 ≤ n) {P Q X : MPoint A}
    (hb : IsBasis n P Q) (tX : n • X = 0) : ∃ a b : Int, X = a • P + b • Q := by
  induction n using Nat.strong_induction_on generalizing P Q X with
  | _ n ih =>
    rcases Nat.eq_or_lt_of_le hn with rfl | h1
    · rw [one_nsmul] at tX
      exact ⟨0, 0, by rw [tX]; simp⟩
    obtain ⟨r, hr, m, rfl⟩ := Nat.exists_prime_and_dvd (n := n) (by omega)
    have hm : 1 ≤ m := Nat.pos_of_ne_zero (by rintro rfl; simp at hn)
    have h2r := hr.two_le
    obtain ⟨a, b, e⟩ := ih m (by nlinarith) hm (hb.nsmul hr.pos) (X := r • X) (by
      rw [← mul_nsmul', mul_comm]; exact tX)
    obtain ⟨c, d, f⟩ := span_prime h2 hA hr (IsBasis.nsmul (m := m) (by rwa [mul_comm]) hm)
      (X := X - a • P - b • Q) (by rw [smul_sub, smul_sub, e, smul_comm r a, smul_comm r b]; abel)
    refine ⟨a + c * m, b + d * m, ?_⟩
    rw [sub_sub, sub_eq_iff_eq_add] at f
    rw [f, add_zsmul, add_zsmul, mul_zsmul, mul_zsmul, natCast_zsmul, natCast_zsmul]
    abel

end Festa
