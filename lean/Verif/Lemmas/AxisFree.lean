import Verif.Spec.AxisFree
import Verif.Lemmas.WeilAxis
/-!
Lemmas on `AxisFree`, and the pairings of `bidlp` under this condition.
-/
namespace Festa

section
variable {H : Type*} [AddCommGroup H] {n : Nat} {P Q X : H}

theorem AxisFree.of_not_mem (h : X ∉ AddSubgroup.zmultiples P) : AxisFree n P X := fun h' => absurd h' h

theorem AxisFree.ne_zero (h : AxisFree n P X) : X ≠ 0 := by
  rintro rfl
  exact ((h (zero_mem _)).1 n (InChain.self n)).1 rfl

theorem AxisFree.neg_left (h : AxisFree n P X) : AxisFree n (-P) X := by
  intro hm
  rw [AddSubgroup.zmultiples_neg] at hm
  obtain ⟨h1, h2⟩ := h hm
  refine ⟨fun m hi => ?_, fun m hi => ?_⟩
  · obtain ⟨a, b, c⟩ := h1 m hi
    rw [neg_nsmul, neg_neg]
    exact ⟨a, c, b⟩
  · obtain ⟨a, b, c⟩ := h2 m hi
    exact ⟨neg_ne_zero.mpr a, fun e => c (neg_eq_iff_eq_neg.mp e), fun e => b (neg_inj.mp e)⟩

theorem AxisFree.neg_right (h : AxisFree n P (-X)) : AxisFree n P X := by
  intro hm
  obtain ⟨h1, h2⟩ := h (neg_mem hm)
  refine ⟨fun m hi => ?_, fun m hi => ?_⟩
  · obtain ⟨a, b, c⟩ := h1 m hi
    exact ⟨neg_ne_zero.mp a, fun e => c (by rw [e]), fun e => b (by rw [e, neg_neg])⟩
  · obtain ⟨a, b, c⟩ := h2 m hi
    rw [neg_nsmul, neg_neg] at c
    rw [neg_nsmul] at b
    exact ⟨a, c, b⟩

theorem AxisFree.neg_left_iff : AxisFree n (-P) X ↔ AxisFree n P X :=
  ⟨fun h => by rw [← neg_neg P]; exact h.neg_left, AxisFree.neg_left⟩

theorem IsBasis.off_left (hb : IsBasis n P Q) {a b : Nat} (h : ¬n ∣ b) : AxisFree n P (a • P + b • Q) := by
  refine .of_not_mem fun hm => h ?_
  obtain ⟨k, hk⟩ := AddSubgroup.mem_zmultiples_iff.mp hm
  have : ((a : Int) - k) • P + (b : Int) • Q = 0 := by
    rw [sub_zsmul, hk, natCast_zsmul, natCast_zsmul]
    abel
  exact_mod_cast ((hb _ _).mp this).2

theorem IsBasis.off_right (hb : IsBasis n P Q) {a b : Nat} (h : ¬n ∣ a) : AxisFree n Q (a • P + b • Q) := by
  rw [add_comm]
  refine .of_not_mem fun hm => h ?_
  obtain ⟨k, hk⟩ := AddSubgroup.mem_zmultiples_iff.mp hm
  have : (a : Int) • P + ((b : Int) - k) • Q = 0 := by
    rw [sub_zsmul, hk, natCast_zsmul, natCast_zsmul]
    abel
  exact_mod_cast ((hb _ _).mp this).1

theorem IsBasis.tors_nat (hb : IsBasis n P Q) (a b : Nat) : n • (a • P + b • Q) = 0 := by
  rw [nsmul_add, ← mul_nsmul', mul_comm, mul_nsmul', hb.nsmul_left, nsmul_zero, ← mul_nsmul', mul_comm, mul_nsmul',
    hb.nsmul_right, nsmul_zero, add_zero]

theorem IsBasis.two_le_of_free {R : H} (hb : IsBasis n P Q) (hn : n ≠ 0) (hR : n • R = 0) (h : AxisFree n P R) : 2 ≤ n := by
  by_contra hlt
  obtain rfl : n = 1 := by omega
  rw [one_nsmul] at hR
  exact h.ne_zero hR
end

variable {K : Type*} [Field K] [DecidableEq K]

/-- The three pairings of `bidlp`. -/
theorem bidlp_pairings_free {E : Crv K} (hE : E.Good) (chk : Bool) {p q r : Pt K} {P Q : MPoint E.A}
    {n a b : Nat} (hn : 2 ≤ n) (hb : IsBasis n P Q) (hp : PRep p P) (hq : PRep q Q)
    (hr : PRep r (a • P + b • Q)) (hP : AxisFree n P (a • P + b • Q)) (hQ : AxisFree n Q (a • P + b • Q))
    (hc : ChainFree n (a • P + b • Q)) :
    weilPairing chk E p q n = some (we n P Q) ∧ we n P Q ^ n = 1 ∧
    weilPairing chk E r q n = some (we n P Q ^ a) ∧
    weilPairing chk E r p.neg n = some (we n P Q ^ b) := by
  have h1' : ¬n ∣ 1 := fun h => by have := Nat.le_of_dvd one_pos h; omega
  have hself := bidlp_pairing_a (a := 1) (b := 0) hE chk hn hb hp hq (by rw [one_nsmul, zero_nsmul, add_zero]; exact hp) h1'
    (by rw [one_nsmul, zero_nsmul, add_zero]; exact chainFree_of_order (by omega) hb.order_left)
  refine ⟨hself.1, hself.2.1, ?_, ?_⟩
  · by_cases ha : n ∣ a
    · obtain ⟨c, rfl⟩ := ha
      have e : (n * c) • P + b • Q = b • Q := by
        rw [mul_comm, mul_nsmul', hb.nsmul_left, nsmul_zero, zero_add]
      rw [e] at hr hc hQ
      obtain ⟨o1, o2⟩ := hQ (AddSubgroup.nsmul_mem_zmultiples Q b)
      rw [pow_mul, hself.2.1, one_pow]
      exact weil_axis hE chk hn hb.symm hq hr hc o1 o2
    · exact (bidlp_pairing_a hE chk hn hb hp hq hr ha hc).2.2
  · by_cases hd : n ∣ b
    · obtain ⟨c, rfl⟩ := hd
      have e : a • P + (n * c) • Q = a • P := by
        rw [mul_comm, mul_nsmul', hb.nsmul_right, nsmul_zero, add_zero]
      rw [e] at hr hc hP
      obtain ⟨o1, o2⟩ := hP (AddSubgroup.nsmul_mem_zmultiples P a)
      rw [pow_mul, hself.2.1, one_pow]
      exact weil_axis_neg hE chk hn hb hp hr hc o1 o2
    · exact bidlp_pairing_b hE chk hn hb hp hr hd hc

end Festa
