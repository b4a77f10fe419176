import Verif.Model.Festa
import Verif.Props.DLog
import Verif.Props.Pairing
import Verif.Lemmas.WeilOrder
/-! Lemmas on `recover_diagB`. -/
namespace Festa

section
variable {H : Type*} [AddCommGroup H] {P Q : H}

theorem IsBasis.smul_unit {c n : Nat} (h : IsBasis n P Q) (hc : Nat.Coprime c n) :
    IsBasis n (c • P) (c • Q) := by
  intro a b
  have hco : IsCoprime (n : Int) c := (Nat.isCoprime_iff_coprime.mpr hc).symm
  have e : ∀ x : Int, (n : Int) ∣ x * c ↔ (n : Int) ∣ x :=
    fun x => ⟨hco.dvd_of_dvd_mul_right, fun h => h.mul_right _⟩
  rw [zsmul_pair, h, e, e]

theorem IsBasis.mul {m n : Nat} (hco : Nat.Coprime m n) (h1 : IsBasis n (m • P) (m • Q))
    (h2 : IsBasis m (n • P) (n • Q)) : IsBasis (m * n) P Q := by
  intro a b
  have hic : IsCoprime (m : Int) n := Nat.isCoprime_iff_coprime.mpr hco
  constructor
  · intro h
    have e : ∀ k : Nat, a • k • P + b • k • Q = 0 := by
      intro k
      rw [zsmul_pair, mul_comm a, mul_comm b, mul_zsmul, mul_zsmul, ← zsmul_add, h, zsmul_zero]
    obtain ⟨x1, x2⟩ := (h1 a b).mp (e m)
    obtain ⟨y1, y2⟩ := (h2 a b).mp (e n)
    rw [Nat.cast_mul]
    exact ⟨hic.mul_dvd y1 x1, hic.mul_dvd y2 x2⟩
  · rintro ⟨⟨a', rfl⟩, ⟨b', rfl⟩⟩
    have := (h1 (n * a') (n * b')).mpr ⟨dvd_mul_right _ _, dvd_mul_right _ _⟩
    rw [zsmul_pair] at this
    rw [← this]
    push_cast
    congr 2 <;> ring

end

theorem odd_inv_two_pow {e a : Nat} (he : 1 ≤ e) (ha : a % 2 = 1) :
    ∃ r, xgcdBig a (2 ^ e) = some r ∧ r < 2 ^ e ∧ a * r % 2 ^ e = 1 ∧ r ≠ 0 := by
  have h2 : 2 ^ 1 ≤ 2 ^ e := Nat.pow_le_pow_right (by norm_num) he
  obtain ⟨r, h1, h3, h4, -⟩ := C34_inverse a (2 ^ e) (by omega)
    (Nat.Coprime.pow_right _ (Nat.coprime_two_right.mpr (Nat.odd_iff.mpr ha)))
  refine ⟨r, h1, h3, h4, ?_⟩
  rintro rfl
  simp at h4

theorem mul_mod_odd {e a b : Nat} (he : 1 ≤ e) (ha : a % 2 = 1) (hb : b % 2 = 1) :
    (a * b % 2 ^ e) % 2 = 1 := by
  have : 2 ∣ 2 ^ e := dvd_pow_self 2 (by omega)
  rw [Nat.mod_mod_of_dvd _ this, Nat.mul_mod, ha, hb]

/-- The normalisation at the end of `recover_diagB`, applied to `alpha` and to `2^e - alpha`. -/
theorem diag_normalise {e x : Nat} (he : 1 ≤ e) (hx : x % 2 = 1) (hlt : x < 2 ^ e) :
    ∃ b11 b22, b11 ≤ 2 ^ (e - 1) ∧ b22 < 2 ^ e ∧ b11 * b22 % 2 ^ e = 1 ∧
      (b11 = x ∨ b11 = 2 ^ e - x) ∧
      ∀ y, y = x ∨ y = 2 ^ e - x →
        (do
          let beta := (← xgcdBig y (2 ^ e)) % 2 ^ e
          if y > 2 ^ e >>> 1 then some (2 ^ e - y, 2 ^ e - beta) else some (y, beta)) = some (b11, b22) := by
  have hsh : 2 ^ e >>> 1 = 2 ^ (e - 1) := by
    rw [Nat.shiftRight_eq_div_pow, pow_one]
    obtain ⟨k, rfl⟩ : ∃ k, e = k + 1 := ⟨e - 1, by omega⟩
    rw [pow_succ, Nat.mul_div_cancel _ (by norm_num)]; rfl
  have hd : 2 ^ e = 2 * 2 ^ (e - 1) := by
    rw [← pow_succ']; congr 1; omega
  have hpos : 0 < 2 ^ (e - 1) := by positivity
  obtain ⟨r, r1, r2, r3, r0⟩ := odd_inv_two_pow he hx
  obtain ⟨s, s1, s2, s3, s0⟩ := odd_inv_two_pow he (a := 2 ^ e - x) (by omega)
  have hs : s = 2 ^ e - r := by
    have key : (2 ^ e - x) * (2 ^ e - r) ≡ 1 [MOD 2 ^ e] := by
      rw [← Int.natCast_modEq_iff]
      push_cast [Nat.cast_sub hlt.le, Nat.cast_sub r2.le]
      have : (x * r : Nat) ≡ 1 [MOD 2 ^ e] := by
        show _ % _ = _ % _
        rw [r3, Nat.mod_eq_of_lt (by omega)]
      rw [← Int.natCast_modEq_iff] at this
      push_cast at this
      rw [Int.modEq_iff_dvd] at this ⊢
      obtain ⟨c, hc⟩ := this
      exact ⟨c - 2 ^ e + x + r, by linear_combination hc⟩
    have key2 : (2 ^ e - x) * s ≡ (2 ^ e - x) * (2 ^ e - r) [MOD 2 ^ e] := by
      refine Nat.ModEq.trans ?_ key.symm
      show _ % _ = _ % _
      rw [s3, Nat.mod_eq_of_lt (by omega)]
    have hc : Nat.gcd (2 ^ e) (2 ^ e - x) = 1 := by
      have : Nat.Coprime (2 ^ e) (2 ^ e - x) :=
        Nat.Coprime.pow_left _ (Nat.coprime_two_left.mpr (Nat.odd_iff.mpr (by omega)))
      exact this
    exact Nat.ModEq.eq_of_lt_of_lt (Nat.ModEq.cancel_left_of_coprime hc key2) s2 (by omega)
  rcases Nat.lt_or_ge (2 ^ (e - 1)) x with h | h
  · refine ⟨2 ^ e - x, s, by omega, s2, s3, Or.inr rfl, ?_⟩
    rintro y (rfl | rfl)
    · rw [r1, hsh]
      simp only [Option.bind_eq_bind, Option.bind_some, gt_iff_lt, if_pos h, Nat.mod_eq_of_lt r2]
      rw [hs]
    · rw [s1, hsh]
      have : ¬ 2 ^ (e - 1) < 2 ^ e - x := by omega
      simp only [Option.bind_eq_bind, Option.bind_some, gt_iff_lt, if_neg this, Nat.mod_eq_of_lt s2]
  · refine ⟨x, r, h, r2, r3, Or.inl rfl, ?_⟩
    rintro y (rfl | rfl)
    · rw [r1, hsh]
      have : ¬ 2 ^ (e - 1) < y := by omega
      simp only [Option.bind_eq_bind, Option.bind_some, gt_iff_lt, if_neg this, Nat.mod_eq_of_lt r2]
    · rw [s1, hsh]
      simp only [Option.bind_eq_bind, Option.bind_some, gt_iff_lt, Nat.mod_eq_of_lt s2]
      split_ifs with h'
      · have a : 2 ^ e - (2 ^ e - x) = x := by omega
        have b : 2 ^ e - s = r := by omega
        rw [a, b]
      · have hx' : x = 2 ^ (e - 1) := by omega
        have e1 : e = 1 := by
          by_contra h1
          have : 2 ∣ 2 ^ (e - 1) := dvd_pow_self 2 (by omega)
          omega
        subst e1
        norm_num at *
        omega

end Festa
