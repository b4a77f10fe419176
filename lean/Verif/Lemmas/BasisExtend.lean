import Verif.Lemmas.AxisFree
import Verif.Lemmas.TorsionSpan
/-! Every point of order `n` belongs to a basis, if there is a basis at all. -/
namespace Festa
variable {H : Type*} [AddCommGroup H] {n : Nat} {P Q : H}

/-- A combination of a basis that has order `n` is part of a basis. -/
theorem IsBasis.extend (hb : IsBasis n P Q) {X : H} {a b : Int} (e : X = a • P + b • Q) (ho : addOrderOf X = n) (hn : n ≠ 0) :
    ∃ Y, IsBasis n X Y := by
  -- the coordinates and the order have no common factor
  have hg : Int.gcd (Int.gcd a b) n = 1 := by
    set g := Int.gcd (Int.gcd a b) n with hg
    obtain ⟨m, hm⟩ : g ∣ n := by
      have := Int.gcd_dvd_right (Int.gcd a b : Int) n
      exact_mod_cast this
    have h1 : (g : Int) ∣ a := (Int.gcd_dvd_left (Int.gcd a b : Int) n).trans (Int.gcd_dvd_left a b)
    have h2 : (g : Int) ∣ b := (Int.gcd_dvd_left (Int.gcd a b : Int) n).trans (Int.gcd_dvd_right a b)
    have hz : m • X = 0 := by
      rw [e, nsmul_add, ← natCast_zsmul, ← natCast_zsmul, ← mul_zsmul, ← mul_zsmul, hb]
      constructor
      · obtain ⟨c, hc⟩ := h1
        exact ⟨c, by rw [hc, hm]; push_cast; ring⟩
      · obtain ⟨c, hc⟩ := h2
        exact ⟨c, by rw [hc, hm]; push_cast; ring⟩
    have hd := addOrderOf_dvd_of_nsmul_eq_zero hz
    rw [ho] at hd
    have hm0 : m ≠ 0 := by rintro rfl; exact hn (by rw [hm, mul_zero])
    have hle := Nat.le_of_dvd (Nat.pos_of_ne_zero hm0) hd
    have hg0 : g ≠ 0 := by intro h; exact hn (by rw [hm, h, zero_mul])
    have : g * m ≤ 1 * m := by rw [← hm, one_mul]; exact hle
    have := Nat.le_of_mul_le_mul_right this (Nat.pos_of_ne_zero hm0)
    omega
  obtain ⟨x, y, z, hxy⟩ : ∃ x y z : Int, a * x + b * y + n * z = 1 := by
    have h1 := Int.gcd_eq_gcd_ab a b
    have h2 := Int.gcd_eq_gcd_ab (Int.gcd a b : Int) n
    rw [hg] at h2
    rw [h1] at h2
    rw [add_mul, mul_assoc, mul_assoc] at h2
    exact ⟨_, _, _, h2.symm⟩
  refine ⟨(-y) • P + x • Q, fun u v => ?_⟩
  have e1 : u • X + v • ((-y) • P + x • Q) = (u * a - v * y) • P + (u * b + v * x) • Q := by
    rw [e, zsmul_add, zsmul_add, ← mul_zsmul, ← mul_zsmul, ← mul_zsmul, ← mul_zsmul, sub_eq_add_neg, add_zsmul, add_zsmul,
      mul_neg]
    abel
  rw [e1, hb]
  constructor
  · rintro ⟨h1, h2⟩
    constructor
    · have := dvd_add (dvd_add (h1.mul_left x) (h2.mul_left y)) (Dvd.intro (z * u) rfl : (n : Int) ∣ n * (z * u))
      rwa [show x * (u * a - v * y) + y * (u * b + v * x) + n * (z * u) = (a * x + b * y + n * z) * u by ring, hxy,
        one_mul] at this
    · have := dvd_add (dvd_sub (h2.mul_left a) (h1.mul_left b)) (Dvd.intro (z * v) rfl : (n : Int) ∣ n * (z * v))
      rwa [show a * (u * b + v * x) - b * (u * a - v * y) + n * (z * v) = (a * x + b * y + n * z) * v by ring, hxy,
        one_mul] at this
  · rintro ⟨h1, h2⟩
    exact ⟨dvd_sub (h1.mul_right _) (h2.mul_right _), dvd_add (h1.mul_right _) (h2.mul_right _)⟩

/-- A basis has no point of an axis. -/
theorem IsBasis.free (hb : IsBasis n P Q) (hn : 2 ≤ n) : AxisFree n P Q := by
  have := hb.off_left (a := 0) (b := 1) (fun h => by have := Nat.le_of_dvd one_pos h; omega)
  rwa [zero_nsmul, one_nsmul, zero_add] at this

end Festa
