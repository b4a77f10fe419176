import Verif.Lemmas.KaniNull
/-! The diamond of isogenies of Kani's theorem: the curves on the product that meet the kernel in enough points. -/
namespace Festa
open WeierstrassCurve.Affine Polynomial Filter

section
variable {G : Type*} [AddCommGroup G]

theorem tors_cop {a b : ℕ} (h : a.Coprime b) {x : G} (ha : a • x = 0) (hb : b • x = 0) : x = 0 := by
  obtain ⟨u, v, e⟩ := Nat.isCoprime_iff_coprime.mpr h
  rw [← one_zsmul x, ← e, add_zsmul, mul_zsmul, mul_zsmul, natCast_zsmul, natCast_zsmul, ha, hb, zsmul_zero, zsmul_zero, add_zero]

/-- Sums of points of an order prime to `N` and combinations of a basis. -/
theorem card_combos [DecidableEq G] {N d : ℕ} (cop : d.Coprime N) {P Q : G} (hb : IsBasis N P Q) (S : Finset G)
    (hS : ∀ s ∈ S, d • s = 0) : ((S ×ˢ Finset.range N ×ˢ Finset.range N).image
      (fun v => v.1 + ((v.2.1 : ℤ) • P + (v.2.2 : ℤ) • Q))).card = S.card * (N * N) := by
  rw [Finset.card_image_of_injOn, Finset.card_product, Finset.card_product, Finset.card_range]
  rintro ⟨s, i, j⟩ h ⟨s', i', j'⟩ h' e
  simp only [Finset.coe_product, Set.mem_prod, Finset.mem_coe, Finset.mem_range] at h h' e
  obtain ⟨hs, hi, hj⟩ := h
  obtain ⟨hs', hi', hj'⟩ := h'
  have e1 : ((d * (i - i') : ℤ)) • P + ((d * (j - j') : ℤ)) • Q = 0 := by
    have e2 := congrArg (fun x => d • x) e
    simp only [nsmul_add, hS _ hs, hS _ hs', zero_add] at e2
    rw [← sub_eq_zero] at e2
    rw [mul_zsmul, mul_zsmul, natCast_zsmul, natCast_zsmul, ← nsmul_add, ← e2, ← nsmul_add, ← nsmul_add, ← nsmul_sub, sub_zsmul, sub_zsmul]
    congr 1
    abel
  obtain ⟨c1, c2⟩ := (hb _ _).mp e1
  have cop' : IsCoprime (N : ℤ) (d : ℤ) := Nat.isCoprime_iff_coprime.mpr cop.symm
  have k1 := cop'.dvd_of_dvd_mul_left c1
  have k2 := cop'.dvd_of_dvd_mul_left c2
  have r : ∀ {a b : ℕ}, a < N → b < N → (N : ℤ) ∣ (a : ℤ) - b → a = b := by
    intro a b ha hb hd
    have := Int.eq_zero_of_abs_lt_dvd hd (by rw [abs_lt]; omega)
    omega
  have := r hi hi' k1
  have := r hj hj' k2
  subst i'; subst j'
  rw [add_right_cancel e]
end

section
variable {L : Type*} [Field L] [DecidableEq L] {A0 AF B1 B2 : L}

/-- An isogeny to the first curve and one to the second that are complementary in the sense of Kani. -/
structure Diamond (β : MPoint A0 →+ MPoint B1) (α : MPoint A0 →+ MPoint AF) (γ : MPoint AF →+ MPoint B2)
    (d1 dA e m1 m2 n g : ℕ) (P Q : MPoint A0) : Prop where
  disc : A0 * A0 ≠ 4
  discF : AF * AF ≠ 4
  hβ : Isg β d1
  hα : Isg α dA
  hγ : Isg γ e
  norm : m1 ^ 2 * dA * d1 + m2 ^ 2 * e = 2 ^ n
  npos : n ≠ 0
  odd1 : (m1 * dA * d1) % 2 = 1
  odd2 : (m2 * e) % 2 = 1
  hg : g * (m2 * e) ≡ m1 * d1 [MOD 2 ^ n]
  basis : IsBasis (2 ^ n) P Q

namespace Diamond
variable {β : MPoint A0 →+ MPoint B1} {α : MPoint A0 →+ MPoint AF} {γ : MPoint AF →+ MPoint B2}
  {d1 dA e m1 m2 n g : ℕ} {P Q : MPoint A0} (D : Diamond β α γ d1 dA e m1 m2 n g P Q)
include D

theorem odds : m1 % 2 = 1 ∧ dA % 2 = 1 ∧ d1 % 2 = 1 ∧ m2 % 2 = 1 ∧ e % 2 = 1 := by
  have a := Nat.odd_iff.mpr D.odd1
  have b := Nat.odd_iff.mpr D.odd2
  rw [Nat.odd_mul, Nat.odd_mul] at a
  rw [Nat.odd_mul] at b
  exact ⟨Nat.odd_iff.mp a.1.1, Nat.odd_iff.mp a.1.2, Nat.odd_iff.mp a.2, Nat.odd_iff.mp b.1, Nat.odd_iff.mp b.2⟩

omit D in
theorem cop_pow {k : ℕ} (n : ℕ) (h : k % 2 = 1) : k.Coprime (2 ^ n) :=
  Nat.Coprime.pow_right _ (Nat.coprime_two_right.mpr (Nat.odd_iff.mpr h))

theorem g_odd : g % 2 = 1 := by
  have h : g * (m2 * e) ≡ m1 * d1 [MOD 2] := D.hg.of_dvd (dvd_pow_self 2 D.npos)
  obtain ⟨a1, a2, a3, a4, a5⟩ := D.odds
  by_contra hg
  have : g % 2 = 0 := by omega
  have h' : (g * (m2 * e)) % 2 = (m1 * d1) % 2 := h
  rw [Nat.mul_mod, this, Nat.mul_mod m1, a1, a3] at h'
  simp at h'

theorem cop_de : (dA * d1).Coprime e := by
  obtain ⟨a1, a2, a3, a4, a5⟩ := D.odds
  have hk : Nat.gcd (dA * d1) e ∣ 2 ^ n := by
    rw [← D.norm]
    refine dvd_add ?_ (Dvd.dvd.mul_left (Nat.gcd_dvd_right _ _) _)
    rw [mul_assoc]
    exact Dvd.dvd.mul_left (Nat.gcd_dvd_left _ _) _
  have hc : (Nat.gcd (dA * d1) e).Coprime (2 ^ n) := by
    refine Nat.Coprime.coprime_dvd_left (Nat.gcd_dvd_right _ _) (cop_pow n a5)
  exact Nat.eq_one_of_dvd_coprimes hc dvd_rfl hk

theorem g_neg : ((2 ^ n : ℕ) : ℤ) ∣ g * (m1 * dA) + m2 := by
  obtain ⟨a1, a2, a3, a4, a5⟩ := D.odds
  have h : ((2 ^ n : ℕ) : ℤ) ∣ (m1 * d1 : ℕ) - (g * (m2 * e) : ℕ) := Nat.modEq_iff_dvd.mp D.hg
  have hn : ((2 ^ n : ℕ) : ℤ) = m1 ^ 2 * dA * d1 + m2 ^ 2 * e := by rw [← D.norm]; push_cast; ring
  have c : IsCoprime ((2 ^ n : ℕ) : ℤ) ((m2 * e : ℕ) : ℤ) := Nat.isCoprime_iff_coprime.mpr (cop_pow n D.odd2).symm
  refine c.dvd_of_dvd_mul_left ?_
  obtain ⟨k, hk⟩ := h
  refine ⟨1 - m1 * dA * k, ?_⟩
  push_cast at hk hn ⊢
  linear_combination (-(m1 * dA : ℤ)) * hk - hn

omit D in
theorem tors_zsmul {r : MPoint A0} (hr : 2 ^ n • r = 0) {k l : ℤ} (h : ((2 ^ n : ℕ) : ℤ) ∣ k - l) : k • r = l • r := by
  obtain ⟨c, hc⟩ := h
  have : k = l + c * ((2 ^ n : ℕ) : ℤ) := by linear_combination hc
  rw [this, add_zsmul, mul_zsmul, natCast_zsmul, hr, zsmul_zero, add_zero]

theorem combo_tors (x y : ℤ) : 2 ^ n • (x • P + y • Q) = 0 := by
  have hP : 2 ^ n • P = 0 := by
    have := (D.basis ((2 ^ n : ℕ) : ℤ) 0).mpr ⟨dvd_rfl, dvd_zero _⟩
    rwa [zero_zsmul, add_zero, natCast_zsmul] at this
  have hQ : 2 ^ n • Q = 0 := by
    have := (D.basis 0 ((2 ^ n : ℕ) : ℤ)).mpr ⟨dvd_zero _, dvd_rfl⟩
    rwa [zero_zsmul, zero_add, natCast_zsmul] at this
  rw [nsmul_add, smul_comm, hP, smul_comm, hQ, smul_zero, smul_zero, add_zero]

omit D in
/-- The kernels of the three isogenies as finite sets. -/
theorem ker_fin {A A' : L} {φ : MPoint A →+ MPoint A'} {d : ℕ} (h : Isg φ d) : h.fin.toFinset.card = d := by
  rw [← Set.ncard_eq_toFinset_card _ h.fin]
  exact h.card

/-- The section of the second isogeny over the kernel of the third. -/
theorem exists_sec : ∃ ρ : MPoint AF → MPoint A0, ∀ t, γ t = 0 → α (ρ t) = t ∧ e • ρ t = 0 := by
  have c : IsCoprime (dA : ℤ) (e : ℤ) := Nat.isCoprime_iff_coprime.mpr (Nat.Coprime.coprime_mul_right D.cop_de)
  obtain ⟨a, b, hab⟩ := c
  choose τ hτ using D.hα.surj
  refine ⟨fun t => (a * dA) • τ t, fun t ht => ?_⟩
  have he := D.hγ.kill t ht
  constructor
  · rw [map_zsmul, hτ]
    have : a * (dA : ℤ) = 1 - b * e := by linear_combination hab
    rw [this, sub_zsmul, one_zsmul, mul_zsmul, natCast_zsmul, he, zsmul_zero, neg_zero, add_zero]
  · have h0 : dA • (e • τ t) = 0 := D.hα.kill _ (by rw [map_nsmul, hτ, he])
    change e • ((a * (dA : ℤ)) • τ t) = 0
    rw [mul_zsmul, natCast_zsmul, smul_comm e a, smul_comm e dA, h0, smul_zero]

/-- The points that the first curve puts into the kernel. -/
theorem exists_setF : ∃ S : Finset (MPoint A0), S.Nonempty ∧ S.card = dA * (2 ^ n * 2 ^ n) ∧
    ∀ s ∈ S, ∃ (k : MPoint A0) (x y : ℤ), α k = 0 ∧ s = k + (x • P + y • Q) := by
  obtain ⟨a1, a2, a3, a4, a5⟩ := D.odds
  have hc := card_combos (cop_pow n a2) D.basis D.hα.fin.toFinset (fun s hs => D.hα.kill s (by simpa using hs))
  rw [ker_fin D.hα] at hc
  refine ⟨_, ?_, hc, ?_⟩
  · rw [← Finset.card_pos, hc]
    have := D.hα.pos
    positivity
  · intro s hs
    obtain ⟨⟨k, i, j⟩, h, rfl⟩ := Finset.mem_image.mp hs
    simp only [Finset.mem_product, Set.Finite.mem_toFinset, Set.mem_ofPred_eq] at h
    exact ⟨k, i, j, h.1, rfl⟩

/-- The points that the second curve puts into the kernel. -/
theorem exists_setH : ∃ S : Finset (MPoint A0), S.Nonempty ∧ S.card = d1 * e * (2 ^ n * 2 ^ n) ∧
    ∀ s ∈ S, ∃ (k t : MPoint A0) (x y : ℤ), β k = 0 ∧ γ (α t) = 0 ∧ e • t = 0 ∧ s = k + t + (x • P + y • Q) := by
  obtain ⟨a1, a2, a3, a4, a5⟩ := D.odds
  obtain ⟨ρ, hρ⟩ := D.exists_sec
  let X := (D.hβ.fin.toFinset ×ˢ D.hγ.fin.toFinset).image (fun v => v.1 + ρ v.2)
  have hX : ∀ s ∈ X, ∃ (k t : MPoint A0), β k = 0 ∧ γ (α t) = 0 ∧ e • t = 0 ∧ s = k + t := by
    intro s hs
    obtain ⟨⟨k, t⟩, h, rfl⟩ := Finset.mem_image.mp hs
    simp only [Finset.mem_product, Set.Finite.mem_toFinset, Set.mem_ofPred_eq] at h
    obtain ⟨r1, r2⟩ := hρ t h.2
    exact ⟨k, ρ t, h.1, by rw [r1]; exact h.2, r2, rfl⟩
  have cX : X.card = d1 * e := by
    rw [Finset.card_image_of_injOn, Finset.card_product, ker_fin D.hβ, ker_fin D.hγ]
    rintro ⟨s, t⟩ h ⟨s', t'⟩ h' eq
    simp only [Finset.coe_product, Set.mem_prod, Set.Finite.coe_toFinset, Set.mem_ofPred_eq] at h h' eq
    have c : d1.Coprime e := Nat.Coprime.coprime_mul_left D.cop_de
    obtain ⟨r1, r2⟩ := hρ t h.2
    obtain ⟨r1', r2'⟩ := hρ t' h'.2
    have hk := D.hβ.kill _ h.1
    have hk' := D.hβ.kill _ h'.1
    have e1 : ρ t - ρ t' = s' - s := by rw [sub_eq_sub_iff_add_eq_add, add_comm, eq]
    have e0 : ρ t - ρ t' = 0 := tors_cop c (by rw [e1, nsmul_sub, hk, hk', sub_zero]) (by rw [nsmul_sub, r2, r2', sub_zero])
    have et : t = t' := by rw [← r1, ← r1', sub_eq_zero.mp e0]
    rw [e0] at e1
    rw [et, sub_eq_zero.mp e1.symm]
  have hc := card_combos (cop_pow n (k := d1 * e) (by rw [Nat.mul_mod, a3, a5])) D.basis X (fun s hs => by
    obtain ⟨k, t, hk, -, ht, rfl⟩ := hX s hs
    rw [nsmul_add, mul_nsmul, D.hβ.kill _ hk, mul_nsmul', ht, smul_zero, smul_zero, add_zero])
  rw [cX] at hc
  refine ⟨_, ?_, hc, ?_⟩
  · rw [← Finset.card_pos, hc]
    have := D.hβ.pos
    have := D.hγ.pos
    positivity
  · intro s hs
    obtain ⟨⟨x, i, j⟩, h, rfl⟩ := Finset.mem_image.mp hs
    simp only [Finset.mem_product] at h
    obtain ⟨k, t, hk, ht, ht', rfl⟩ := hX x h.1
    exact ⟨k, t, i, j, hk, ht, ht', rfl⟩

end Diamond
end
end Festa
