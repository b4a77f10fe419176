import Verif.Model.Supersingular
import Verif.Lemmas.DLog
import Verif.Spec.Pairing
import Mathlib.Algebra.Group.Subgroup.Lattice
import Mathlib.GroupTheory.OrderOfElement
import Mathlib.Algebra.Module.NatInt
import Mathlib.Tactic.Module
/-! The scalar of `compute_canonical_kernel`. -/
namespace Festa

theorem kernelCoeffList_spec (a1 a2 : Nat) (fs : Factored) (hp : ∀ p ∈ fs, Nat.Prime p.1.toNat)
    (hu : ∀ p ∈ fs, ¬ (p.1.toNat ∣ a1 ∧ p.1.toNat ∣ a2)) :
    ∃ ts, kernelCoeffList a1 a2 fs = some ts ∧ ts.length = fs.length ∧
      ∀ pt ∈ fs.zip ts, pt.2.1 * a1 + pt.2.2 * a2 ≡ 1 [MOD pt.1.1.toNat ^ pt.1.2.toNat] := by
  induction fs with
  | nil => exact ⟨[], rfl, rfl, by simp⟩
  | cons p fs ih =>
    obtain ⟨l, e⟩ := p
    obtain ⟨ts, h1, h2, h3⟩ := ih (fun q hq => hp q (List.mem_cons_of_mem _ hq))
      (fun q hq => hu q (List.mem_cons_of_mem _ hq))
    have hl : Nat.Prime l.toNat := hp _ List.mem_cons_self
    have hul := hu _ List.mem_cons_self
    have hl0 : l ≠ 0 := fun h => hl.ne_zero (by rw [h]; rfl)
    have hpow : l.toNat ^ e.toNat ≠ 0 := pow_ne_zero _ hl.ne_zero
    obtain ⟨t, ht1, ht2⟩ : ∃ t, kernelCoeffs a1 a2 l e = some t ∧
        t.1 * a1 + t.2 * a2 ≡ 1 [MOD l.toNat ^ e.toNat] := by
      unfold kernelCoeffs
      dsimp only
      rw [if_neg hl0]
      by_cases hd : a1 % l.toNat = 0
      · rw [if_pos hd]
        obtain ⟨r, hr1, -, hr2⟩ := xgcdBig_spec a2 (l.toNat ^ e.toNat) hpow
        have hc : Nat.Coprime a2 (l.toNat ^ e.toNat) := by
          apply Nat.Coprime.pow_right
          rw [Nat.coprime_comm, hl.coprime_iff_not_dvd]
          exact fun h => hul ⟨Nat.dvd_of_mod_eq_zero hd, h⟩
        rw [hc] at hr2
        exact ⟨(0, r), by rw [hr1]; rfl, by simpa [mul_comm] using hr2⟩
      · rw [if_neg hd]
        obtain ⟨r, hr1, -, hr2⟩ := xgcdBig_spec a1 (l.toNat ^ e.toNat) hpow
        have hc : Nat.Coprime a1 (l.toNat ^ e.toNat) := by
          apply Nat.Coprime.pow_right
          rw [Nat.coprime_comm, hl.coprime_iff_not_dvd]
          exact fun h => hd (Nat.mod_eq_zero_of_dvd h)
        rw [hc] at hr2
        exact ⟨(r, 0), by rw [hr1]; rfl, by simpa [mul_comm] using hr2⟩
    refine ⟨t :: ts, ?_, by simp [h2], ?_⟩
    · unfold kernelCoeffList
      rw [ht1, h1]
    · intro pt hpt
      rw [List.zip_cons_cons, List.mem_cons] at hpt
      rcases hpt with rfl | hpt
      · exact ht2
      · exact h3 pt hpt

theorem kernelScalar_spec {fs : Factored} (hd : fs.Distinct) (a1 b1 a2 b2 : Nat)
    (hu : ∀ p ∈ fs, ¬ (p.1.toNat ∣ a1 ∧ p.1.toNat ∣ a2)) :
    ∃ t1 t2, kernelScalar a1 b1 a2 b2 fs = some ((t1 * b1 + t2 * b2) % fs.value) ∧
      t1 * a1 + t2 * a2 ≡ 1 [MOD fs.value] := by
  obtain ⟨ts, h1, h2, h3⟩ := kernelCoeffList_spec a1 a2 fs hd.1 hu
  obtain ⟨t1, x1, -, x2⟩ := computeCrt_spec hd (ts.map Prod.fst) (by simp [h2])
  obtain ⟨t2, y1, -, y2⟩ := computeCrt_spec hd (ts.map Prod.snd) (by simp [h2])
  have hpos := value_pos (fs := fs) (fun p hp => (hd.1 p hp).ne_zero)
  refine ⟨t1, t2, ?_, ?_⟩
  · unfold kernelScalar
    rw [h1]
    dsimp only
    rw [x1, y1]
    dsimp only
    rw [if_neg hpos.ne']
  · refine modEq_value hd (fun q hq => ?_)
    obtain ⟨i, hi, rfl⟩ := List.mem_iff_getElem.mp hq
    have hi2 : i < ts.length := by omega
    have m1 : (fs[i], (ts[i]).1) ∈ fs.zip (ts.map Prod.fst) := by
      rw [List.mem_iff_getElem]
      exact ⟨i, by simp; omega, by simp⟩
    have m2 : (fs[i], (ts[i]).2) ∈ fs.zip (ts.map Prod.snd) := by
      rw [List.mem_iff_getElem]
      exact ⟨i, by simp; omega, by simp⟩
    have m3 : (fs[i], ts[i]) ∈ fs.zip ts := by
      rw [List.mem_iff_getElem]
      exact ⟨i, by simp; omega, by simp⟩
    exact (((x2 _ m1).mul_right _).add ((y2 _ m2).mul_right _)).trans (h3 _ m3)

section
variable {H : Type*} [AddCommGroup H] {D : Nat} {P Q : H}

theorem IsBasis.eq_iff_int (h : IsBasis D P Q) (a b c d : Int) :
    a • P + b • Q = c • P + d • Q ↔ a ≡ c [ZMOD D] ∧ b ≡ d [ZMOD D] := by
  have := h (c - a) (d - b)
  rw [Int.modEq_iff_dvd, Int.modEq_iff_dvd, ← this, eq_comm, ← sub_eq_zero]
  rw [show c • P + d • Q - (a • P + b • Q) = (c - a) • P + (d - b) • Q by module]

theorem IsBasis.eq_iff (h : IsBasis D P Q) (a b c d : Nat) :
    a • P + b • Q = c • P + d • Q ↔ a ≡ c [MOD D] ∧ b ≡ d [MOD D] := by
  have := h.eq_iff_int a b c d
  simpa only [natCast_zsmul, Int.natCast_modEq_iff] using this

theorem IsBasis.nsmul_left (h : IsBasis D P Q) : D • P = 0 := by
  have := (h D 0).mpr ⟨dvd_rfl, dvd_zero _⟩
  simpa using this

theorem IsBasis.nsmul_right (h : IsBasis D P Q) : D • Q = 0 := by
  have := (h 0 D).mpr ⟨dvd_zero _, dvd_rfl⟩
  simpa using this

/-- The kernel generated by two points of the form `a(P + sQ)`. -/
theorem kernel_scalar_of_closure {fs : Factored} (hd : fs.Distinct) (h : IsBasis fs.value P Q)
    (he : ∀ p ∈ fs, p.2 ≠ 0) (a1 b1 a2 b2 s : Nat)
    (hcl : AddSubgroup.closure {a1 • P + b1 • Q, a2 • P + b2 • Q} = AddSubgroup.zmultiples (P + s • Q)) :
    kernelScalar a1 b1 a2 b2 fs = some (s % fs.value) := by
  have hpos := value_pos (fs := fs) (fun p hp => (hd.1 p hp).ne_zero)
  -- the coefficients
  have mem : ∀ a b : Nat, a • P + b • Q ∈ AddSubgroup.zmultiples (P + s • Q) →
      (b : Int) ≡ a * s [ZMOD fs.value] := by
    intro a b hab
    obtain ⟨k, hk⟩ := AddSubgroup.mem_zmultiples_iff.mp hab
    have hk' : k • P + (k * s) • Q = (a : Int) • P + (b : Int) • Q := by
      rw [natCast_zsmul, natCast_zsmul, ← hk, zsmul_add, mul_zsmul, natCast_zsmul]
    obtain ⟨e1, e2⟩ := (h.eq_iff_int _ _ _ _).mp hk'
    exact e2.symm.trans (e1.mul_right _)
  have m1 := mem a1 b1 (by rw [← hcl]; exact AddSubgroup.subset_closure (by simp))
  have m2 := mem a2 b2 (by rw [← hcl]; exact AddSubgroup.subset_closure (by simp))
  -- the gcd
  have hgen : P + s • Q ∈ AddSubgroup.closure {a1 • P + b1 • Q, a2 • P + b2 • Q} := by
    rw [hcl]; exact AddSubgroup.mem_zmultiples _
  rw [AddSubgroup.mem_closure_pair] at hgen
  obtain ⟨x, y, hxy⟩ := hgen
  have hxy' : (x * a1 + y * a2 : Int) • P + (x * b1 + y * b2 : Int) • Q = (1 : Int) • P + (s : Int) • Q := by
    rw [one_zsmul, natCast_zsmul, ← hxy]
    simp only [zsmul_add, add_zsmul, mul_zsmul, natCast_zsmul]
    exact add_add_add_comm _ _ _ _
  obtain ⟨e1, -⟩ := (h.eq_iff_int _ _ _ _).mp hxy'
  have hu : ∀ p ∈ fs, ¬ (p.1.toNat ∣ a1 ∧ p.1.toNat ∣ a2) := by
    rintro p hp ⟨d1, d2⟩
    have hp0 := he p hp
    have hpd : p.1.toNat ∣ fs.value :=
      (dvd_pow_self _ (fun h => hp0 (UInt32.toNat_inj.mp h))).trans (dvd_value hp)
    have e1' := e1.of_dvd (Int.natCast_dvd_natCast.mpr hpd)
    have hz : (p.1.toNat : Int) ∣ x * a1 + y * a2 :=
      dvd_add ((Int.natCast_dvd_natCast.mpr d1).mul_left _) ((Int.natCast_dvd_natCast.mpr d2).mul_left _)
    have : (p.1.toNat : Int) ∣ 1 := (Int.modEq_zero_iff_dvd).mp (e1'.symm.trans ((Int.modEq_zero_iff_dvd).mpr hz))
    have := Int.natCast_dvd_natCast.mp (show ((p.1.toNat : Nat) : Int) ∣ ((1 : Nat) : Int) by simpa using this)
    exact (hd.1 p hp).one_lt.ne' (Nat.dvd_one.mp this)
  obtain ⟨t1, t2, ht, hone⟩ := kernelScalar_spec hd a1 b1 a2 b2 hu
  rw [ht]
  congr 1
  rw [← Int.natCast_modEq_iff] at hone
  have key : ((t1 * b1 + t2 * b2 : Nat) : Int) ≡ (s : Nat) [ZMOD fs.value] := by
    push_cast at hone ⊢
    refine ((m1.mul_left _).add (m2.mul_left _)).trans ?_
    rw [show (t1 : Int) * (a1 * s) + t2 * (a2 * s) = (t1 * a1 + t2 * a2) * s by ring]
    simpa using hone.mul_right (s : Int)
  exact (Int.natCast_modEq_iff).mp key

end
end Festa
