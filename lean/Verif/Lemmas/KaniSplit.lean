import Verif.Lemmas.KaniComp
import Verif.Lemmas.FullTorsion
/-! The two components of the chain do not vanish together, so each takes one of the two curves of the diamond. -/
namespace Festa
open WeierstrassCurve.Affine Polynomial Filter
variable {L : Type*} [Field L] [DecidableEq L] [IsAlgClosed L] [RootOps L]
  {E : EProd L} {p1 q1 : MPoint E.E1.A} {p2 q2 : MPoint E.E2.A} {n : ℕ} {O T1 T2 : ThPt L}
  {ε l m w ε' l' m' w' : L} {M : Mat4 L} {o o' : L × L} {U V : MPoint E.E1.A × MPoint E.E2.A → L × L} {A0 AF : L}
  {β : MPoint A0 →+ MPoint E.E1.A} {α : MPoint A0 →+ MPoint AF} {γ : MPoint AF →+ MPoint E.E2.A}
  {d1 dA e m1 m2 g : ℕ} {P Q : MPoint A0}

omit [IsAlgClosed L] in
theorem IsNull.tr {u : L × L} (h2 : (2 : L) ≠ 0) (ho : Null1 o) (h : IsNull o u) {A : L} : TR o u (0 : MPoint A) := by
  obtain ⟨c, hc, rfl⟩ := h
  exact (TR.null h2 ho).scale hc

omit [IsAlgClosed L] in
theorem TR.zero_of {u : L × L} (h2 : (2 : L) ≠ 0) (ho : Null1 o) (h : IsNull o u) {A : L} {f : MPoint A} (hf : TR o u f) : f = 0 := by
  rcases (h.tr h2 ho).eq hf with e | e
  · exact e
  · rw [e, neg_zero]

omit [IsAlgClosed L] in
/-- Elements whose double goes to the null point go to points of order two. -/
theorem Net.two_smul {G : Type*} [AddCommGroup G] {θ : G → L × L} (h : Net o (fun _ => True) θ) {x : G} (hx : x + x ∈ h.ker)
    {f : MPoint (nullToMontCoeff o)} (hf : TR o (θ x) f) : 2 • f = 0 := by
  have h0 : x - x ∈ h.ker := by rw [sub_self]; exact h.ker.zero_mem
  rw [two_nsmul]
  rcases h.pair rfl trivial trivial trivial trivial hf hf with ⟨e, -⟩ | ⟨-, e⟩
  · exact TR.zero_of h.two h.null hx e
  · exact TR.zero_of h.two h.null h0 e

namespace KaniData
variable (h : KaniData E p1 q1 p2 q2 n O T1 T2 ε l m w ε' l' m' w' M o o' U V β α γ d1 dA e m1 m2 g P Q)
include h

omit [IsAlgClosed L] in
theorem inj2 {r : MPoint A0} (k : ℕ) (hk : 2 ^ k • r = 0) (hr : g • γ (α r) = 0) : r = 0 := by
  obtain ⟨a1, a2, a3, a4, a5⟩ := h.dia.odds
  rw [← map_nsmul, ← map_nsmul] at hr
  have := (h.dia.hα.comp h.dia.hγ).kill _ hr
  rw [← mul_nsmul'] at this
  refine tors_cop (Diamond.cop_pow k ?_) this hk
  rw [Nat.mul_mod, Nat.mul_mod dA, a2, a5, h.dia.g_odd]

omit [IsAlgClosed L] in
theorem inj1 {r : MPoint A0} (hr : 2 ^ n • r = 0) (h0 : β r = 0) : r = 0 := by
  obtain ⟨a1, a2, a3, a4, a5⟩ := h.dia.odds
  exact tors_cop (Diamond.cop_pow n a3) (h.dia.hβ.kill _ h0) hr

theorem not_all {c : L × L} {W : MPoint E.E1.A × MPoint E.E2.A → L × L} (hW : Net c (fun _ => True) W)
    (hk : ∀ x ∈ hW.ker, ∃ a b : ℤ, x = (β (a • P + b • Q), g • γ (α (a • P + b • Q))))
    (hk' : ∀ a b : ℤ, (β (a • P + b • Q), g • γ (α (a • P + b • Q))) ∈ hW.ker) : False := by
  have h2 := h.g1.two
  obtain ⟨P', hP'⟩ := smul_surj h2 h.dia.disc two_ne_zero P
  have hn := h.three
  have pow : 2 ^ (n - 1) * 2 = 2 ^ n := by rw [← pow_succ]; congr 1; omega
  let H : ℤ → ℤ → MPoint A0 := fun i j => (i * 2 ^ (n - 1)) • P + (j * 2 ^ (n - 1)) • Q
  have H2 : ∀ i j, H i j + H i j = 0 := by
    intro i j
    have e : H i j + H i j = (i * (2 ^ n : ℕ)) • P + (j * (2 ^ n : ℕ)) • Q := by
      change (i * 2 ^ (n - 1)) • P + (j * 2 ^ (n - 1)) • Q + ((i * 2 ^ (n - 1)) • P + (j * 2 ^ (n - 1)) • Q) = _
      rw [← pow]; push_cast
      rw [← mul_assoc, ← mul_assoc, mul_two, mul_two, add_zsmul, add_zsmul]; abel
    rw [e]
    exact (h.dia.basis _ _).mpr ⟨dvd_mul_left _ _, dvd_mul_left _ _⟩
  have Hn : ∀ i j, 2 ^ n • H i j = 0 := fun i j => h.dia.combo_tors _ _
  let x : ℤ → ℤ → ℤ → MPoint E.E1.A × MPoint E.E2.A := fun i j k => (β (H i j + k • P'), g • γ (α (k • P')))
  have x2 : ∀ i j k, x i j k + x i j k ∈ hW.ker := by
    intro i j k
    have := hk' k 0
    rw [zero_zsmul, add_zero, ← hP'] at this
    refine Eq.subst (motive := fun y => y ∈ hW.ker) ?_ this
    refine Prod.ext ?_ ?_
    · change β (k • 2 • P') = β (H i j + k • P') + β (H i j + k • P')
      rw [← map_add, show H i j + k • P' + (H i j + k • P') = (H i j + H i j) + (k • P' + k • P') by abel, H2, zero_add, ← two_nsmul,
        smul_comm]
    · change g • γ (α (k • 2 • P')) = g • γ (α (k • P')) + g • γ (α (k • P'))
      rw [← nsmul_add, ← map_add, ← map_add, ← two_nsmul, smul_comm]
  have xsub : ∀ i j k i' j' k', x i j k - x i' j' k' ∈ hW.ker → 2 ∣ i - i' ∧ 2 ∣ j - j' ∧ 2 ∣ k - k' := by
    intro i j k i' j' k' hx
    have e : x i j k - x i' j' k' = x (i - i') (j - j') (k - k') := by
      have eH : H i j - H i' j' = H (i - i') (j - j') := by
        change _ = ((i - i') * 2 ^ (n - 1)) • P + ((j - j') * 2 ^ (n - 1)) • Q
        rw [sub_mul, sub_mul, sub_zsmul, sub_zsmul]
        change (i * 2 ^ (n - 1)) • P + (j * 2 ^ (n - 1)) • Q - ((i' * 2 ^ (n - 1)) • P + (j' * 2 ^ (n - 1)) • Q) = _
        abel
      refine Prod.ext ?_ ?_
      · change β (H i j + k • P') - β (H i' j' + k' • P') = β (H (i - i') (j - j') + (k - k') • P')
        rw [← map_sub, ← eH, sub_zsmul]
        congr 1
        abel
      · change g • γ (α (k • P')) - g • γ (α (k' • P')) = g • γ (α ((k - k') • P'))
        rw [← nsmul_sub, ← map_sub, ← map_sub, sub_zsmul, sub_eq_add_neg]
    rw [e] at hx
    generalize i - i' = i at *
    generalize j - j' = j at *
    generalize k - k' = k at *
    clear e i' j' k'
    obtain ⟨a, b, hab⟩ := hk _ hx
    have e1 : β (H i j + k • P') = β (a • P + b • Q) := congrArg Prod.fst hab
    have e2 : g • γ (α (k • P')) = g • γ (α (a • P + b • Q)) := congrArg Prod.snd hab
    have hr := h.dia.combo_tors a b
    generalize a • P + b • Q = r at *
    have pP : 2 ^ n • P = 0 := by simpa using h.dia.combo_tors 1 0
    have er : k • P' = r := by
      rw [← sub_eq_zero]
      refine h.inj2 (n + 1) ?_ ?_
      · rw [nsmul_sub, pow_succ, mul_nsmul', smul_comm _ k, hP', smul_comm, pP, smul_zero, mul_nsmul, hr, smul_zero, sub_zero]
      · rw [map_sub, map_sub, nsmul_sub, e2, sub_self]
    have e0 : H i j = 0 := by
      refine h.inj1 (Hn i j) ?_
      rw [er, map_add, add_eq_right] at e1
      exact e1
    have dv : ∀ {i : ℤ}, ((2 ^ n : ℕ) : ℤ) ∣ i * 2 ^ (n - 1) → 2 ∣ i := by
      intro i hi
      rw [← pow] at hi
      push_cast at hi
      rw [mul_comm] at hi
      exact Int.dvd_of_mul_dvd_mul_right (pow_ne_zero _ two_ne_zero) hi
    obtain ⟨c1, c2⟩ := (h.dia.basis _ _).mp e0
    refine ⟨dv c1, dv c2, ?_⟩
    have : (k * 2 ^ (n - 1)) • P + (0 : ℤ) • Q = 0 := by
      rw [zero_zsmul, add_zero, ← hP', ← hr, ← er, ← pow, ← natCast_zsmul, ← natCast_zsmul, ← mul_zsmul, ← mul_zsmul]
      congr 1
      push_cast
      ring
    exact dv ((h.dia.basis _ _).mp this).1
  obtain ⟨E', -, hE, hA⟩ := C50_curve h2 hW.null
  choose f hf using fun v : Fin 2 × Fin 2 × Fin 2 => exists_tr h2 hW.null (hW.ne (x := x v.1 v.2.1 v.2.2) trivial)
  have f2 : ∀ v, 2 • f v = 0 := fun v => hW.two_smul (x2 _ _ _) (hf v)
  have dis : nullToMontCoeff c * nullToMontCoeff c ≠ 4 := by rw [← hA]; exact hE.disc
  have hle := tors_le h2 dis (n := 2) two_ne_zero
  have : Finite (tors (MPoint (nullToMontCoeff c)) 2) := (torsion_finite h2 dis two_ne_zero).to_subtype
  have hinj : Function.Injective (fun v => (⟨f v, f2 v⟩ : tors (MPoint (nullToMontCoeff c)) 2)) := by
    rintro v v' e
    have e : f v = f v' := congrArg Subtype.val e
    have key : x v.1 v.2.1 v.2.2 - x v'.1 v'.2.1 v'.2.2 ∈ hW.ker := by
      have hf' := hf v'
      rw [← e] at hf'
      rcases hW.pair rfl trivial trivial trivial trivial (hf v) hf' with ⟨-, e⟩ | ⟨e, -⟩
      · rw [sub_self] at e
        exact e.isNull hW.null (hW.ne trivial)
      · rw [sub_self] at e
        have : x v.1 v.2.1 v.2.2 + x v'.1 v'.2.1 v'.2.2 ∈ hW.ker := e.isNull hW.null (hW.ne trivial)
        have := sub_mem this (x2 v'.1 v'.2.1 v'.2.2)
        rwa [add_sub_add_right_eq_sub] at this
    obtain ⟨c1, c2, c3⟩ := xsub _ _ _ _ _ _ key
    obtain ⟨⟨i, hi⟩, ⟨j, hj⟩, ⟨k, hk⟩⟩ := v
    obtain ⟨⟨i', hi'⟩, ⟨j', hj'⟩, ⟨k', hk'⟩⟩ := v'
    simp only [Prod.mk.injEq, Fin.mk.injEq]
    simp only at c1 c2 c3
    omega
  have := Nat.card_le_card_of_injective _ hinj
  simp only [Nat.card_eq_fintype_card, Fintype.card_prod, Fintype.card_fin] at this hle
  omega

/-- A sum of the two curves gives all of the product. -/
theorem sum_all (T1 : MPoint A0) (T2 : MPoint AF) : ∃ T T', (β T1, γ T2) =
    ((m1 * dA) • β T, -(m2 • γ (α T))) + ((m2 * e) • β T', (m1 * d1) • γ (α T')) ∧
      2 ^ n • α T = (m1 * d1) • α T1 - (m2 * e) • T2 := by
  have h2 := h.g1.two
  obtain ⟨S2, rfl⟩ := h.dia.hα.surj T2
  obtain ⟨R1, hR1⟩ := smul_surj h2 h.dia.disc (n := 2 ^ n) (pow_ne_zero _ two_ne_zero) T1
  obtain ⟨R2, hR2⟩ := smul_surj h2 h.dia.disc (n := 2 ^ n) (pow_ne_zero _ two_ne_zero) S2
  subst hR1; subst hR2
  refine ⟨(m1 * d1) • R1 - (m2 * e) • R2, m2 • R1 + (m1 * dA) • R2, ?_, ?_⟩
  · refine Prod.ext ?_ ?_
    · change β (2 ^ n • R1) = (m1 * dA) • β ((m1 * d1) • R1 - (m2 * e) • R2) + (m2 * e) • β (m2 • R1 + (m1 * dA) • R2)
      rw [← map_nsmul, ← map_nsmul, ← map_add, ← h.dia.norm]
      congr 1
      simp only [← natCast_zsmul]
      push_cast
      module
    · change γ (α (2 ^ n • R2)) = -(m2 • γ (α ((m1 * d1) • R1 - (m2 * e) • R2))) + (m1 * d1) • γ (α (m2 • R1 + (m1 * dA) • R2))
      rw [← map_nsmul, ← map_nsmul, ← map_nsmul, ← map_nsmul, ← map_neg, ← map_neg, ← map_add, ← map_add, ← h.dia.norm]
      congr 2
      simp only [← natCast_zsmul]
      push_cast
      module
  · rw [map_sub, map_nsmul, map_nsmul, map_nsmul, map_nsmul, nsmul_sub, smul_comm (2 ^ n), smul_comm (2 ^ n)]

/-- Each of the two curves has its component. -/
theorem split : (∀ T, ((m1 * dA) • β T, -(m2 • γ (α T))) ∈ h.net.netU.ker ∧ ((m2 * e) • β T, (m1 * d1) • γ (α T)) ∈ h.net.netV.ker) ∨
    ∀ T, ((m1 * dA) • β T, -(m2 • γ (α T))) ∈ h.net.netV.ker ∧ ((m2 * e) • β T, (m1 * d1) • γ (α T)) ∈ h.net.netU.ker := by
  have all : ∀ x : MPoint E.E1.A × MPoint E.E2.A, ∃ T T', x =
      ((m1 * dA) • β T, -(m2 • γ (α T))) + ((m2 * e) • β T', (m1 * d1) • γ (α T')) := by
    rintro ⟨x1, x2⟩
    obtain ⟨T1, rfl⟩ := h.dia.hβ.surj x1
    obtain ⟨T2, rfl⟩ := h.dia.hγ.surj x2
    obtain ⟨T, T', e, -⟩ := h.sum_all T1 T2
    exact ⟨T, T', e⟩
  rcases h.compF with f | f <;> rcases h.compH with k | k
  · exfalso
    refine h.not_all h.net.netV (fun x hx => h.graph_of ?_ hx) fun a b => (h.graph_mem a b).2
    obtain ⟨T, T', rfl⟩ := all x
    exact add_mem (f T) (k T')
  · exact .inl fun T => ⟨f T, k T⟩
  · exact .inr fun T => ⟨f T, k T⟩
  · exfalso
    refine h.not_all h.net.netU (fun x hx => h.graph_of hx ?_) fun a b => (h.graph_mem a b).1
    obtain ⟨T, T', rfl⟩ := all x
    exact add_mem (f T) (k T')

omit [IsAlgClosed L] in
/-- What the first curve puts into the kernel. -/
theorem of_kerF {T : MPoint A0} (hU : ((m1 * dA) • β T, -(m2 • γ (α T))) ∈ h.net.netU.ker)
    (hV : ((m1 * dA) • β T, -(m2 • γ (α T))) ∈ h.net.netV.ker) : 2 ^ n • α T = 0 := by
  obtain ⟨a, b, eq⟩ := h.graph_of hU hV
  have hr := h.dia.combo_tors a b
  have e1 : (m1 * dA) • β T = β (a • P + b • Q) := congrArg Prod.fst eq
  have e2 : -(m2 • γ (α T)) = g • γ (α (a • P + b • Q)) := congrArg Prod.snd eq
  generalize a • P + b • Q = r at *
  have k1 : (m1 ^ 2 * dA * d1) • T = (m1 * d1) • r := by
    have : d1 • ((m1 * dA) • T - r) = 0 := h.dia.hβ.kill _ (by rw [map_sub, map_nsmul, e1, sub_self])
    have := congrArg (fun y => m1 • y) this
    simp only [smul_zero, nsmul_sub, ← mul_nsmul'] at this
    rw [← sub_eq_zero, ← this, show m1 ^ 2 * dA * d1 = m1 * (d1 * (m1 * dA)) by ring]
  have k2 : (m2 ^ 2 * e) • α T = -((g * (m2 * e)) • α r) := by
    have : e • (m2 • α T + g • α r) = 0 := h.dia.hγ.kill _ (by rw [map_add, map_nsmul, map_nsmul, ← e2, add_neg_cancel])
    have := congrArg (fun y => m2 • y) this
    simp only [smul_zero, nsmul_add, ← mul_nsmul'] at this
    rw [eq_neg_iff_add_eq_zero, ← this, show m2 ^ 2 * e = m2 * (e * m2) by ring, show g * (m2 * e) = m2 * (e * g) by ring]
  have k3 : (m1 * d1) • r = (g * (m2 * e)) • r := by
    have := Diamond.tors_zsmul hr (k := (m1 * d1 : ℕ)) (l := (g * (m2 * e) : ℕ)) (Nat.modEq_iff_dvd.mp h.dia.hg)
    rwa [natCast_zsmul, natCast_zsmul] at this
  rw [← h.dia.norm, add_nsmul, k2, ← map_nsmul, k1, k3, map_nsmul, add_neg_cancel]

end KaniData
end Festa
