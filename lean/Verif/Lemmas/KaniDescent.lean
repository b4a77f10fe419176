import Verif.Props.Product
import Verif.Lemmas.KaniUp
/-! From the isomorphism over the closure to the one of the code. -/
namespace Festa
open WeierstrassCurve WeierstrassCurve.Affine

section
variable {K : Type*} [Field K]

/-- The equations for `x ↦ u x + v` from `y² = x³ + A x² + x` to `y² = x³ + B x² + x`. -/
structure Aff (A B u v : K) : Prop where
  ne : u ≠ 0
  e1 : 3 * v + B = u * A
  e2 : 3 * v * v + 2 * B * v + 1 = u * u
  e3 : v * (v * v + B * v + 1) = 0

theorem Aff.comp {A B C u v u' v' : K} (h : Aff A B u v) (h' : Aff B C u' v') : Aff A C (u' * u) (u' * v + v') :=
  ⟨mul_ne_zero h'.ne h.ne, by linear_combination h'.e1 + u' * h.e1,
    by linear_combination h'.e2 + 2 * u' * v * h'.e1 + u' ^ 2 * h.e2,
    by linear_combination h'.e3 + u' * v * h'.e2 + u' ^ 2 * v ^ 2 * h'.e1 + u' ^ 3 * h.e3⟩

theorem Aff.auto {A u v : K} (h : Aff A A u v) (h0 : A ≠ 0) (h3 : A * A ≠ 3) (h9 : 2 * (A * A) ≠ 9) : u = 1 ∧ v = 0 := by
  have hv : v = 0 := by
    by_contra hv
    have e3 := (mul_eq_zero.mp h.e3).resolve_left hv
    have : v * ((3 - A * A) * (3 * v + 2 * A)) = 0 := by
      linear_combination (3 * v + A + u * A) * h.e1 - A ^ 2 * h.e2
    have := ((mul_eq_zero.mp this).resolve_left hv)
    have := (mul_eq_zero.mp this).resolve_left (sub_ne_zero.mpr h3.symm)
    exact h9 (by linear_combination (3 * v + A) * this - 9 * e3)
  subst hv
  exact ⟨mul_right_cancel₀ h0 (by linear_combination -h.e1), rfl⟩

theorem Aff.ne_zero {A B u v : K} (h : Aff A B u v) (h0 : A ≠ 0) (h9 : 2 * (A * A) ≠ 9) : B ≠ 0 := by
  rintro rfl
  have e1 := h.e1
  have e2 := h.e2
  rcases mul_eq_zero.mp h.e3 with rfl | e3
  · exact mul_ne_zero h.ne h0 (by linear_combination -e1)
  · exact h9 (by linear_combination -9 * e3 - A ^ 2 * e2 + (3 * v + u * A) * e1 + 3 * A ^ 2 * e3)

theorem Aff.ne_three {A B u v : K} (h : Aff A B u v) (h3 : A * A ≠ 3) : B * B ≠ 3 := by
  intro hB
  have : u * u * (A * A - 3) = 0 := by linear_combination hB - (3 * v + B + u * A) * h.e1 + 3 * h.e2
  exact h3 (sub_eq_zero.mp ((mul_eq_zero.mp this).resolve_left (mul_ne_zero h.ne h.ne)))

theorem Aff.cubic {A B u v : K} (h : Aff A B u v) (x : K) :
    (u * x + v) * ((u * x + v) * (u * x + v) + B * (u * x + v) + 1) = u ^ 3 * (x * (x * x + A * x + 1)) := by
  linear_combination h.e3 + u * x * h.e2 + u ^ 2 * x ^ 2 * h.e1

theorem Aff.isoOver {A B u v s : K} (h : Aff A B u v) (hs : u = s * s) : IsoOver B A := by
  have hs0 : s ≠ 0 := by rintro rfl; exact h.ne (by rw [hs, mul_zero])
  refine ⟨⟨Units.mk0 s hs0, v, 0, 0⟩, ?_⟩
  rw [variableChange_def]
  have e1 := h.e1
  have e2 := h.e2
  have e3 := h.e3
  rw [hs] at e1 e2
  ext
  · simp [mont]
  · simp only [mont, Units.val_inv_eq_inv_val, Units.val_mk0]
    field_simp
    linear_combination e1
  · simp [mont]
  · simp only [mont, Units.val_inv_eq_inv_val, Units.val_mk0]
    field_simp
    linear_combination e2
  · simp only [mont, Units.val_inv_eq_inv_val, Units.val_mk0]
    field_simp
    linear_combination e3

theorem Aff.up_inj {L : Type*} [Field L] (σ : K →+* L) {A B u v : K} (h : Aff (σ A) (σ B) (σ u) (σ v)) : Aff A B u v := by
  have i := σ.injective
  refine ⟨fun e => h.ne (by rw [e, map_zero]), i ?_, i ?_, i ?_⟩
  · simpa [map_ofNat σ 2, map_ofNat σ 3] using h.e1
  · simpa [map_ofNat σ 2, map_ofNat σ 3] using h.e2
  · simpa using h.e3

theorem Aff.up {L : Type*} [Field L] (σ : K →+* L) {A B u v : K} (h : Aff A B u v) : Aff (σ A) (σ B) (σ u) (σ v) := by
  refine ⟨(map_ne_zero σ).mpr h.ne, ?_, ?_, ?_⟩
  · simpa [map_ofNat σ 2, map_ofNat σ 3] using congrArg σ h.e1
  · simpa [map_ofNat σ 2, map_ofNat σ 3] using congrArg σ h.e2
  · simpa using congrArg σ h.e3

/-- Three roots. -/
theorem three_roots {A a b c : K} (ha : a * (a * a + A * a + 1) = 0) (hb : b * (b * b + A * b + 1) = 0)
    (hc : c * (c * c + A * c + 1) = 0) (hab : a ≠ b) (hac : a ≠ c) (hbc : b ≠ c) (x : K) :
    x * (x * x + A * x + 1) = (x - a) * (x - b) * (x - c) := by
  have h1 : a * a + a * b + b * b + A * (a + b) + 1 = 0 := mul_left_cancel₀ (sub_ne_zero.mpr hab) (by linear_combination ha - hb)
  have h2 : a * a + a * c + c * c + A * (a + c) + 1 = 0 := mul_left_cancel₀ (sub_ne_zero.mpr hac) (by linear_combination ha - hc)
  have h3 : a + b + c + A = 0 := mul_left_cancel₀ (sub_ne_zero.mpr hbc) (by linear_combination h1 - h2)
  linear_combination ha + x ^ 2 * h3 - a ^ 2 * h3 + x * h1 - x * (a + b) * h3 - a * h1 + a * (a + b) * h3

variable [DecidableEq K]

theorem two_tors {A : K} (h2 : (2 : K) ≠ 0) {T : MPoint A} (h : 2 • T = 0) (h0 : T ≠ 0) :
    ∃ e k, T = .some e 0 k := by
  rcases T with _ | ⟨x, y, k⟩
  · exact absurd rfl h0
  · have hy : y = 0 := by
      by_contra hy
      rw [two_nsmul] at h
      obtain ⟨h3, e3⟩ := add_dbl (h := k) (h' := k) h2 hy (div_mul_cancel₀ _ (mul_ne_zero h2 hy))
      rw [e3] at h
      cases h
    subst hy
    exact ⟨x, k, rfl⟩

omit [DecidableEq K] in
theorem tors_root {A e : K} (k : (mont A).Nonsingular e 0) : e * (e * e + A * e + 1) = 0 := by
  linear_combination -(curve_eq k)

/-- Below a point of order eight the difference of the abscissae is a square. -/
theorem eight_square {A t e yT : K} (h2 : (2 : K) ≠ 0) {X : MPoint A} {h : (mont A).Nonsingular t yT} {k : (mont A).Nonsingular e 0}
    (hX : 2 • X = .some t yT h) (hT : 2 • (Point.some t yT h : MPoint A) = .some e 0 k) : IsSquare (t - e) := by
  obtain ⟨hy, hte, hr, hd⟩ := four_tangent h2 hT
  rcases X with _ | ⟨x, y, c⟩
  · rw [show (Point.zero : MPoint A) = 0 from rfl, nsmul_zero] at hX
    cases hX
  · obtain ⟨hy0, l, h1, h3, -⟩ := two_tangent h2 hX
    have c := curve_eq c
    have h2y : 2 * y ≠ 0 := mul_ne_zero h2 hy0
    refine ⟨((x - e) ^ 2 - (3 * e * e + 2 * A * e + 1)) / (2 * y), ?_⟩
    rw [div_mul_div_comm, eq_div_iff (mul_ne_zero h2y h2y), h3]
    linear_combination (l * (2 * y) + (3 * x * x + 2 * A * x + 1)) * h1 - 4 * (A + 2 * x + e) * c - (8 * x + 4 * A + 4 * e) * hr

end

section
variable {K L : Type*} [Field K] [Field L] [DecidableEq K] (σ : K →+* L)

/-- With points of order eight over the smaller field the isomorphism is defined there. -/
theorem Aff.descend {A B r i : K} (h2 : (2 : K) ≠ 0) (hi : i * i = -1) (hr0 : r ≠ 0) (hr : r * B = -(r * r + 1)) {P Q : MPoint A}
    (hb : IsBasis 8 P Q) {u v : L} (h : Aff (σ A) (σ B) u v) :
    ∃ u' v' s : K, u = σ u' ∧ v = σ v' ∧ u' = s * s ∧ Aff A B u' v' := by
  have e8 : ∀ x y : ℤ, x • P + y • Q = 0 ↔ (8 : ℤ) ∣ x ∧ (8 : ℤ) ∣ y := hb
  -- the points of order two
  have hP : ∀ x y : ℤ, 8 • (x • P + y • Q) = 0 := by
    intro x y
    have := (e8 (8 * x) (8 * y)).mpr ⟨⟨x, rfl⟩, ⟨y, rfl⟩⟩
    rw [← this, nsmul_add, ← natCast_zsmul, ← natCast_zsmul, ← mul_zsmul', ← mul_zsmul']
    simp [mul_comm]
  have tt : ∀ x y : ℤ, ¬ ((2 : ℤ) ∣ x ∧ (2 : ℤ) ∣ y) → ∃ e k, 4 • (x • P + y • Q) = .some e 0 k := by
    intro x y hxy
    refine two_tors h2 (by rw [← mul_nsmul']; exact hP x y) fun h => hxy ?_
    have : (4 * x) • P + (4 * y) • Q = 0 := by
      rw [← h, nsmul_add, ← natCast_zsmul, ← natCast_zsmul, ← mul_zsmul', ← mul_zsmul']; simp [mul_comm]
    have := (e8 _ _).mp this
    omega
  have ne : ∀ x y x' y' : ℤ, ¬ ((2 : ℤ) ∣ x - x' ∧ (2 : ℤ) ∣ y - y') → ∀ {e k e' k'},
      4 • (x • P + y • Q) = .some e 0 k → 4 • (x' • P + y' • Q) = .some e' 0 k' → e ≠ e' := by
    intro x y x' y' hn e k e' k' h1 h1' he
    subst he
    apply hn
    have : (4 * (x - x')) • P + (4 * (y - y')) • Q = 0 := by
      have : 4 • (x • P + y • Q) - 4 • (x' • P + y' • Q) = 0 := by rw [h1, h1', sub_self]
      rw [← this]
      module
    have := (e8 _ _).mp this
    omega
  obtain ⟨a, ka, ea⟩ := tt 1 0 (by omega)
  obtain ⟨b, kb, eb⟩ := tt 0 1 (by omega)
  obtain ⟨c, kc, ec⟩ := tt 1 1 (by omega)
  have hab : a ≠ b := ne _ _ _ _ (by omega) ea eb
  have hac : a ≠ c := ne _ _ _ _ (by omega) ea ec
  have hbc : b ≠ c := ne _ _ _ _ (by omega) eb ec
  -- rationality
  have hB : ∀ z : L, z * (z * z + σ B * z + 1) = 0 → ∃ f, z = σ f := by
    intro z hz
    have hσr : σ r ≠ 0 := (map_ne_zero σ).mpr hr0
    have hr' : σ r * σ B = -(σ r * σ r + 1) := by simpa using congrArg σ hr
    have : z * ((z - σ r) * (σ r * z - 1)) = 0 := by linear_combination σ r * hz - z ^ 2 * hr'
    rcases mul_eq_zero.mp this with h | h
    · exact ⟨0, by rw [h, map_zero]⟩
    · rcases mul_eq_zero.mp h with h | h
      · exact ⟨r, sub_eq_zero.mp h⟩
      · refine ⟨r⁻¹, ?_⟩
        rw [map_inv₀]
        field_simp
        linear_combination h
  have hf : ∀ e : K, e * (e * e + A * e + 1) = 0 → ∃ f, u * σ e + v = σ f := by
    intro e he
    apply hB
    rw [h.cubic]
    have : σ e * (σ e * σ e + σ A * σ e + 1) = 0 := by simpa using congrArg σ he
    rw [this, mul_zero]
  obtain ⟨fa, hfa⟩ := hf a (tors_root ka)
  obtain ⟨fb, hfb⟩ := hf b (tors_root kb)
  have hd : σ a - σ b ≠ 0 := by rw [← map_sub]; exact (map_ne_zero σ).mpr (sub_ne_zero.mpr hab)
  obtain ⟨u', rfl⟩ : ∃ u', u = σ u' :=
    ⟨(fa - fb) / (a - b), by
      rw [map_div₀, map_sub, map_sub, eq_div_iff hd]; linear_combination hfa - hfb⟩
  obtain ⟨v', rfl⟩ : ∃ v', v = σ v' := ⟨fa - u' * a, by rw [map_sub, map_mul]; linear_combination hfa⟩
  have h := h.up_inj
  refine ⟨u', v', ?_⟩
  -- the point above `(0, 0)`
  obtain ⟨x, y, e, k, hX, he⟩ : ∃ (x y : ℤ) (e : K) (k : _), 4 • (x • P + y • Q) = .some e 0 k ∧ u' * e + v' = 0 := by
    have h0 := h.cubic (-v' / u')
    rw [mul_div_cancel₀ _ h.ne, neg_add_cancel, zero_mul] at h0
    have h0 := ((mul_eq_zero.mp h0.symm).resolve_left (pow_ne_zero _ h.ne))
    rw [three_roots (tors_root ka) (tors_root kb) (tors_root kc) hab hac hbc] at h0
    have fin : ∀ e : K, -v' / u' - e = 0 → u' * e + v' = 0 := by
      intro e h
      rw [← sub_eq_zero.mp h, mul_div_cancel₀ _ (by assumption : Aff A B u' v').ne, neg_add_cancel]
    rcases mul_eq_zero.mp h0 with h0 | h0
    · rcases mul_eq_zero.mp h0 with h0 | h0
      · exact ⟨_, _, _, _, ea, fin _ h0⟩
      · exact ⟨_, _, _, _, eb, fin _ h0⟩
    · exact ⟨_, _, _, _, ec, fin _ h0⟩
  generalize x • P + y • Q = X at hX
  rw [show (4 : ℕ) = 2 * 2 from rfl, mul_nsmul'] at hX
  obtain ⟨t, yT, kT, hT⟩ : ∃ t yT kT, 2 • X = .some t yT kT := by
    rcases h : 2 • X with _ | ⟨t, yT, kT⟩
    · rw [h, show (Point.zero : MPoint A) = 0 from rfl, nsmul_zero] at hX
      cases hX
    · exact ⟨t, yT, kT, rfl⟩
  rw [hT] at hX
  obtain ⟨s0, hs0⟩ := eight_square h2 hT hX
  obtain ⟨-, hte, -, hd⟩ := four_tangent h2 hX
  have hs : s0 ≠ 0 := by rintro rfl; exact hte (by rw [hs0, mul_zero])
  have hv : v' = -(u' * e) := by linear_combination he
  have key : (u' * (t - e)) ^ 2 = 1 := by
    have e1 := h.e1
    have e2 := h.e2
    rw [hv] at e1 e2
    linear_combination -e2 - 2 * u' * e * e1 - u' ^ 2 * hd
  rw [hs0] at key
  rcases mul_eq_zero.mp (show (u' * (s0 * s0) - 1) * (u' * (s0 * s0) + 1) = 0 by linear_combination key) with h' | h'
  · exact ⟨s0⁻¹, rfl, rfl, by field_simp; linear_combination h', h⟩
  · exact ⟨i * s0⁻¹, rfl, rfl, by field_simp; linear_combination h' - hi, h⟩

end

section
variable {K : Type} [Field K] [DecidableEq K] [RootOps K]

/-- The isomorphism found by the code, with its action on the abscissae. -/
theorem FoundIso.map_x {E E' : Crv K} (h1 : E.Good) (h2 : E'.Good) (h : FoundIso E E') :
    ∃ (u v : K) (φ : MPoint E.A ≃+ MPoint E'.A), Aff E.A E'.A u v ∧ (∀ R, R ≠ 0 → xc (φ R) = u * xc R + v) ∧
      ∀ (P : Pt K) (R : MPoint E.A), PRep P R → R ≠ 0 →
        PRep (if E.A = E'.A then P else (CrvIso.new E E').eval P) (φ R) := by
  by_cases e : E.A = E'.A
  · obtain ⟨A, a⟩ := E
    obtain ⟨A', a'⟩ := E'
    simp only at e
    subst e
    exact ⟨1, 0, AddEquiv.refl _, ⟨one_ne_zero, by ring, by ring, by ring⟩, fun R _ => by simp, fun P R hP _ => by simpa using hP⟩
  obtain ⟨hiso, hne, ha1, ha2, h3⟩ := h.resolve_left e
  obtain ⟨u, v, w0, hw0, hu, e1, e2, e3⟩ := isoOver_elim h1.two hiso
  have hu0 : u ≠ 0 := by rw [hu]; exact mul_ne_zero hw0 hw0
  have hv : v ≠ 0 := by
    rintro rfl
    apply hne
    have huu : u * u = 1 := by linear_combination -e2
    linear_combination (-(E.A * E.A)) * huu - (u * E.A + E'.A) * e1
  have e3' : v * v + E'.A * v + 1 = 0 := (mul_eq_zero.mp e3).resolve_left hv
  have h3' : 3 - E.A * E.A ≠ 0 := sub_ne_zero.mpr h3.symm
  have cv : (CrvIso.new E E').v = v := by
    simp only [CrvIso.new]
    rw [div_eq_iff (mul_ne_zero ha2 h3')]
    linear_combination (3 * v + E'.A + u * E.A) * e1 - E.A ^ 2 * e2 - (9 - 3 * E.A ^ 2) * e3'
  have cu : (CrvIso.new E E').u = u := by
    have : (CrvIso.new E E').u = (3 * (CrvIso.new E E').v + E'.A) / E.A := rfl
    rw [this, cv, e1, mul_div_cancel_right₀ _ ha1]
  obtain ⟨φ, hφ⟩ := C31_isomorphism_partial h1 h2 hiso hne ha1 ha2 h3
  refine ⟨u, v, φ, ⟨hu0, e1, e2, e3⟩, fun R hR => ?_, fun P R hP hR => by rw [if_neg e]; exact hφ P R hP hR⟩
  rcases R with _ | ⟨x, y, k⟩
  · exact absurd rfl hR
  · have hP : PRep (⟨x, y, 1⟩ : Pt K) (.some x y k : MPoint E.A) := ⟨one_ne_zero, (mul_one _).symm, (mul_one _).symm⟩
    have := hφ _ _ hP hR
    have hn : φ (.some x y k) ≠ 0 := fun h => hR (φ.injective (by rw [h, map_zero]))
    generalize φ (.some x y k) = T at this hn
    rcases T with _ | ⟨x', y', k'⟩
    · exact absurd rfl hn
    · have := this.2.1
      simp only [CrvIso.eval, Pt.newXY, cu, cv, mul_one, ((C24_to_xy hP).2 x y k rfl).2] at this
      exact this.symm

variable {L : Type*} [Field L] [DecidableEq L] (σ : K →+* L)

/-- One part of the chain is the isomorphic image of `φ` over the closure: then the isomorphism of the code
brings it to `± φ`. -/
theorem PartIs.found {E : EProd K} {N : MPoint E.E1.A × MPoint E.E2.A → Prop} {c : K × K} {W : MPoint E.E1.A × MPoint E.E2.A → K × K} {A0 : L}
    {EA F : Crv K} (hEA : EA.Good) (hF : F.Good) (hFA : F.A = nullToMontCoeff c) (hc : c.1 * c.1 + c.2 * c.2 ≠ 0) (hc' : c.1 * c.1 - c.2 * c.2 ≠ 0)
    {P8 Q8 : MPoint EA.A} (hb : IsBasis 8 P8 Q8) (a0 : EA.A ≠ 0) (a3 : EA.A * EA.A ≠ 3) (a9 : 2 * (EA.A * EA.A) ≠ 9)
    (hn : F.A ≠ -EA.A)
    {β : MPoint A0 →+ MPoint (E.up σ).E1.A} {γ : MPoint (σ EA.A) →+ MPoint (E.up σ).E2.A} {φ : MPoint A0 × MPoint (σ EA.A) → MPoint (σ EA.A)}
    (h : PartIs σ N c W β γ φ) :
    FoundIso F EA ∧ ∃ θ : MPoint F.A ≃+ MPoint EA.A,
      (∀ (P : Pt K) (R : MPoint F.A), PRep P R → R ≠ 0 → PRep (if F.A = EA.A then P else (CrvIso.new F EA).eval P) (θ R)) ∧
      ∀ x, N x → ∀ X1 X2, β X1 = mapHom σ x.1 → γ X2 = mapHom σ x.2 → ∀ Φ, Φ ≠ 0 → φ (X1, X2) = mapHom σ Φ →
        KRep (thetaToMontPoint c (W x)).X (thetaToMontPoint c (W x)).Z (θ.symm Φ) := by
  obtain ⟨u, v, w, ι, hu, hw, e1, e2, e3, hι, hk⟩ := h
  have hA : Aff (σ EA.A) (σ F.A) u v := by rw [hFA]; exact ⟨hu, e1, e2, e3⟩
  obtain ⟨u', v', t, rfl, rfl, ht, hA'⟩ := hA.descend σ hEA.two (i := RootOps.zeta) RootOps.zeta_sq
    (r := (c.1 * c.1 + c.2 * c.2) / (c.1 * c.1 - c.2 * c.2)) (div_ne_zero hc hc') (by
      rw [hFA]
      simp only [nullToMontCoeff]
      generalize c.1 * c.1 + c.2 * c.2 = T1 at hc ⊢
      generalize c.1 * c.1 - c.2 * c.2 = T2 at hc' ⊢
      field_simp) hb
  have hfound : FoundIso F EA := by
    by_cases s : F.A = EA.A
    · exact .inl s
    · exact .inr ⟨hA'.isoOver ht, fun h => (mul_self_eq_mul_self_iff.mp h).elim s hn, hA'.ne_zero a0 a9, a0, hA'.ne_three a3⟩
  refine ⟨hfound, ?_⟩
  obtain ⟨u0, v0, θ, hA0, hx, hP⟩ := hfound.map_x hF hEA
  refine ⟨θ, hP, fun x hxN X1 X2 b1 b2 Φ hΦ e => ?_⟩
  obtain ⟨k1, k2⟩ := (hA'.comp hA0).auto a0 a3 a9
  have hR0 : θ.symm Φ ≠ 0 := fun h => hΦ (by rw [← θ.apply_symm_apply Φ, h, map_zero])
  have hx1 := hx _ hR0
  rw [θ.apply_symm_apply] at hx1
  have hx2 : xc (θ.symm Φ) = u' * xc Φ + v' := by
    apply mul_left_cancel₀ hA0.ne
    linear_combination -hx1 - xc Φ * k1 - k2
  have := hk x hxN X1 X2 b1 b2
  have hm : mapHom σ Φ ≠ 0 := fun h => hΦ (mapPt_inj σ h)
  rw [e, krep_iff (fun h => hm (ι.injective (by rw [h, map_zero]))), (hι _ hm).1, show xc (mapHom σ Φ) = σ (xc Φ) from xc_mapPt σ Φ,
    ← map_mul, ← map_add, ← hx2, ← map_mul] at this
  rw [krep_iff hR0]
  exact ⟨fun h => this.1 (by rw [h, map_zero]), σ.injective this.2⟩

end
end Festa
