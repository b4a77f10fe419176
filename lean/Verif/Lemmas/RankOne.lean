import Verif.Lemmas.ClosedNet
import Verif.Lemmas.PolyIso
import Mathlib.RingTheory.EuclideanDomain
/-! Vectors of polynomials that are tensors; maps to the projective line that are constant. -/
namespace Festa
open WeierstrassCurve.Affine Polynomial Filter

section
variable {L : Type*} [Field L]

/-- A pair of polynomials without its common factor. -/
theorem coprime_part {a b : L[X]} (h : a ≠ 0 ∨ b ≠ 0) : ∃ g x y : L[X], g ≠ 0 ∧ a = g * x ∧ b = g * y ∧ IsCoprime x y := by
  classical
  have hg : EuclideanDomain.gcd a b ≠ 0 := by
    intro h0
    rw [EuclideanDomain.gcd_eq_zero_iff] at h0
    rcases h with h | h
    · exact h h0.1
    · exact h h0.2
  obtain ⟨x, hx⟩ := EuclideanDomain.gcd_dvd_left a b
  obtain ⟨y, hy⟩ := EuclideanDomain.gcd_dvd_right a b
  refine ⟨_, x, y, hg, hx, hy, EuclideanDomain.gcdA a b, EuclideanDomain.gcdB a b, ?_⟩
  have := EuclideanDomain.gcd_eq_gcd_ab a b
  refine mul_left_cancel₀ hg ?_
  generalize EuclideanDomain.gcd a b = g at *
  generalize EuclideanDomain.gcdA a b = u at *
  generalize EuclideanDomain.gcdB a b = v at *
  rw [mul_one]
  linear_combination -this - u * hx - v * hy

/-- A vector of polynomials whose values are tensors is a tensor. -/
theorem rank_one {w : ThPt L[X]} {d : ℕ} (hw : w.Deg d) (h0 : w ≠ ⟨0, 0, 0, 0⟩) (h : w.X * w.T = w.Y * w.Z) :
    ∃ (u0 u1 v0 v1 : L[X]) (du dv : ℕ), w = ⟨u0 * v0, u0 * v1, u1 * v0, u1 * v1⟩ ∧ (u0 ≠ 0 ∨ u1 ≠ 0) ∧ (v0 ≠ 0 ∨ v1 ≠ 0) ∧
      u0.natDegree ≤ du ∧ u1.natDegree ≤ du ∧ v0.natDegree ≤ dv ∧ v1.natDegree ≤ dv ∧ du + dv ≤ d := by
  obtain ⟨u0, u1, v0, v1, rfl⟩ : ∃ u0 u1 v0 v1 : L[X], w = ⟨u0 * v0, u0 * v1, u1 * v0, u1 * v1⟩ := by
    obtain ⟨x, y, z, t⟩ := w
    simp only at h
    by_cases hr : x ≠ 0 ∨ y ≠ 0
    · obtain ⟨g, a, b, hg, rfl, rfl, i, j, e⟩ := coprime_part hr
      have h' : a * t = b * z := mul_left_cancel₀ hg (by linear_combination h)
      refine ⟨g, i * z + j * t, a, b, ?_⟩
      simp only [ThPt.mk.injEq, true_and]
      constructor
      · linear_combination -z * e - j * h'
      · linear_combination -t * e + i * h'
    · push Not at hr
      by_cases hr' : z ≠ 0 ∨ t ≠ 0
      · obtain ⟨g, a, b, hg, rfl, rfl, -⟩ := coprime_part hr'
        exact ⟨0, g, a, b, by simp [hr.1, hr.2]⟩
      · push Not at hr'
        exact absurd (by rw [hr.1, hr.2, hr'.1, hr'.2]) h0
  have hu : u0 ≠ 0 ∨ u1 ≠ 0 := by
    by_contra hu
    push Not at hu
    exact h0 (by simp [hu.1, hu.2])
  have hv : v0 ≠ 0 ∨ v1 ≠ 0 := by
    by_contra hu
    push Not at hu
    exact h0 (by simp [hu.1, hu.2])
  have pick : ∀ {a b : L[X]}, (a ≠ 0 ∨ b ≠ 0) → ∃ c, (c = a ∨ c = b) ∧ c ≠ 0 ∧ c.natDegree = max a.natDegree b.natDegree := by
    intro a b hab
    by_cases ha : a = 0
    · exact ⟨b, .inr rfl, hab.resolve_left (not_not.mpr ha), by rw [ha, natDegree_zero, max_eq_right (Nat.zero_le _)]⟩
    · by_cases hb : b = 0
      · exact ⟨a, .inl rfl, ha, by rw [hb, natDegree_zero, max_eq_left (Nat.zero_le _)]⟩
      · rcases le_total a.natDegree b.natDegree with h | h
        · exact ⟨b, .inr rfl, hb, (max_eq_right h).symm⟩
        · exact ⟨a, .inl rfl, ha, (max_eq_left h).symm⟩
  obtain ⟨p, hp, p0, ep⟩ := pick hu
  obtain ⟨q, hq, q0, eq⟩ := pick hv
  refine ⟨u0, u1, v0, v1, _, _, rfl, hu, hv, le_max_left _ _, le_max_right _ _, le_max_left _ _, le_max_right _ _, ?_⟩
  rw [← ep, ← eq, ← natDegree_mul p0 q0]
  rcases hp with rfl | rfl <;> rcases hq with rfl | rfl
  · exact hw.X
  · exact hw.Y
  · exact hw.Z
  · exact hw.T
end

section
variable {L : Type*} [Field L] [DecidableEq L] [IsAlgClosed L] {A : L}

omit [IsAlgClosed L] in
theorem ev_two_smul_ne [IsAlgClosed L] (h2 : (2 : L) ≠ 0) (hA : A * A ≠ 4) (Q : MPoint A) : ∀ᶠ T : MPoint A in cofinite, 2 • T ≠ Q :=
  (tendsto_hom (φ := nsmulAddMonoidHom (α := MPoint A) 2) (torsion_finite h2 hA two_ne_zero)).eventually (ev_ne Q)

/-- For almost all points the translates by a finite set have different abscissae. -/
theorem ev_translates (h2 : (2 : L) ≠ 0) (hA : A * A ≠ 4) (S : Finset (MPoint A)) : ∀ᶠ T : MPoint A in cofinite,
    (∀ s ∈ S, T + s ≠ 0) ∧ ∀ s ∈ S, ∀ s' ∈ S, xc (T + s) = xc (T + s') → s = s' := by
  have e1 : ∀ᶠ T : MPoint A in cofinite, ∀ s ∈ S, T + s ≠ 0 := by
    rw [Finset.eventually_all]
    exact fun s _ => (tendsto_add s).eventually (ev_ne 0)
  have e2 : ∀ᶠ T : MPoint A in cofinite, ∀ s ∈ S, ∀ s' ∈ S, 2 • T ≠ -s - s' := by
    rw [Finset.eventually_all]
    intro s _
    rw [Finset.eventually_all]
    exact fun s' _ => ev_two_smul_ne h2 hA _
  filter_upwards [e1, e2] with T t1 t2
  refine ⟨t1, fun s hs s' hs' e => ?_⟩
  rcases (xc_eq_iff (t1 s hs) (t1 s' hs')).mp e with e | e
  · exact add_left_cancel e
  · refine absurd ?_ (t2 s hs s' hs')
    rw [two_nsmul]
    have : T + T = (T + s) + T - s := by abel
    rw [this, e]; abel

/-- A map to the line of degree less than the number of translations that leave it unchanged is constant. -/
theorem const_of_many (h2 : (2 : L) ≠ 0) (hA : A * A ≠ 4) {u0 u1 : L[X]} (hu : u0 ≠ 0 ∨ u1 ≠ 0) {d : ℕ} (d0 : u0.natDegree ≤ d)
    (d1 : u1.natDegree ≤ d) (S : Finset (MPoint A)) (hS : d < S.card)
    (hinv : ∀ᶠ T : MPoint A in cofinite, ∀ s ∈ S, u0.eval (xc (T + s)) * u1.eval (xc T) = u1.eval (xc (T + s)) * u0.eval (xc T)) :
    ∃ c0 c1 : L, (c0 ≠ 0 ∨ c1 ≠ 0) ∧ u0 * C c1 = u1 * C c0 := by
  have := infinite_points h2 hA
  have hne : ∀ᶠ T : MPoint A in cofinite, u0.eval (xc T) ≠ 0 ∨ u1.eval (xc T) ≠ 0 := by
    rcases hu with h | h
    · filter_upwards [ev_ne_zero h] with T hT using .inl hT
    · filter_upwards [ev_ne_zero h] with T hT using .inr hT
  obtain ⟨T, t1, t2, t3⟩ := ((ev_translates h2 hA S).and (hne.and hinv)).exists
  refine ⟨u0.eval (xc T), u1.eval (xc T), t2, ?_⟩
  rw [← sub_eq_zero]
  refine eq_zero_of_natDegree_lt_card_of_eval_eq_zero' _ (S.image fun s => xc (T + s)) ?_ ?_
  · intro x hx
    obtain ⟨s, hs, rfl⟩ := Finset.mem_image.mp hx
    rw [eval_sub, eval_mul, eval_mul, eval_C, eval_C, t3 s hs, sub_self]
  · rw [Finset.card_image_of_injOn fun s hs s' hs' e => t1.2 s hs s' hs' e]
    exact lt_of_le_of_lt (deg_sub (deg_C d0) (deg_C d1)) hS
end

section
variable {L : Type*} [Field L] [DecidableEq L] [RootOps L] {G H : Type*} [AddCommGroup G] [AddCommGroup H] {o : L × L}

omit [DecidableEq L] [RootOps L] in
theorem Net.comp {θ : G → L × L} (h : Net o (fun _ => True) θ) (f : H →+ G) : Net o (fun _ => True) (fun x => θ (f x)) where
  two := h.two
  null := h.null
  ne _ := h.ne trivial
  zero := by rw [map_zero]; exact h.zero
  riem _ _ _ _ := by rw [map_add, map_sub]; exact h.riem trivial trivial trivial trivial

omit [RootOps L] in
/-- Every pair comes from a point of the curve. -/
theorem exists_tr [IsAlgClosed L] (h2 : (2 : L) ≠ 0) (ho : Null1 o) {u : L × L} (hu : u ≠ (0, 0)) :
    ∃ f : MPoint (nullToMontCoeff o), TR o u f := by
  obtain ⟨E, -, hE, hA⟩ := C50_curve h2 ho
  have hne := theta_ne h2 ho hu
  by_cases hz : (thetaToMontPoint o u).Z = 0
  · refine ⟨0, ?_, hz⟩
    rcases hne with h | h
    · exact h
    · exact absurd hz h
  · obtain ⟨f, hf, hx⟩ := exists_xc (A := nullToMontCoeff o) h2 (by rw [← hA]; exact hE.disc) ((thetaToMontPoint o u).X / (thetaToMontPoint o u).Z)
    refine ⟨f, (krep_iff hf).mpr ⟨hz, ?_⟩⟩
    rw [hx, div_mul_cancel₀ _ hz]

omit [DecidableEq L] [RootOps L] in
theorem TR.isNull (ho : Null1 o) {A : L} {u : L × L} (h : TR o u (0 : MPoint A)) (hu : u ≠ (0, 0)) : IsNull o u := by
  have hz : o.1 * u.2 - o.2 * u.1 = 0 := h.2
  refine PSame.of_cross (fun e => ho.a (by rw [e])) hu ?_
  linear_combination hz

theorem TR.same {A : L} {u v : L × L} {f : MPoint A} (h : TR o u f) (e : PSame u v) : TR o v f := by
  obtain ⟨c, hc, rfl⟩ := e
  exact h.scale hc

/-- Elements with the same value are the same up to sign and the kernel. -/
theorem Net.same_or [IsAlgClosed L] {θ : G → L × L} (h : Net o (fun _ => True) θ) {x y : G} (e : PSame (θ x) (θ y)) :
    x + y ∈ h.ker ∨ x - y ∈ h.ker := by
  obtain ⟨f, hf⟩ := exists_tr h.two h.null (h.ne (x := x) trivial)
  rcases h.pair rfl trivial trivial trivial trivial hf (hf.same e) with ⟨-, e⟩ | ⟨e, -⟩
  · right
    rw [sub_self] at e
    exact e.isNull h.null (h.ne trivial)
  · left
    rw [sub_self] at e
    exact e.isNull h.null (h.ne trivial)
end

section
variable {L : Type*} [Field L] [DecidableEq L] [IsAlgClosed L] [RootOps L] {A : L} {o : L × L}

/-- A net that is almost constant is null everywhere. -/
theorem Net.all_null (h2 : (2 : L) ≠ 0) (hA : A * A ≠ 4) {θ : MPoint A → L × L} (h : Net o (fun _ => True) θ) {c : L × L}
    (hc : ∀ᶠ T : MPoint A in cofinite, PSame c (θ T)) (T : MPoint A) : IsNull o (θ T) := by
  have := infinite_points h2 hA
  obtain ⟨T', rfl⟩ := smul_surj h2 hA two_ne_zero T
  obtain ⟨a, a0, a1, a2⟩ := (hc.and (((tendsto_add T').eventually hc).and ((tendsto_add (2 • T')).eventually hc))).exists
  change 2 • T' ∈ h.ker
  have key : ∀ {x y : MPoint A}, PSame c (θ x) → PSame c (θ y) → x + y ∈ h.ker ∨ x - y ∈ h.ker :=
    fun hx hy => h.same_or (hx.symm.trans hy)
  have hd : ∀ {x y z : MPoint A}, PSame c (θ x) → PSame c (θ y) → PSame c (θ z) → x - y ∈ h.ker ∨ x - z ∈ h.ker ∨ y - z ∈ h.ker := by
    intro x y z hx hy hz
    rcases key hx hy with e | e
    · rcases key hx hz with e' | e'
      · right; right
        have := h.ker.sub_mem e e'
        rwa [add_sub_add_left_eq_sub] at this
      · exact .inr (.inl e')
    · exact .inl e
  rcases hd a1 a0 a2 with e | e | e
  · rw [add_sub_cancel_left] at e
    exact h.ker.nsmul_mem e 2
  · have : a + T' - (a + 2 • T') = -T' := by rw [two_nsmul]; abel
    rw [this] at e
    have := h.ker.nsmul_mem (h.ker.neg_mem e) 2
    rwa [neg_neg] at this
  · have : a - (a + 2 • T') = -(2 • T') := by abel
    rw [this] at e
    have := h.ker.neg_mem e
    rwa [neg_neg] at this
end
end Festa
