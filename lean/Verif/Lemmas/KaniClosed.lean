import Verif.Lemmas.Mobius
import Verif.Lemmas.MobiusAffine
/-! Kani's theorem over an algebraically closed field: one component of the chain is the map of the diamond, up to an
isomorphism of curves. -/
namespace Festa
open WeierstrassCurve.Affine Polynomial Filter
variable {L : Type*} [Field L] [DecidableEq L] [IsAlgClosed L] [RootOps L]

/-- The pairs `W` are the abscissae of `φ`, up to an isomorphism of curves. -/
def IsoTR {G : Type*} {AF : L} (o : L × L) (W : G → L × L) (φ : G → MPoint AF) : Prop :=
  ∃ (u v w : L) (ι : MPoint AF ≃+ MPoint (nullToMontCoeff o)), u ≠ 0 ∧ w * w = u * u * u ∧ 3 * v + nullToMontCoeff o = u * AF ∧
    3 * v * v + 2 * nullToMontCoeff o * v + 1 = u * u ∧ v * (v * v + nullToMontCoeff o * v + 1) = 0 ∧
    (∀ Q, Q ≠ 0 → xc (ι Q) = u * xc Q + v ∧ yc (ι Q) = w * yc Q) ∧ ∀ x, TR o (W x) (ι (φ x))

theorem Net.isoTR {A AF : L} {o : L × L} {θ : MPoint A → L × L} {ν : MPoint A →+ MPoint AF} {D : ℕ}
    (h : Net o (fun _ => True) θ) (hA : A * A ≠ 4) (hF : AF * AF ≠ 4) (hν : PolyX ν D) (tν : Tendsto ν cofinite cofinite) {v0 v1 : L[X]}
    (d0 : v0.natDegree ≤ D) (d1 : v1.natDegree ≤ D) (hv : ∀ᶠ T in cofinite, PSame (v0.eval (xc T), v1.eval (xc T)) (θ T))
    (S : Finset (MPoint A)) (hS : D ≤ S.card) (hs : ∀ s ∈ S, ν s = 0 ∧ s ∈ h.ker) (hker : ∀ T ∈ h.ker, ν T = 0) :
    IsoTR o θ ν := by
  have h2 := h.two
  obtain ⟨a, b, c, d, hdet, hm⟩ := h.mobius hA hν tν d0 d1 hv S hS hs hker
  obtain ⟨E', -, hE, hE'⟩ := C50_curve h2 h.null
  have dis : nullToMontCoeff o * nullToMontCoeff o ≠ 4 := by rw [← hE']; exact hE.disc
  choose g hg using fun T : MPoint A => exists_tr h2 h.null (h.ne (x := T) trivial)
  have hQ : QHom g := by
    intro x y
    rcases h.pair rfl trivial trivial trivial trivial (hg x) (hg y) with ⟨e1, e2⟩ | ⟨e1, e2⟩
    · exact .inl ⟨e1.eq (hg _), e2.eq (hg _)⟩
    · exact .inr ⟨e1.eq (hg _), e2.eq (hg _)⟩
  obtain ⟨u, v, w, ι, hu, hw, c1, c2, c3, c4, c5⟩ := hQ.iso (ν := ν) (a := o.1 * c + o.2 * a) (b := o.1 * d + o.2 * b) (c := o.1 * c - o.2 * a)
    (d := o.1 * d - o.2 * b) h2 hA hF dis tν (by
      have : (o.1 * c + o.2 * a) * (o.1 * d - o.2 * b) - (o.1 * d + o.2 * b) * (o.1 * c - o.2 * a) = 2 * o.1 * o.2 * (a * d - b * c) := by ring
      rw [this]
      exact mul_ne_zero (mul_ne_zero (mul_ne_zero h2 h.null.a) h.null.b) hdet) (by
      filter_upwards [hm] with T ⟨t1, k, hk, t2⟩
      have g0 : g T ≠ 0 := by
        intro e
        refine t1 (hker T ?_)
        have := hg T
        rw [e] at this
        exact this.isNull h.null (h.ne trivial)
      have hr : KRep _ _ _ := hg T
      rw [krep_iff g0] at hr
      simp only [thetaToMontPoint, t2] at hr
      obtain ⟨r1, r2⟩ := hr
      refine ⟨t1, g0, fun e => r1 (by linear_combination k * e), ?_⟩
      apply mul_left_cancel₀ hk
      linear_combination -r2)
  refine ⟨u, v, w, ι, hu, hw, c1, c2, c3, c4, fun T => (hg T).of_or ?_⟩
  rcases c5 T with e | e
  · exact .inl e.symm
  · right; rw [e, neg_neg]

variable {E : EProd L} {p1 q1 : MPoint E.E1.A} {p2 q2 : MPoint E.E2.A} {n : ℕ} {O T1 T2 : ThPt L}
  {ε l m w ε' l' m' w' : L} {M : Mat4 L} {o o' : L × L} {U V : MPoint E.E1.A × MPoint E.E2.A → L × L} {A0 AF : L}
  {β : MPoint A0 →+ MPoint E.E1.A} {α : MPoint A0 →+ MPoint AF} {γ : MPoint AF →+ MPoint E.E2.A}
  {d1 dA e m1 m2 g : ℕ} {P Q : MPoint A0}
namespace KaniData
variable (h : KaniData E p1 q1 p2 q2 n O T1 T2 ε l m w ε' l' m' w' M o o' U V β α γ d1 dA e m1 m2 g P Q)
include h

theorem comp_iso {c : L × L} {W : MPoint E.E1.A × MPoint E.E2.A → L × L} (hW : Net c (fun _ => True) W) {v0 v1 : L[X]}
    (d0 : v0.natDegree ≤ dA * (2 ^ n) ^ 2) (d1' : v1.natDegree ≤ dA * (2 ^ n) ^ 2)
    (hv : ∀ᶠ T in cofinite, PSame (v0.eval (xc T), v1.eval (xc T)) (W ((m1 * dA) • β T, -(m2 • γ (α T)))))
    (hS : ∀ (T : MPoint A0) (x y : ℤ) (k : MPoint A0), α k = 0 → T = k + (x • P + y • Q) → ((m1 * dA) • β T, -(m2 • γ (α T))) ∈ hW.ker)
    (hF : ∀ T, ((m1 * dA) • β T, -(m2 • γ (α T))) ∈ hW.ker → 2 ^ n • α T = 0)
    (hH : ∀ T, ((m2 * e) • β T, (m1 * d1) • γ (α T)) ∈ hW.ker) :
    IsoTR c (fun x : MPoint A0 × MPoint AF => W (β x.1, γ x.2)) fun x => (m1 * d1) • α x.1 - (m2 * e) • x.2 := by
  have h2 := h.g1.two
  have zN : (2 ^ n : ℕ) ≠ 0 := pow_ne_zero _ two_ne_zero
  let f : MPoint A0 →+ MPoint E.E1.A × MPoint E.E2.A :=
    ((nsmulAddMonoidHom (m1 * dA)).comp β).prod (-((nsmulAddMonoidHom m2).comp (γ.comp α)))
  obtain ⟨S, ne, cS, mS⟩ := h.dia.exists_setF
  have := (hW.comp f).isoTR (ν := (nsmulAddMonoidHom (2 ^ n)).comp α) h.dia.disc h.dia.discF
    (h.dia.hα.poly.comp (PolyX.mul h2 h.dia.discF zN) h.dia.hα.fin) (h.dia.hα.tendsto_smul h2 h.dia.discF zN) d0 d1' hv S
    (by rw [cS, pow_two]) (fun s hs => by
      obtain ⟨k, x, y, hk, e⟩ := mS s hs
      refine ⟨?_, hS s x y k hk e⟩
      change 2 ^ n • α s = 0
      rw [e, map_add, hk, zero_add, ← map_nsmul, h.dia.combo_tors, map_zero]) hF
  obtain ⟨u, v, w, ι, hu, hw, c1, c2, c3, c4, c5⟩ := this
  refine ⟨u, v, w, ι, hu, hw, c1, c2, c3, c4, fun x => ?_⟩
  obtain ⟨T, T', e1, e2⟩ := h.sum_all x.1 x.2
  change TR c (W (β x.1, γ x.2)) (ι ((m1 * d1) • α x.1 - (m2 * e) • x.2))
  rw [← e2, e1]
  refine (c5 T).same ?_
  exact hW.add_null _ (hH T')

end KaniData
end Festa
