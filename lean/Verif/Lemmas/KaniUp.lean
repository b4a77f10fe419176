import Verif.Lemmas.KaniOther
import Verif.Lemmas.ThetaMap
/-! Kani's theorem for the chain over the field of the code. -/
namespace Festa
open WeierstrassCurve.Affine

section
variable {L : Type*} [Field L] [DecidableEq L]

omit [DecidableEq L] in
theorem montCoeff_scale (c : L) (hc : c ≠ 0) (o : L × L) : nullToMontCoeff (c * o.1, c * o.2) = nullToMontCoeff o := by
  simp only [nullToMontCoeff]
  have e1 : c * o.1 * (c * o.1) + c * o.2 * (c * o.2) = c * c * (o.1 * o.1 + o.2 * o.2) := by ring
  have e2 : c * o.1 * (c * o.1) - c * o.2 * (c * o.2) = c * c * (o.1 * o.1 - o.2 * o.2) := by ring
  rw [e1, e2]
  have e3 : ∀ a b : L, -(c * c * a * (c * c * a) + c * c * b * (c * c * b)) / (c * c * a * (c * c * b)) =
      (c ^ 4 * (-(a * a + b * b))) / (c ^ 4 * (a * b)) := by intro a b; congr 1 <;> ring
  rw [e3, mul_div_mul_left _ _ (pow_ne_zero 4 hc)]

omit [DecidableEq L] in
theorem TR.scale_null {A : L} {o u : L × L} {f : MPoint A} {c : L} (hc : c ≠ 0) (h : TR o u f) : TR (c * o.1, c * o.2) u f := by
  have := thetaToMont_scale c 1 o u
  simp only [one_mul, mul_one] at this
  rw [TR, this]
  exact krep_mul hc h

theorem IsoTR.scale_null {G : Type*} {AF : L} {o : L × L} {W : G → L × L} {φ : G → MPoint AF} {c : L} (hc : c ≠ 0) (h : IsoTR o W φ) :
    IsoTR (c * o.1, c * o.2) W φ := by
  obtain ⟨u, v, w, ι, h1, h2, h3, h4, h5, h6, h7⟩ := h
  unfold IsoTR
  rw [montCoeff_scale c hc o]
  exact ⟨u, v, w, ι, h1, h2, h3, h4, h5, h6, fun x => (h7 x).scale_null hc⟩

end

variable {K L : Type*} [Field K] [Field L] (σ : K →+* L)

theorem up_montCoeff (o : K × K) : nullToMontCoeff (pup σ o) = σ (nullToMontCoeff o) := by
  simp only [nullToMontCoeff, pup, map_div₀, map_neg, map_add, map_sub, map_mul]

theorem up_montPoint (o u : K × K) : thetaToMontPoint (pup σ o) (pup σ u) =
    ⟨σ (thetaToMontPoint o u).X, σ (thetaToMontPoint o u).Z⟩ := by
  simp only [thetaToMontPoint, pup, map_add, map_sub, map_mul]

variable [DecidableEq K] [DecidableEq L]

/-- The pairs `W` over the smaller field are the abscissae of `φ`, up to an isomorphism of curves over the larger one. -/
def PartIs {E : EProd K} (N : MPoint E.E1.A × MPoint E.E2.A → Prop) (c : K × K) (W : MPoint E.E1.A × MPoint E.E2.A → K × K) {A0 AF : L}
    (β : MPoint A0 →+ MPoint (E.up σ).E1.A) (γ : MPoint AF →+ MPoint (E.up σ).E2.A) (φ : MPoint A0 × MPoint AF → MPoint AF) : Prop :=
  ∃ (u v w : L) (ι : MPoint AF ≃+ MPoint (σ (nullToMontCoeff c))), u ≠ 0 ∧ w * w = u * u * u ∧ 3 * v + σ (nullToMontCoeff c) = u * AF ∧
    3 * v * v + 2 * σ (nullToMontCoeff c) * v + 1 = u * u ∧ v * (v * v + σ (nullToMontCoeff c) * v + 1) = 0 ∧
    (∀ Q, Q ≠ 0 → xc (ι Q) = u * xc Q + v ∧ yc (ι Q) = w * yc Q) ∧
    ∀ x, N x → ∀ X1 X2, β X1 = mapHom σ x.1 → γ X2 = mapHom σ x.2 →
      KRep (σ (thetaToMontPoint c (W x)).X) (σ (thetaToMontPoint c (W x)).Z) (ι (φ (X1, X2)))

/-- A pair with a vanishing coordinate comes from a point killed by four, up to its second component. -/
def OffAxes {E : EProd K} (N : MPoint E.E1.A × MPoint E.E2.A → Prop) (W : MPoint E.E1.A × MPoint E.E2.A → K × K) : Prop :=
  ∀ x, N x → (W x).1 = 0 ∨ (W x).2 = 0 → ∀ s k : ℕ, s • x.2 = 0 → 2 ^ k • s • x.1 = 0 → 4 • s • x.1 = 0

theorem IsoTR.part [RootOps L] {E : EProd K} {N : MPoint E.E1.A × MPoint E.E2.A → Prop} {c : K × K} {W : MPoint E.E1.A × MPoint E.E2.A → K × K}
    {A0 AF : L} {β : MPoint A0 →+ MPoint (E.up σ).E1.A} {γ : MPoint AF →+ MPoint (E.up σ).E2.A} {φ : MPoint A0 × MPoint AF → MPoint AF}
    {WL : MPoint (E.up σ).E1.A × MPoint (E.up σ).E2.A → L × L}
    (h : IsoTR (pup σ c) (fun x => WL (β x.1, γ x.2)) φ) (hW : ∀ x, N x → PSame (WL (upPair σ E x)) (pup σ (W x))) :
    PartIs σ N c W β γ φ := by
  obtain ⟨u, v, w, ι, h1, h2, h3, h4, h5, h6, h7⟩ := h
  unfold PartIs
  rw [← up_montCoeff]
  refine ⟨u, v, w, ι, h1, h2, h3, h4, h5, h6, fun x hx X1 X2 e1 e2 => ?_⟩
  have : TR _ _ _ := h7 (X1, X2)
  simp only [e1, e2] at this
  have := this.same (hW x hx)
  rw [TR, up_montPoint] at this
  exact this

variable [RootOps K] [RootOps L] [IsAlgClosed L]

theorem kani_up (hz : (RootOps.zeta : L) = σ RootOps.zeta) {E : EProd K} (g1 : E.E1.Good) (g2 : E.E2.Good) {n : ℕ}
    {p1 q1 : MPoint E.E1.A} {p2 q2 : MPoint E.E2.A} {O T1 T2 : ThPt K} {ε l m w ε' l' m' w' : K} (h3 : 3 ≤ n)
    (f1 : FacPts E.E1 (2 ^ (n - 1) • p1) (2 ^ (n - 1) • q1) ε l m w)
    (f2 : FacPts E.E2 (2 ^ (n - 1) • p2) (2 ^ (n - 1) • q2) ε' l' m' w')
    (frm : GlueFrm E p1 q1 p2 q2 n O T1 T2 ε l m w ε' l' m' w') (hc : ProdChain (n - 1) O T1 T2) {M : Mat4 K} {o o' : K × K}
    (split : splittingMatrix (chainNull (n - 3) O T1 T2) = some M)
    (nulls : (chainNull (n - 3) O T1 T2).baseChange M = ThPt.tensor o o')
    {N : MPoint E.E1.A × MPoint E.E2.A → Prop} {U V : MPoint E.E1.A × MPoint E.E2.A → K × K}
    (img : ∀ x, N x → (ThPt.tensor (U x) (V x)).Same
      ((chainImg (n - 3) O T1 T2 (glueW E p1 q1 p2 q2 n ε l m w ε' l' m' w' x).had).baseChange M))
    {A0 AF : L} {β : MPoint A0 →+ MPoint (E.up σ).E1.A} {α : MPoint A0 →+ MPoint AF} {γ : MPoint AF →+ MPoint (E.up σ).E2.A}
    {d1 dA e m1 m2 g : ℕ} {P Q : MPoint A0} (dia : Diamond β α γ d1 dA e m1 m2 n g P Q)
    (kp1 : 4 • mapHom σ p1 = β P) (kp2 : 4 • mapHom σ p2 = g • γ (α P))
    (kq1 : 4 • mapHom σ q1 = β Q) (kq2 : 4 • mapHom σ q2 = g • γ (α Q)) :
    (PartIs σ N o U β γ (fun x => (m1 * d1) • α x.1 - (m2 * e) • x.2) ∧ OffAxes N V) ∨
      (PartIs σ N o' V β γ (fun x => (m1 * d1) • α x.1 - (m2 * e) • x.2) ∧ OffAxes N U) := by
  have f1' := f1.up σ g1
  have f2' := f2.up σ g2
  rw [map_nsmul, map_nsmul] at f1' f2'
  obtain ⟨M', c, c', UL, VL, hnet⟩ := thetaNet (E := E.up σ) (g1.up σ) (g2.up σ) h3 f1' f2' (frm.up σ) (hc.up σ)
  have hM : M' = M.up σ := by
    have := up_splitting σ hz split
    rw [up_chainNull, hnet.split] at this
    exact Option.some.inj this
  subst hM
  have hK : KaniData (E.up σ) (mapHom σ p1) (mapHom σ q1) (mapHom σ p2) (mapHom σ q2) n (O.up σ) (T1.up σ) (T2.up σ) (σ ε) (σ l) (σ m)
      (σ w) (σ ε') (σ l') (σ m') (σ w') (M.up σ) c c' UL VL β α γ d1 dA e m1 m2 g P Q :=
    ⟨hnet, dia, g1.up σ, g2.up σ, h3, f1', f2', Prod.ext kp1 kp2, Prod.ext kq1 kq2⟩
  -- the null points
  have z1 : ∀ {o : L × L}, Null1 o → o ≠ (0, 0) := fun h e => h.a (by rw [e])
  have hnull : (ThPt.tensor c c').Same (ThPt.tensor (pup σ o) (pup σ o')) := by
    rw [← up_tensor, ← nulls, up_baseChange, up_chainNull, hnet.nulls]
    exact .refl _
  obtain ⟨⟨s, hs, es⟩, s', hs', es'⟩ := tensor_same (z1 hnet.netU.null) (z1 hnet.netV.null) hnull
  -- the images
  have himg : ∀ x, N x → PSame (UL (upPair σ E x)) (pup σ (U x)) ∧ PSame (VL (upPair σ E x)) (pup σ (V x)) := by
    intro x hx
    have := (img x hx).up σ
    rw [up_tensor, up_baseChange, up_chainImg, up_had, ← up_glueW, hnet.img] at this
    exact tensor_same (hnet.netU.ne (x := upPair σ E x) trivial) (hnet.netV.ne (x := upPair σ E x) trivial) this.symm
  -- the other one
  have hoff : ∀ {c : L × L} {W : MPoint E.E1.A × MPoint E.E2.A → K × K} {WL : MPoint (E.up σ).E1.A × MPoint (E.up σ).E2.A → L × L}
      (hW : Net c (fun _ => True) WL), (∀ x, N x → PSame (WL (upPair σ E x)) (pup σ (W x))) →
      (∀ (k : ℕ) (Y : MPoint (E.up σ).E1.A), 2 ^ k • Y = 0 → (Y, 0) ∈ hW.ker → Y = 0) → OffAxes N W := by
    intro c W WL hW hs hk x hx h0 s k s2 s1
    have h0 : (WL (upPair σ E x)).1 = 0 ∨ (WL (upPair σ E x)).2 = 0 := by
      obtain ⟨t, ht, e⟩ := hs x hx
      rcases h0 with h0 | h0
      · have := congrArg Prod.fst e
        simp only [pup, h0, map_zero] at this
        exact .inl ((mul_eq_zero.mp this.symm).resolve_left ht)
      · have := congrArg Prod.snd e
        simp only [pup, h0, map_zero] at this
        exact .inr ((mul_eq_zero.mp this.symm).resolve_left ht)
    have h4 := nsmul_mem (hW.four_ker h0) s
    have e : s • 4 • upPair σ E x = (mapHom σ (4 • s • x.1), 0) := by
      refine Prod.ext ?_ ?_
      · change s • 4 • mapHom σ x.1 = mapHom σ (4 • s • x.1)
        rw [map_nsmul, map_nsmul, smul_comm]
      · change s • 4 • mapHom σ x.2 = 0
        rw [smul_comm, ← map_nsmul, s2, map_zero, smul_zero]
    have h4 := Eq.subst (motive := fun y => y ∈ hW.ker) e h4
    have t : 2 ^ k • mapHom σ (4 • s • x.1) = 0 := by rw [← map_nsmul, smul_comm, s1, smul_zero, map_zero]
    have := hk k _ t h4
    exact mapPt_inj σ this
  rcases hK.main with ⟨a, b⟩ | ⟨a, b⟩
  · left
    refine ⟨?_, hoff hnet.netV (fun x hx => (himg x hx).2) b⟩
    have := a.scale_null hs
    rw [← es] at this
    exact this.part σ fun x hx => (himg x hx).1
  · right
    refine ⟨?_, hoff hnet.netU (fun x hx => (himg x hx).1) b⟩
    have := a.scale_null hs'
    rw [← es'] at this
    exact this.part σ fun x hx => (himg x hx).2

end Festa
