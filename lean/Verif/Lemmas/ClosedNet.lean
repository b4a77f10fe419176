import Verif.Lemmas.ProductNet
import Verif.Lemmas.RiemannLoop
/-! The map of the chain in adapted coordinates, where the gluing has no exceptions. -/
namespace Festa
variable {K : Type*} [Field K] [DecidableEq K]

/-- The pair is the null point. -/
def IsNull (o u : K × K) : Prop := ∃ c, c ≠ 0 ∧ u = (c * o.1, c * o.2)

/-- The same point of the projective line. -/
def PSame (u v : K × K) : Prop := ∃ c, c ≠ 0 ∧ v = (c * u.1, c * u.2)

omit [DecidableEq K] in
theorem PSame.refl (u : K × K) : PSame u u := ⟨1, one_ne_zero, by rw [one_mul, one_mul]⟩
omit [DecidableEq K] in
theorem PSame.symm {u v : K × K} (h : PSame u v) : PSame v u := by
  obtain ⟨c, hc, rfl⟩ := h
  exact ⟨c⁻¹, inv_ne_zero hc, by ext <;> simp [hc]⟩
omit [DecidableEq K] in
theorem PSame.trans {u v w : K × K} (h : PSame u v) (h' : PSame v w) : PSame u w := by
  obtain ⟨c, hc, rfl⟩ := h
  obtain ⟨d, hd, rfl⟩ := h'
  exact ⟨d * c, mul_ne_zero hd hc, by simp [mul_assoc]⟩
omit [DecidableEq K] in
theorem PSame.cross {u v : K × K} (h : PSame u v) : u.1 * v.2 = u.2 * v.1 := by
  obtain ⟨c, -, rfl⟩ := h
  simp only; ring
omit [DecidableEq K] in
theorem PSame.of_cross {u v : K × K} (hu : u ≠ (0, 0)) (hv : v ≠ (0, 0)) (h : u.1 * v.2 = u.2 * v.1) : PSame u v := by
  obtain ⟨a, b⟩ := u
  obtain ⟨c, d⟩ := v
  simp only at h
  by_cases ha : a = 0
  · have hb : b ≠ 0 := fun hb => hu (by rw [ha, hb])
    subst ha
    have hc : c = 0 := by
      rw [zero_mul] at h; exact (mul_eq_zero.mp h.symm).resolve_left hb
    have hd : d ≠ 0 := fun hd => hv (by rw [hc, hd])
    exact ⟨d / b, div_ne_zero hd hb, by simp [hc, hb]⟩
  · have hc : c ≠ 0 := by
      rintro rfl
      rw [mul_zero] at h
      exact hv (by rw [(mul_eq_zero.mp h).resolve_left ha])
    refine ⟨c / a, div_ne_zero hc ha, ?_⟩
    ext
    · simp [ha]
    · show d = c / a * b
      rw [div_mul_eq_mul_div, eq_div_iff ha]; linear_combination h

namespace Net
variable [RootOps K] {G : Type*} [AddCommGroup G] {o : K × K} {θ : G → K × K}

theorem add_null (h : Net o (fun _ => True) θ) (x : G) {k : G} (hk : IsNull o (θ k)) : PSame (θ x) (θ (x + k)) :=
  (h.riem (x := x) (y := k) trivial trivial trivial trivial).null h.two h.null hk (h.ne trivial) (h.ne trivial)

/-- The elements that go to the null point. -/
def ker (h : Net o (fun _ => True) θ) : AddSubgroup G where
  carrier := {k | IsNull o (θ k)}
  zero_mem' := h.zero
  add_mem' {a b} ha hb := PSame.trans ha (h.add_null a hb)
  neg_mem' {a} ha := by
    have := h.add_null (-a) ha
    rw [neg_add_cancel] at this
    exact PSame.trans h.zero this.symm

theorem mem_ker (h : Net o (fun _ => True) θ) {x : G} : x ∈ h.ker ↔ IsNull o (θ x) := Iff.rfl

theorem sub_null (h : Net o (fun _ => True) θ) {x y : G} (hk : x - y ∈ h.ker) : PSame (θ y) (θ x) := by
  have := h.add_null y hk
  rwa [add_sub_cancel] at this

end Net

/-- The chain on the product, in adapted coordinates. -/
structure ThetaNet (E : EProd K) (p1 q1 : MPoint E.E1.A) (p2 q2 : MPoint E.E2.A) (n : Nat) (O T1 T2 : ThPt K)
    (e L m w e' L' m' w' : K) (M : Mat4 K) (o o' : K × K) (U V : MPoint E.E1.A × MPoint E.E2.A → K × K) [RootOps K] : Prop where
  split : splittingMatrix (chainNull (n - 3) O T1 T2) = some M
  nulls : (chainNull (n - 3) O T1 T2).baseChange M = ThPt.tensor o o'
  netU : Net o (fun _ => True) U
  netV : Net o' (fun _ => True) V
  img : ∀ x, (chainImg (n - 3) O T1 T2 (glueW E p1 q1 p2 q2 n e L m w e' L' m' w' x).had).baseChange M =
    ThPt.tensor (U x) (V x)
  same : ∀ {X Y : ThPt K}, X.Same Y →
    ((chainImg (n - 3) O T1 T2 X).baseChange M).Same ((chainImg (n - 3) O T1 T2 Y).baseChange M)
  kerP : IsNull o (U (4 • (p1, p2))) ∧ IsNull o' (V (4 • (p1, p2)))
  kerQ : IsNull o (U (4 • (q1, q2))) ∧ IsNull o' (V (4 • (q1, q2)))
  exact : ∀ {x}, IsNull o (U x) → IsNull o' (V x) → ∃ a b : ℤ, x = a • 4 • (p1, p2) + b • 4 • (q1, q2)

section
variable {E : EProd K} {P8 Q8 : CPt K} {p1 q1 : MPoint E.E1.A} {p2 q2 : MPoint E.E2.A} {e L m w e' L' m' w' : K}

local notation "DD" => gD e L m e' L' m' p1 p2
local notation "FF" => gF e L m e' L' m' q1 q2
local notation "WW" => gW (gD e L m e' L' m' p1 p2) (gF e L m e' L' m' q1 q2) e L m w e' L' m' w'

theorem GluePts.w_kummer (h : GluePts E P8 Q8 p1 q1 p2 q2 e L m w e' L' m' w') (r1 : MPoint E.E1.A) (r2 : MPoint E.E2.A) :
    OnKummer (gn DD FF).had (WW r1 r2).had := gw_kummer h.ok (h.f1.onC r1) (h.f2.onC r2)

theorem GluePts.w_riem (h : GluePts E P8 Q8 p1 q1 p2 q2 e L m w e' L' m' w') (r1 s1 : MPoint E.E1.A) (r2 s2 : MPoint E.E2.A) :
    Riem (gn DD FF).had (WW r1 r2).had (WW s1 s2).had (WW (r1 + s1) (r2 + s2)).had (WW (r1 - s1) (r2 - s2)).had := by
  obtain ⟨l, a⟩ := h.f1.jac r1 s1
  obtain ⟨l', a'⟩ := h.f2.jac r2 s2
  have := riem_gj h.ok (jv_jv (h.f1.onC r1)) (jv_jv (h.f1.onC s1)) (jv_jv (h.f2.onC r2)) (jv_jv (h.f2.onC s2)) a a'
  simp only [← gw_gj] at this
  exact this.had

theorem GluePts.w_ne (h : GluePts E P8 Q8 p1 q1 p2 q2 e L m w e' L' m' w') (r1 : MPoint E.E1.A) (r2 : MPoint E.E2.A) :
    (WW r1 r2).had ≠ ThPt.zero := by
  intro h0
  have t2 := h.g1.two
  have ez := had_eq_zero t2 h0
  have nD := h.ok.nD
  have nF := h.ok.nF
  simp only [gW, gw, ThPt.zero, ThPt.mk.injEq, div_eq_zero_iff, mul_eq_zero, nD, nF, or_false, four_ne t2, false_or] at ez
  obtain ⟨ea, eb, ec, -⟩ := ez
  have key : ∀ {a b : K}, ¬ (a = 0 ∧ b = 0) → (a ^ 2 + b ^ 2 ≠ 0 ∧ a ^ 2 - b ^ 2 ≠ 0) ∨
      (a ^ 2 + b ^ 2 ≠ 0 ∧ ¬ (a = 0 ∨ b = 0)) ∨ (a ^ 2 - b ^ 2 ≠ 0 ∧ ¬ (a = 0 ∨ b = 0)) := by
    intro a b hab
    by_cases ha : a = 0
    · have hb : b ≠ 0 := fun hb => hab ⟨ha, hb⟩
      left; subst ha
      simp [hb]
    · by_cases hb : b = 0
      · left; subst hb; simp [ha]
      · by_cases hs : a ^ 2 + b ^ 2 = 0
        · refine .inr (.inr ⟨fun hd => ha ?_, by simp [ha, hb]⟩)
          have : 2 * a ^ 2 = 0 := by linear_combination hs + hd
          simpa using (mul_eq_zero.mp this).resolve_left t2
        · exact .inr (.inl ⟨hs, by simp [ha, hb]⟩)
  have k1 := key (h.f1.nz r1)
  have k2 := key (h.f2.nz r2)
  tauto

theorem GluePts.w_double (h : GluePts E P8 Q8 p1 q1 p2 q2 e L m w e' L' m' w') (hn : ThNull (gn DD FF).had)
    (r1 : MPoint E.E1.A) (r2 : MPoint E.E2.A) :
    ((ThStr.new (gn DD FF).had).double (WW r1 r2).had).Same (WW (2 • r1) (2 • r2)).had := by
  refine (gw_double h.ok (h.f1.onC r1) (h.f2.onC r2) hn).trans ?_
  obtain ⟨c, hc, d1, d2⟩ := h.f1.dbl r1
  obtain ⟨c', hc', d3, d4⟩ := h.f2.dbl r2
  rw [d1, d2, d3, d4]
  refine ThPt.Same.symm ⟨(c * c') ^ 2, pow_ne_zero 2 (mul_ne_zero hc hc'), ?_⟩
  rw [← had_scale]
  congr 1
  simp only [gW, gw, ThPt.scale, ThPt.mk.injEq]
  refine ⟨?_, ?_, ?_, ?_⟩ <;> ring

theorem GluePts.w_zero (h : GluePts E P8 Q8 p1 q1 p2 q2 e L m w e' L' m' w') : (gn DD FF).had.Same (WW (0 : MPoint E.E1.A) (0 : MPoint E.E2.A)).had := by
  have ok := h.ok
  have hp := ok.p
  have hp' := ok.p'
  have nD := ok.nD
  have nF := ok.nF
  have hD := ok.hD
  have hF := ok.hF
  refine ⟨(1 + m ^ 2) * (1 + m' ^ 2), mul_ne_zero hp hp', ?_⟩
  rw [← had_scale]
  congr 1
  rw [eq_div_iff (mul_ne_zero hp hp')] at hD hF
  simp only [gW, gw, gn, ThPt.scale, ThPt.mk.injEq]
  rw [show U0 e L (0 : MPoint E.E1.A) = 1 from rfl, show U1 e L m (0 : MPoint E.E1.A) = m from rfl,
    show U0 e' L' (0 : MPoint E.E2.A) = 1 from rfl, show U1 e' L' m' (0 : MPoint E.E2.A) = m' from rfl,
    show UY m w (0 : MPoint E.E1.A) = 0 from rfl]
  refine ⟨by ring, ?_, ?_, by ring⟩
  · rw [div_eq_iff nD]; linear_combination -hD
  · rw [div_eq_iff nF]; linear_combination -hF

theorem GluePts.w_add_p (h : GluePts E P8 Q8 p1 q1 p2 q2 e L m w e' L' m' w') (r1 : MPoint E.E1.A) (r2 : MPoint E.E2.A) :
    (WW r1 r2).Same (WW (r1 + 4 • p1) (r2 + 4 • p2)) := by
  obtain ⟨c, hc, a1, a2, a3⟩ := h.f1.add_fp r1
  obtain ⟨c', hc', b1, b2, b3⟩ := h.f2.add_fp r2
  rw [gW, gW, a1, a2, a3, b1, b2, b3]
  refine ⟨(c * c') ^ 2, pow_ne_zero 2 (mul_ne_zero hc hc'), ?_⟩
  simp only [gw, ThPt.scale, ThPt.mk.injEq]
  refine ⟨?_, ?_, ?_, ?_⟩ <;> ring

theorem GluePts.w_add_q (h : GluePts E P8 Q8 p1 q1 p2 q2 e L m w e' L' m' w') (r1 : MPoint E.E1.A) (r2 : MPoint E.E2.A) :
    (WW r1 r2).Same (WW (r1 + 4 • q1) (r2 + 4 • q2)) := by
  obtain ⟨c, hc, a1, a2, a3⟩ := h.f1.add_fq r1
  obtain ⟨c', hc', b1, b2, b3⟩ := h.f2.add_fq r2
  rw [gW, gW, a1, a2, a3, b1, b2, b3]
  refine ⟨(c * c') ^ 2, pow_ne_zero 2 (mul_ne_zero hc hc'), ?_⟩
  simp only [gw, ThPt.scale, ThPt.mk.injEq]
  refine ⟨?_, ?_, ?_, ?_⟩ <;> ring

theorem GluePts.w_add (h : GluePts E P8 Q8 p1 q1 p2 q2 e L m w e' L' m' w') (a b : ℕ) (r1 : MPoint E.E1.A) (r2 : MPoint E.E2.A) :
    (WW r1 r2).Same (WW (r1 + (a • (4 • p1) + b • (4 • q1))) (r2 + (a • (4 • p2) + b • (4 • q2)))) := by
  induction a with
  | zero =>
    induction b with
    | zero => simp only [zero_nsmul, add_zero]; exact ThPt.Same.refl _
    | succ b ih =>
      have := ih.trans (h.w_add_q _ _)
      rw [add_assoc, add_assoc, add_assoc, add_assoc, ← succ_nsmul, ← succ_nsmul] at this
      exact this
  | succ a ih =>
    refine (ih.trans (h.w_add_p _ _)).trans ?_
    have e : ∀ {A : K} (r p q : MPoint A), r + (a • (4 • p) + b • (4 • q)) + 4 • p = r + ((a + 1) • (4 • p) + b • (4 • q)) := by
      intro A r p q
      generalize 4 • p = x
      rw [succ_nsmul x, add_assoc, add_right_comm]
    rw [e, e]
    exact ThPt.Same.refl _

theorem GluePts.w_exact (h : GluePts E P8 Q8 p1 q1 p2 q2 e L m w e' L' m' w') {r1 : MPoint E.E1.A} {r2 : MPoint E.E2.A}
    (hi : (gn DD FF).had.Same (WW r1 r2).had) :
    ∃ a b : ℕ, r1 = a • (4 • p1) + b • (4 • q1) ∧ r2 = a • (4 • p2) + b • (4 • q2) := by
  have ok := h.ok
  have hi : (gn DD FF).Same (WW r1 r2) := same_of_had h.g1.two hi
  have n4 := four_ne h.g1.two
  -- one component has no ordinate
  have hY : UY m w r1 = 0 ∨ UY m' w' r2 = 0 := by
    obtain ⟨c, hc, ez⟩ := hi
    have := congrArg ThPt.T ez
    simp only [gW, gw, gn, ThPt.scale, mul_zero, div_eq_zero_iff, ok.nD, or_false, mul_eq_zero, n4, ok.nF, false_or] at this
    exact this
  have neg2 : ∀ {A : K} {S : MPoint A}, 2 • S = 0 → S + S = 0 := fun h => by rwa [two_nsmul] at h
  have tor : ∀ {A : K} {S T : MPoint A} (a b : ℕ), 2 • S = 0 → 2 • T = 0 → 2 • (a • S + b • T) = 0 := by
    intro A S T a b hS hT
    rw [nsmul_add, ← mul_nsmul', ← mul_nsmul', mul_comm 2 a, mul_comm 2 b, mul_nsmul', mul_nsmul', hS, hT, nsmul_zero,
      nsmul_zero, add_zero]
  -- translate that component to infinity
  obtain ⟨a, b, hab⟩ : ∃ a b : ℕ, r1 = a • (4 • p1) + b • (4 • q1) ∨ r2 = a • (4 • p2) + b • (4 • q2) := by
    rcases hY with hY | hY
    · obtain ⟨a, b, hab⟩ := h.f1.four_of_UY hY
      exact ⟨a, b, .inl hab⟩
    · obtain ⟨a, b, hab⟩ := h.f2.four_of_UY hY
      exact ⟨a, b, .inr hab⟩
  have t1 : 2 • (a • (4 • p1) + b • (4 • q1)) = 0 := tor a b h.f1.two_fp h.f1.two_fq
  have t2 : 2 • (a • (4 • p2) + b • (4 • q2)) = 0 := tor a b h.f2.two_fp h.f2.two_fq
  obtain ⟨c, hc, ez⟩ := hi.trans (h.w_add a b r1 r2)
  have e1 := congrArg ThPt.X ez
  have e2 := congrArg ThPt.Y ez
  have e3 := congrArg ThPt.Z ez
  simp only [gW, gw, gn, ThPt.scale, mul_one] at e1 e2 e3
  refine ⟨a, b, ?_⟩
  rcases hab with hab | hab
  · refine ⟨hab, ?_⟩
    rw [hab, neg2 t1] at e1 e2 e3
    have z0 : U0 e L (0 : MPoint E.E1.A) = 1 := rfl
    have z1 : U1 e L m (0 : MPoint E.E1.A) = m := rfl
    rw [z0, z1, one_pow] at e1 e2
    rw [z0, z1, one_mul] at e3
    have := h.f2.zero_of_ratio (glue_zero_aux ok (h.f2.nz _) e1 e2 e3)
    rw [← add_left_inj, neg2 t2]
    exact this
  · refine ⟨?_, hab⟩
    rw [hab, neg2 t2] at e1 e2 e3
    have z0 : U0 e' L' (0 : MPoint E.E2.A) = 1 := rfl
    have z1 : U1 e' L' m' (0 : MPoint E.E2.A) = m' := rfl
    rw [z0, z1, one_pow, mul_comm] at e1
    rw [z0, z1, one_pow, mul_comm (U0 e L _ ^ 2 - _)] at e2
    rw [z0, z1, one_mul] at e3
    have := h.f1.zero_of_ratio (glue_zero_aux ok.swap (h.f1.nz _) e1 e2 (by rw [← e3]; ring))
    rw [← add_left_inj, neg2 t1]
    exact this

end

theorem thetaNet [RootOps K] {E : EProd K} (g1 : E.E1.Good) (g2 : E.E2.Good) {n : Nat}
    {p1 q1 : MPoint E.E1.A} {p2 q2 : MPoint E.E2.A} {O T1 T2 : ThPt K} {e L m w e' L' m' w' : K} (h3 : 3 ≤ n)
    (f1 : FacPts E.E1 (2 ^ (n - 1) • p1) (2 ^ (n - 1) • q1) e L m w)
    (f2 : FacPts E.E2 (2 ^ (n - 1) • p2) (2 ^ (n - 1) • q2) e' L' m' w')
    (frm : GlueFrm E p1 q1 p2 q2 n O T1 T2 e L m w e' L' m' w') (hc : ProdChain (n - 1) O T1 T2) :
    ∃ (M : Mat4 K) (o o' : K × K) (U V : MPoint E.E1.A × MPoint E.E2.A → K × K),
      ThetaNet E p1 q1 p2 q2 n O T1 T2 e L m w e' L' m' w' M o o' U V := by
  have h2 := g1.two
  have h : GluePts E ⟨ptOf _, ptOf _⟩ ⟨ptOf _, ptOf _⟩ _ _ _ _ e L m w e' L' m' w' :=
    ⟨g1, g2, f1, f2, ptOf_rep _, ptOf_rep _, ptOf_rep _, ptOf_rep _⟩
  obtain ⟨eO, s1, s2⟩ := frm
  have hnull : ThNull O := (ProdChain.reg _ hc).null
  have hkum : ∀ x : MPoint E.E1.A × MPoint E.E2.A, OnKummer O (glueW E p1 q1 p2 q2 n e L m w e' L' m' w' x).had :=
    fun x => by rw [eO]; exact h.w_kummer _ _
  have hne : ∀ x : MPoint E.E1.A × MPoint E.E2.A, (glueW E p1 q1 p2 q2 n e L m w e' L' m' w' x).had ≠ ThPt.zero :=
    fun x => h.w_ne _ _
  have hrie : ∀ x y : MPoint E.E1.A × MPoint E.E2.A, Riem O (glueW E p1 q1 p2 q2 n e L m w e' L' m' w' x).had
      (glueW E p1 q1 p2 q2 n e L m w e' L' m' w' y).had (glueW E p1 q1 p2 q2 n e L m w e' L' m' w' (x + y)).had
      (glueW E p1 q1 p2 q2 n e L m w e' L' m' w' (x - y)).had := fun x y => by rw [eO]; exact h.w_riem _ _ _ _
  have hdbl : ∀ x : MPoint E.E1.A × MPoint E.E2.A, ((ThStr.new O).double (glueW E p1 q1 p2 q2 n e L m w e' L' m' w' x).had).Same
      (glueW E p1 q1 p2 q2 n e L m w e' L' m' w' (2 • x)).had := fun x => by
    subst eO; exact h.w_double hnull _ _
  have hz : O.Same (glueW E p1 q1 p2 q2 n e L m w e' L' m' w' 0).had := by subst eO; exact h.w_zero
  have hexact : ∀ x : MPoint E.E1.A × MPoint E.E2.A, O.Same (glueW E p1 q1 p2 q2 n e L m w e' L' m' w' x).had →
      ∃ a b : ℕ, x.1 = a • (4 • 2 ^ (n - 1) • p1) + b • (4 • 2 ^ (n - 1) • q1) ∧
        x.2 = a • (4 • 2 ^ (n - 1) • p2) + b • (4 • 2 ^ (n - 1) • q2) := fun x hi => by
    subst eO; exact h.w_exact hi
  generalize hg : glueW E p1 q1 p2 q2 n e L m w e' L' m' w' = gl at *
  obtain ⟨r, rfl⟩ : ∃ r, n = r + 3 := ⟨n - 3, by omega⟩
  obtain ⟨O', f, ⟨fO, ff⟩, hm, hO', k1, k2, hex, -⟩ := naiveLoop_map (G := MPoint E.E1.A × MPoint E.E2.A)
    (fun _ => True) (p1, p2) (q1, q2) h2 (r + 3) r O T1 T2 (by omega) (ProdChain.reg _ hc)
    ((hkum (p1, p2)).same s1) ((hkum (q1, q2)).same s2)
  obtain ⟨M, o, o', U, V, hM, hS, ho, hI, hker⟩ := splitData h2 hnull hm (hO'.of_had h2)
  have hnet : KNet O (fun _ => True) fun x => (gl x).had :=
    ⟨fun _ => hne _, hz, fun _ => .of_kummer hnull (hkum _), fun _ _ _ _ => hrie _ _⟩
  have quad : ∀ (X : ThPt K) (x : MPoint E.E1.A × MPoint E.E2.A), (gl x).had.Same X →
      O'.Same (f ((ThStr.new O).doubleIter X 2)) → IsNull o (U (gl (4 • x)).had) ∧ IsNull o' (V (gl (4 • x)).had) := by
    intro X x hX hs
    have key : ((ThStr.new O).doubleIter X 2).Same (gl (4 • x)).had := by
      have := ((double_same _ ((double_same _ hX).symm.trans (hdbl x))).trans (hdbl (2 • x)))
      rw [← mul_nsmul] at this
      exact this
    exact (hker _ (hkum _)).mp (hs.trans (hm.same key))
  refine ⟨M, o, o', fun x => U (gl x).had, fun x => V (gl x).had, ⟨fO ▸ hM, fO ▸ ho, ?_, ?_, ?_, ?_, ?_, ?_, ?_⟩⟩
  · refine ⟨h2, hS.left, fun {x} _ => (hS.nu (hkum x) (hne x)).1, ?_, fun {x y} _ _ _ _ => ?_⟩
    · exact PSame.trans hS.null.1 (hS.same (kummer_null O) (fun h0 => hnull.nz.X (by rw [h0]; rfl)) hz).1
    · exact (hS.riem (hkum x) (hkum y) (hkum _) (hkum _) (hne x) (hne y) (hrie x y)).1
  · refine ⟨h2, hS.right, fun {x} _ => (hS.nu (hkum x) (hne x)).2, ?_, fun {x y} _ _ _ _ => ?_⟩
    · exact PSame.trans hS.null.2 (hS.same (kummer_null O) (fun h0 => hnull.nz.X (by rw [h0]; rfl)) hz).2
    · exact (hS.riem (hkum x) (hkum y) (hkum _) (hkum _) (hne x) (hne y) (hrie x y)).2
  · intro x
    rw [hg, ← hI _ (hkum x), ff]
    rfl
  · intro X Y hXY
    have := hm.same hXY
    rw [ff] at this
    exact baseChange_same M this
  · exact quad T1 (p1, p2) s1 k1
  · exact quad T2 (q1, q2) s2 k2
  · intro x hU hV
    obtain ⟨a, b, hab⟩ := hex hnet s1 s2 (fun _ _ => trivial) (x := x) (fun _ _ => trivial) ((hker _ (hkum x)).mpr ⟨hU, hV⟩)
    obtain ⟨c, d, c1, d1⟩ := hexact _ hab
    have e : ∀ {A : K} (X : MPoint A) (c : ℕ), c • 4 • 2 ^ (r + 3 - 1) • X = ((c * 2 ^ (r + 3 - 1) : ℕ) : ℤ) • 4 • X := by
      intro A X c
      rw [natCast_zsmul, mul_nsmul', smul_comm 4]
    rw [e, e] at c1 d1
    refine ⟨((c * 2 ^ (r + 3 - 1) : ℕ) : ℤ) - a, ((d * 2 ^ (r + 3 - 1) : ℕ) : ℤ) - b, ?_⟩
    have c' : x + (a • 4 • (p1, p2) + b • 4 • (q1, q2)) = ((c * 2 ^ (r + 3 - 1) : ℕ) : ℤ) • 4 • (p1, p2) +
        ((d * 2 ^ (r + 3 - 1) : ℕ) : ℤ) • 4 • (q1, q2) := Prod.ext c1 d1
    refine (eq_sub_of_add_eq c').trans ?_
    rw [sub_zsmul, sub_zsmul]
    abel

end Festa
