import Verif.Lemmas.PenNet
import Verif.Lemmas.KaniEnd
/-! The null point before the last step of the chain of the diamond: its last coordinate vanishes. -/
namespace Festa
open WeierstrassCurve.Affine Polynomial Filter

section
variable {K : Type*} [Field K] [DecidableEq K]
  {E : EProd K} {P8 Q8 : CPt K} {p1 q1 : MPoint E.E1.A} {p2 q2 : MPoint E.E2.A} {e L m w e' L' m' w' : K}

local notation "DD" => gD e L m e' L' m' p1 p2
local notation "FF" => gF e L m e' L' m' q1 q2
local notation "WW" => gW (gD e L m e' L' m' p1 p2) (gF e L m e' L' m' q1 q2) e L m w e' L' m' w'

/-- The image of a point of order two on the second factor. -/
theorem GluePts.w_fp (h : GluePts E P8 Q8 p1 q1 p2 q2 e L m w e' L' m' w') :
    ∃ k : K, WW (0 : MPoint E.E1.A) (4 • p2) = ThPt.scale k ⟨1, DD, -FF, 0⟩ := by
  have ok := h.ok
  have hp := ok.p
  have hp' := ok.p'
  have nD := ok.nD
  have nF := ok.nF
  have hD := ok.hD
  have hF := ok.hF
  obtain ⟨c, hc, a1, a2, a3⟩ := h.f2.add_fp 0
  rw [zero_add] at a1 a2 a3
  refine ⟨c ^ 2 * ((1 + m ^ 2) * (1 + m' ^ 2)), ?_⟩
  rw [eq_div_iff (mul_ne_zero hp hp')] at hD hF
  simp only [gW, gw, ThPt.scale, ThPt.mk.injEq]
  rw [a1, a2, a3]
  rw [show U0 e L (0 : MPoint E.E1.A) = 1 from rfl, show U1 e L m (0 : MPoint E.E1.A) = m from rfl,
    show U0 e' L' (0 : MPoint E.E2.A) = 1 from rfl, show U1 e' L' m' (0 : MPoint E.E2.A) = m' from rfl,
    show UY m w (0 : MPoint E.E1.A) = 0 from rfl]
  refine ⟨by ring, ?_, ?_, by ring⟩
  · rw [div_eq_iff nD]; linear_combination -c ^ 2 * hD
  · rw [div_eq_iff nF]; linear_combination c ^ 2 * hF

@[inherit_doc GluePts.w_fp]
theorem GluePts.w_fq (h : GluePts E P8 Q8 p1 q1 p2 q2 e L m w e' L' m' w') :
    ∃ k : K, WW (0 : MPoint E.E1.A) (4 • q2) = ThPt.scale k ⟨1, -DD, FF, 0⟩ := by
  have ok := h.ok
  have hp := ok.p
  have hp' := ok.p'
  have nD := ok.nD
  have nF := ok.nF
  have hD := ok.hD
  have hF := ok.hF
  obtain ⟨c, hc, a1, a2, a3⟩ := h.f2.add_fq 0
  rw [zero_add] at a1 a2 a3
  refine ⟨c ^ 2 * ((1 + m ^ 2) * (1 + m' ^ 2)), ?_⟩
  rw [eq_div_iff (mul_ne_zero hp hp')] at hD hF
  simp only [gW, gw, ThPt.scale, ThPt.mk.injEq]
  rw [a1, a2, a3]
  rw [show U0 e L (0 : MPoint E.E1.A) = 1 from rfl, show U1 e L m (0 : MPoint E.E1.A) = m from rfl,
    show U0 e' L' (0 : MPoint E.E2.A) = 1 from rfl, show U1 e' L' m' (0 : MPoint E.E2.A) = m' from rfl,
    show UY m w (0 : MPoint E.E1.A) = 0 from rfl]
  refine ⟨by ring, ?_, ?_, by ring⟩
  · rw [div_eq_iff nD]; linear_combination c ^ 2 * hD
  · rw [div_eq_iff nF]; linear_combination -c ^ 2 * hF

end

variable {L : Type*} [Field L] [DecidableEq L] [IsAlgClosed L]
  {E : EProd L} {p1 q1 : MPoint E.E1.A} {p2 q2 : MPoint E.E2.A} {n : ℕ} {O T1 T2 : ThPt L}
  {ε l m w ε' l' m' w' : L} {A0 AF : L}
  {β : MPoint A0 →+ MPoint E.E1.A} {α : MPoint A0 →+ MPoint AF} {γ : MPoint AF →+ MPoint E.E2.A}
  {d1 dA e m1 m2 g : ℕ} {P Q : MPoint A0}

/-- The net after the gluing and the position of the points of order two of the second factor. -/
theorem glueNet (g1 : E.E1.Good) (g2 : E.E2.Good)
    (f1 : FacPts E.E1 (2 ^ (n - 1) • p1) (2 ^ (n - 1) • q1) ε l m w)
    (f2 : FacPts E.E2 (2 ^ (n - 1) • p2) (2 ^ (n - 1) • q2) ε' l' m' w')
    (frm : GlueFrm E p1 q1 p2 q2 n O T1 T2 ε l m w ε' l' m' w') (hO : ∀ j, wf j O O ≠ 0) :
    SurfNet O (fun x => (glueW E p1 q1 p2 q2 n ε l m w ε' l' m' w' x).had) ∧ OnKummer O T1 ∧ OnKummer O T2 ∧
      Keeps 1 O (glueW E p1 q1 p2 q2 n ε l m w ε' l' m' w' (0, 4 • 2 ^ (n - 1) • p2)).had ∧
      Keeps 2 O (glueW E p1 q1 p2 q2 n ε l m w ε' l' m' w' (0, 4 • 2 ^ (n - 1) • q2)).had := by
  have h2 := g1.two
  have h : GluePts E ⟨ptOf _, ptOf _⟩ ⟨ptOf _, ptOf _⟩ _ _ _ _ ε l m w ε' l' m' w' :=
    ⟨g1, g2, f1, f2, ptOf_rep _, ptOf_rep _, ptOf_rep _, ptOf_rep _⟩
  obtain ⟨eO, s1, s2⟩ := frm
  have net : SurfNet O (fun x => (glueW E p1 q1 p2 q2 n ε l m w ε' l' m' w' x).had) :=
    ⟨hO, fun x => h.w_ne _ _, by subst eO; exact h.w_zero, fun x y => by rw [eO]; exact h.w_riem _ _ _ _⟩
  refine ⟨net, OnKummer.same (by rw [eO]; exact h.w_kummer _ _) s1, OnKummer.same (by rw [eO]; exact h.w_kummer _ _) s2, ?_, ?_⟩
  · obtain ⟨s, hs⟩ := exists_signs (net.dbl (0, 4 • 2 ^ (n - 1) • p2)) (by
      rw [show 2 • ((0 : MPoint E.E1.A), 4 • 2 ^ (n - 1) • p2) = 0 from Prod.ext (smul_zero 2) f2.two_fp]
      exact net.zero)
    obtain ⟨k, hk⟩ := h.w_fp
    refine hs.keeps h2 hO (c := k ^ 2) ?_ ?_ <;>
    · rw [eO, glueW, hk, wf_had, wf_had]
      simp only [hperm, wf, ThPt.scale, gn]
      ring
  · obtain ⟨s, hs⟩ := exists_signs (net.dbl (0, 4 • 2 ^ (n - 1) • q2)) (by
      rw [show 2 • ((0 : MPoint E.E1.A), 4 • 2 ^ (n - 1) • q2) = 0 from Prod.ext (smul_zero 2) f2.two_fq]
      exact net.zero)
    obtain ⟨k, hk⟩ := h.w_fq
    refine hs.keeps h2 hO (c := k ^ 2) ?_ ?_ <;>
    · rw [eO, glueW, hk, wf_had, wf_had]
      simp only [hperm, wf, ThPt.scale, gn]
      ring

omit [DecidableEq L] [IsAlgClosed L] in
theorem JacChain.none {r : ℕ} {O K1 K2 : ThPt L} (h : JacChain (r + 2) O K1 K2) : NoneVanishes O := by
  cases r with
  | zero => exact h.2.1
  | succ r => exact h.2.1

/-- The half of a generator of the kernel on the first curve. -/
theorem Diamond.curveF_half (dia : Diamond β α γ d1 dA e m1 m2 n g P Q) {a : MPoint A0} (ha : 2 ^ (n + 1) • a = 0)
    (ka : 2 • (p1, p2) = (β a, g • γ (α a))) : ∃ x y : ℤ,
      curveF β α γ m1 dA m2 a = 2 • (p1, p2) + (x • 4 • (p1, p2) + y • ((0 : MPoint E.E1.A), 4 • 2 ^ (n - 1) • p2)) := by
  obtain ⟨a1, a2, a3, a4, a5⟩ := dia.odds
  have k2 : 2 • p2 = g • γ (α a) := congrArg Prod.snd ka
  have k1 : 2 • p1 = β a := congrArg Prod.fst ka
  have t : 2 ^ (n + 1) • γ (α a) = 0 := by rw [← map_nsmul, ← map_nsmul, ha, map_zero, map_zero]
  obtain ⟨c, hc⟩ := dia.g_neg
  obtain ⟨x, hx⟩ : ∃ x : ℕ, m1 * dA = 2 * x + 1 := ⟨m1 * dA / 2, by
    have : (m1 * dA) % 2 = 1 := by rw [Nat.mul_mod, a1, a2]
    omega⟩
  obtain ⟨y, hy⟩ : ∃ y : ℕ, g = 2 * y + 1 := ⟨g / 2, by have := dia.g_odd; omega⟩
  refine ⟨x, -c, ?_⟩
  have r2 : 4 • 2 ^ (n - 1) • p2 = 2 ^ n • γ (α a) := by
    have : 4 • 2 ^ (n - 1) • p2 = 2 ^ n • 2 • p2 := by
      rw [← mul_nsmul', ← mul_nsmul']
      congr 1
      obtain ⟨k, rfl⟩ : ∃ k, n = k + 1 := ⟨n - 1, by have := dia.npos; omega⟩
      rw [Nat.add_sub_cancel, pow_succ]; ring
    rw [this, k2, hy, add_nsmul, one_nsmul, nsmul_add, ← mul_nsmul', show 2 ^ n * (2 * y) = y * 2 ^ (n + 1) by rw [pow_succ]; ring,
      mul_nsmul', t, nsmul_zero, zero_add]
  have four : ∀ {A : L} (X : MPoint A), 4 • X = 2 • 2 • X := fun X => by rw [← mul_nsmul']
  refine Prod.ext ?_ ?_
  · change (m1 * dA) • β a = 2 • p1 + ((x : ℤ) • 4 • p1 + (-c) • (0 : MPoint E.E1.A))
    rw [four, k1, zsmul_zero, add_zero, hx, natCast_zsmul, add_nsmul, one_nsmul, add_comm, ← mul_nsmul', mul_comm]
  · change -(m2 • γ (α a)) = 2 • p2 + ((x : ℤ) • 4 • p2 + (-c) • 4 • 2 ^ (n - 1) • p2)
    rw [r2, four, k2]
    generalize γ (α a) = z
    have : ((-(m2 : ℤ)) : ℤ) • z = ((g : ℤ) + (x * 2 * g + (-c) * (2 ^ n : ℕ))) • z := by
      congr 1
      have hx' : (m1 * dA : ℤ) = 2 * x + 1 := by exact_mod_cast hx
      linear_combination (g : ℤ) * hx' - hc
    rw [neg_zsmul, natCast_zsmul] at this
    rw [this, add_zsmul, add_zsmul, mul_zsmul, mul_zsmul, mul_zsmul]
    norm_cast

/-- **The last coordinate of the null point before the last step vanishes.** -/
theorem Diamond.pen (dia : Diamond β α γ d1 dA e m1 m2 n g P Q) (g1 : E.E1.Good) (g2 : E.E2.Good) (h3 : 3 ≤ n)
    (f1 : FacPts E.E1 (2 ^ (n - 1) • p1) (2 ^ (n - 1) • q1) ε l m w)
    (f2 : FacPts E.E2 (2 ^ (n - 1) • p2) (2 ^ (n - 1) • q2) ε' l' m' w')
    (frm : GlueFrm E p1 q1 p2 q2 n O T1 T2 ε l m w ε' l' m' w') (hc : JacChain (n - 1) O T1 T2)
    {a b : MPoint A0} (ea : 2 • a = P) (eb : 2 • b = Q)
    (ka : 2 • (p1, p2) = (β a, g • γ (α a))) (kb : 2 • (q1, q2) = (β b, g • γ (α b))) : (penNull (n - 3) O T1 T2).T = 0 := by
  have h2 := g1.two
  obtain ⟨a1, a2, a3, a4, a5⟩ := dia.odds
  have hc' : JacChain (n - 3 + 2) O T1 T2 := by rw [show n - 3 + 2 = n - 1 by omega]; exact hc
  obtain ⟨net0, k1, k2, r1, r2⟩ := glueNet g1 g2 f1 f2 frm hc'.none.wf
  obtain ⟨net, al, keep⟩ := penNet h2 (n - 3) net0 hc' k1 k2 frm.fst frm.snd
  have r1 := keep (.inl rfl) r1
  have r2 := keep (.inr rfl) r2
  have z1 : m1 * dA ≠ 0 := mul_ne_zero (by omega) (by omega)
  have z2 : m2 ≠ 0 := by omega
  have hγα := dia.hα.comp dia.hγ
  have t1 := dia.hβ.tendsto_smul h2 g1.disc z1
  have t2 := tendsto_neg_hom (hγα.tendsto_smul h2 g2.disc z2)
  obtain ⟨v, dv, ev⟩ := glue_poly h2 dia.disc g1.disc g2.disc (gD ε l m ε' l' m' (2 ^ (n - 1) • p1) (2 ^ (n - 1) • p2))
    (gF ε l m ε' l' m' (2 ^ (n - 1) • q1) (2 ^ (n - 1) • q2)) (w := w) (w' := w') f1.fac.nm f2.fac.nm f1.onC f2.onC
    (α := (nsmulAddMonoidHom (m1 * dA)).comp β) (β := -((nsmulAddMonoidHom m2).comp (γ.comp α)))
    (dia.hβ.poly.comp (PolyX.mul h2 g1.disc z1) dia.hβ.fin)
    (hγα.poly.comp (PolyX.mul h2 g2.disc z2) hγα.fin).neg t1 t2
  obtain ⟨v', dv', ev'⟩ := ((polyMap_pen (n - 3) O T1 T2).comp polyMap_had) _ v dv
  have dn : 2 * (2 ^ (n - 3 + 1) * 1 * (2 * (d1 * (m1 * dA) ^ 2 + dA * e * m2 ^ 2))) = dA * (2 ^ n * 2 ^ n) := by
    have e1 : d1 * (m1 * dA) ^ 2 + dA * e * m2 ^ 2 = dA * 2 ^ n := by rw [← dia.norm]; ring
    rw [e1, mul_one, show 2 ^ n * 2 ^ n = 2 ^ (n - 3 + 1 + 1 + 1) * 2 ^ n by congr 2; omega, pow_succ _ (n - 3 + 1 + 1), pow_succ _ (n - 3 + 1)]
    ring
  have same : ∀ {X Y : ThPt L}, X.Same Y → (penImg (n - 3) O T1 T2 X).Same (penImg (n - 3) O T1 T2 Y) := penImg_same _
  generalize hθ : (fun x => penImg (n - 3) O T1 T2 (glueW E p1 q1 p2 q2 n ε l m w ε' l' m' w' x).had) = θ at net
  have hθ' : ∀ x, penImg (n - 3) O T1 T2 (glueW E p1 q1 p2 q2 n ε l m w ε' l' m' w' x).had = θ x := fun x => by rw [← hθ]
  simp only [hθ'] at al r1 r2
  generalize penNull (n - 3) O T1 T2 = O' at *
  have four : ∀ X : MPoint E.E1.A × MPoint E.E2.A, 2 • 2 • X = 4 • X := fun X => by rw [← mul_nsmul']
  obtain ⟨u1, u2⟩ := net.keeps_dbl_xz h2 al.y1 al.t1
  obtain ⟨v1, v2⟩ := net.keeps_dbl_xy h2 al.z2 al.t2
  rw [four] at u1 u2 v1 v2
  have kp : 4 • (p1, p2) = (β P, g • γ (α P)) := by
    rw [← four, ka, ← ea, map_nsmul, map_nsmul, map_nsmul, smul_comm g]; rfl
  have kq : 4 • (q1, q2) = (β Q, g • γ (α Q)) := by
    rw [← four, kb, ← eb, map_nsmul, map_nsmul, map_nsmul, smul_comm g]; rfl
  have cnet : SurfNet O' (fun T => θ (curveF β α γ m1 dA m2 T)) :=
    ⟨net.ten, fun _ => net.ne _, by rw [map_zero]; exact net.zero, fun x y => by rw [map_add, map_sub]; exact net.riem _ _⟩
  obtain ⟨S, -, hS, hSk⟩ := dia.exists_setF
  have hP : ∀ {a : MPoint A0} {P : MPoint A0}, 2 • a = P → 2 ^ n • P = 0 → 2 ^ (n + 1) • a = 0 := fun e h => by
    rw [pow_succ, mul_nsmul', e, h]
  have tP : 2 ^ n • P = 0 := by simpa using dia.combo_tors 1 0
  have tQ : 2 ^ n • Q = 0 := by simpa using dia.combo_tors 0 1
  have va : ∀ s ∈ S, (θ (curveF β α γ m1 dA m2 (a + s))).T = 0 := by
    intro s hs
    obtain ⟨k, x, y, hk, e⟩ := hSk s hs
    obtain ⟨x', y', e'⟩ := dia.curveF_mem _ x y k hk e
    obtain ⟨x0, y0, e0⟩ := dia.curveF_half (hP ea tP) ka
    rw [map_add, e', e0, dia.graph' kp kq, add_assoc]
    refine (net.shape_xz h2 al.y1 al.t1 ?_).2
    refine (net.keepers h2 1).add_mem ((net.keepers h2 1).add_mem ((net.keepers h2 1).zsmul_mem u1 _) ((net.keepers h2 1).zsmul_mem r1 _))
      ((net.keepers h2 1).add_mem ((net.keepers h2 1).zsmul_mem u1 _) ((net.keepers h2 1).zsmul_mem v1 _))
  have vb : ∀ s ∈ S, (θ (curveF β α γ m1 dA m2 (b + s))).T = 0 := by
    intro s hs
    obtain ⟨k, x, y, hk, e⟩ := hSk s hs
    obtain ⟨x', y', e'⟩ := dia.curveF_mem _ x y k hk e
    obtain ⟨x0, y0, e0⟩ := dia.curveF_half (hP eb tQ) kb
    rw [map_add, e', e0, dia.graph' kp kq, add_assoc]
    refine (net.shape_xy h2 al.z2 al.t2 ?_).2
    refine (net.keepers h2 2).add_mem ((net.keepers h2 2).add_mem ((net.keepers h2 2).zsmul_mem v2 _) ((net.keepers h2 2).zsmul_mem r2 _))
      ((net.keepers h2 2).add_mem ((net.keepers h2 2).zsmul_mem u2 _) ((net.keepers h2 2).zsmul_mem v2 _))
  have disj : Disjoint (S.image (a + ·)) (S.image (b + ·)) := by
    rw [Finset.disjoint_left]
    intro x hx hx'
    obtain ⟨s, hs, rfl⟩ := Finset.mem_image.mp hx
    obtain ⟨s', hs', e⟩ := Finset.mem_image.mp hx'
    obtain ⟨k, x, y, hk, rfl⟩ := hSk s hs
    obtain ⟨k', x', y', hk', rfl⟩ := hSk s' hs'
    have e1 := congrArg (fun z => (2 ^ n * dA) • z) e
    have kill : ∀ {k : MPoint A0} {x y : ℤ}, α k = 0 → (2 ^ n * dA) • (k + (x • P + y • Q)) = 0 := by
      intro k x y hk
      rw [nsmul_add, mul_nsmul', dia.hα.kill _ hk, nsmul_zero, mul_comm, mul_nsmul', dia.combo_tors, nsmul_zero, add_zero]
    simp only [nsmul_add (b), nsmul_add (a), kill hk, kill hk', add_zero] at e1
    have pow : 2 ^ n = 2 ^ (n - 1) * 2 := by rw [← pow_succ]; congr 1; omega
    have e2 : (2 ^ n * dA) • a = (2 ^ (n - 1) * dA) • P := by rw [← ea, ← mul_nsmul', pow]; congr 1; ring
    have e3 : (2 ^ n * dA) • b = (2 ^ (n - 1) * dA) • Q := by rw [← eb, ← mul_nsmul', pow]; congr 1; ring
    rw [e2, e3] at e1
    have e4 : ((2 ^ (n - 1) * dA : ℕ) : ℤ) • P + (-((2 ^ (n - 1) * dA : ℕ) : ℤ)) • Q = 0 := by
      rw [neg_zsmul, natCast_zsmul, natCast_zsmul, e1, add_neg_cancel]
    have := ((dia.basis _ _).mp e4).1
    rw [pow, Int.natCast_dvd_natCast] at this
    have := Nat.dvd_of_mul_dvd_mul_left (pow_pos two_pos _) this
    omega
  have inj : ∀ c : MPoint A0, (S.image (c + ·)).card = S.card := fun c => Finset.card_image_of_injective _ (add_right_injective c)
  have key : ∀ T, wf 0 (⟨0, 0, 0, 1⟩ : ThPt L) (θ (curveF β α γ m1 dA m2 T)) = 0 := by
    intro T
    refine cnet.kill h2 dia.disc (v := v') dv' ?_ (u := ⟨0, 0, 0, 1⟩) (S.image (a + ·) ∪ S.image (b + ·)) ?_ ?_ T
    · filter_upwards [ev] with T hT
      rw [ev', ← hθ]
      exact same (had_same hT)
    · rw [dn, Finset.card_union_of_disjoint disj, inj, inj, hS]
      have : 0 < dA * (2 ^ n * 2 ^ n) := Nat.mul_pos (by omega) (by positivity)
      omega
    · intro s hs
      have : (θ (curveF β α γ m1 dA m2 s)).T = 0 := by
        rcases Finset.mem_union.mp hs with h | h
        · obtain ⟨s, hs', rfl⟩ := Finset.mem_image.mp h; exact va s hs'
        · obtain ⟨s, hs', rfl⟩ := Finset.mem_image.mp h; exact vb s hs'
      simp only [wf, this]; ring
  have k0 := key 0
  obtain ⟨c, hc, e⟩ := cnet.zero
  rw [e] at k0
  simp only [wf, ThPt.scale] at k0
  exact (mul_eq_zero.mp (by linear_combination k0)).resolve_left hc

end Festa
