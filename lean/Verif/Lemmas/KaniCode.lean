import Verif.Lemmas.KaniJac
import Verif.Lemmas.KaniFactor
import Verif.Lemmas.Dual
import Verif.Spec.Kani
import Verif.Props.ProductHom
/-! Kani's theorem for `product_isogeny`. -/
namespace Festa
open WeierstrassCurve.Affine

section
variable {K : Type} [Field K] [DecidableEq K] [RootOps K]

theorem nsmul_modEq {H : Type*} [AddCommGroup H] {n : Nat} {X : H} (h : n • X = 0) {a b : Nat} (e : a ≡ b [MOD n]) : a • X = b • X := by
  have k : ∀ a, a • X = (a % n) • X := fun a => by
    conv_lhs => rw [← Nat.mod_add_div a n, add_nsmul, mul_comm, mul_nsmul', h, nsmul_zero, add_zero]
  rw [k a, e, ← k b]

open Classical in
theorem kani_code_prod {E0 EA : Crv K} {E : EProd K} (gE0 : E0.Good) (gEA : EA.Good) (g1 : E.E1.Good) (g2 : E.E2.Good)
    {φ1 : MPoint E0.A →+ MPoint E.E1.A} {φA : MPoint E0.A →+ MPoint EA.A} {γ : MPoint EA.A →+ MPoint E.E2.A} {d1 dA e : ℕ}
    {β' : MPoint (algebraMap K (AlgebraicClosure K) E0.A) →+ MPoint (algebraMap K (AlgebraicClosure K) E.E1.A)}
    {α' : MPoint (algebraMap K (AlgebraicClosure K) E0.A) →+ MPoint (algebraMap K (AlgebraicClosure K) EA.A)}
    {γ' : MPoint (algebraMap K (AlgebraicClosure K) EA.A) →+ MPoint (algebraMap K (AlgebraicClosure K) E.E2.A)}
    (cβ : ∀ X, β' (mapHom (algebraMap K (AlgebraicClosure K)) X) = mapHom (algebraMap K (AlgebraicClosure K)) (φ1 X))
    (cα : ∀ X, α' (mapHom (algebraMap K (AlgebraicClosure K)) X) = mapHom (algebraMap K (AlgebraicClosure K)) (φA X))
    (cγ : ∀ X, γ' (mapHom (algebraMap K (AlgebraicClosure K)) X) = mapHom (algebraMap K (AlgebraicClosure K)) (γ X))
    (iβ : Isg β' d1) (iα : Isg α' dA) (iγ : Isg γ' e)
    {ψ1 : MPoint E.E1.A →+ MPoint E0.A} {ψ : MPoint E.E2.A →+ MPoint EA.A}
    (h1 : ∀ Y X, β' X = mapHom (algebraMap K (AlgebraicClosure K)) Y → mapHom (algebraMap K (AlgebraicClosure K)) (ψ1 Y) = d1 • X)
    (h2 : ∀ Y X, γ' X = mapHom (algebraMap K (AlgebraicClosure K)) Y → mapHom (algebraMap K (AlgebraicClosure K)) (ψ Y) = e • X)
    {m1 m2 n g : ℕ} (h3 : 3 ≤ n) (norm : m1 ^ 2 * dA * d1 + m2 ^ 2 * e = 2 ^ n) (odd1 : (m1 * dA * d1) % 2 = 1) (odd2 : (m2 * e) % 2 = 1)
    (hg : g * (m2 * e) ≡ m1 * d1 [MOD 2 ^ n]) {p q : MPoint E0.A} (hb : IsBasis (2 ^ (n + 2)) p q)
    {P Q : CPt K} (rp1 : PRep P.P1 (φ1 p)) (rp2 : PRep P.P2 (g • γ (φA p))) (rq1 : PRep Q.P1 (φ1 q)) (rq2 : PRep Q.P2 (g • γ (φA q)))
    (b1 : IsBasis (2 ^ (n + 2)) (φ1 p) (φ1 q)) (b2 : IsBasis (2 ^ (n + 2)) (g • γ (φA p)) (g • γ (φA q)))
    {P8 Q8 : MPoint EA.A} (b8 : IsBasis 8 P8 Q8) {O T1 T2 : ThPt K}
    (hgl : gluingIsogeny E (E.doubleIter P (n - 1)) (E.doubleIter Q (n - 1)) [P, Q] = (ThStr.new O, [T1, T2]))
    (hc : ProdChain (n - 1) O T1 T2) (a0 : EA.A ≠ 0) (a3 : EA.A * EA.A ≠ 3) (a9 : 2 * (EA.A * EA.A) ≠ 9) :
    ∃ (E3 E4 : Crv K) (F : CPt K → CPt K), E3.Good ∧ E4.Good ∧
      (∀ (S : List Nat) (images : List (CPt K)), IsStrategy n S →
        productIsogeny E P Q images n S = some (⟨E3, E4⟩, images.map F)) ∧
      ((E3.A ≠ -EA.A → Reads EA E3 (E := E) (fun X => (F X).P1) (fun x => m1 • φA (ψ1 x.1) - m2 • ψ x.2)) ∨
        (E4.A ≠ -EA.A → Reads EA E4 (E := E) (fun X => (F X).P2) (fun x => m1 • φA (ψ1 x.1) - m2 • ψ x.2))) ∧
      (splittingMatrix (chainNull (n - 3) O T1 T2) = some ⟨⟨1, 1, 1, 1⟩, ⟨1, -1, 1, -1⟩, ⟨1, 1, -1, -1⟩, ⟨-1, 1, 1, -1⟩⟩ →
        g * (m2 * e) ≡ m1 * d1 [MOD 2 ^ (n + 2)] →
        (E3.A ≠ -EA.A → Reads EA E3 (E := E) (fun X => (F X).P1) (fun x => m1 • φA (ψ1 x.1) - m2 • ψ x.2)) ∧
        (E3.A = -EA.A → xc (2 ^ (n + 1) • φA p) = 0)) := by
  obtain ⟨E3, E4, F, o, o', U, V, h, ⟨ε, l, m, w, ε', l', m', w', M, f1, f2, frm, split, nulls, img⟩, hF⟩ :=
    prodNet g1 g2 rp1 rp2 rq1 rq2 b1 b2 h3 hgl hc
  refine ⟨E3, E4, F, h.good3, h.good4, fun S images hS => ?_, ?_⟩
  · rw [C47_strategy_equals_naive g1 g2 rp1 rp2 rq1 rq2 b1 b2 hgl (RegChain.ok _ (ProdChain.reg _ hc)) hS images, hF]
  generalize hσ : algebraMap K (AlgebraicClosure K) = σ at *
  let _ : RootOps (AlgebraicClosure K) := closedRoots (σ RootOps.zeta) (by rw [← map_mul, RootOps.zeta_sq, map_neg, map_one])
    (by rw [← map_ofNat σ 2]; exact (map_ne_zero σ).mpr g1.two)
  have hb4 : IsBasis (2 ^ n) (4 • mapHom σ p) (4 • mapHom σ q) := by
    have := IsBasis.nsmul (m := 4) (n := 2 ^ n) (by rw [show 4 * 2 ^ n = 2 ^ (n + 2) by rw [pow_add]; ring]; exact hb) (by norm_num)
    rw [← map_nsmul, ← map_nsmul]
    exact this.map fun S _ h0 => mapPt_inj σ h0
  have dia : Diamond β' α' γ' d1 dA e m1 m2 n g (4 • mapHom σ p) (4 • mapHom σ q) :=
    ⟨(gE0.up σ).disc, (gEA.up σ).disc, iβ, iα, iγ, norm, by omega, odd1, odd2, hg, hb4⟩
  have kβ : ∀ p, 4 • mapHom σ (φ1 p) = β' (4 • mapHom σ p) := fun p => by rw [map_nsmul, cβ]
  have kγ : ∀ p, 4 • mapHom σ (g • γ (φA p)) = g • γ' (α' (4 • mapHom σ p)) := fun p => by
    rw [map_nsmul α', map_nsmul γ', cα, cγ, map_nsmul, smul_comm]
  have main := kani_up σ rfl g1 g2 h3 f1 f2 frm hc split nulls
    (N := fun x => ¬ GlueExc (2 ^ (n - 1) • φ1 p) (2 ^ (n - 1) • φ1 q) (2 ^ (n - 1) • g • γ (φA p)) (2 ^ (n - 1) • g • γ (φA q)) x.1 x.2)
    img dia (kβ p) (kγ p) (kβ q) (kγ q)
  -- reading one factor
  have read : ∀ {c : K × K} {W W' : MPoint E.E1.A × MPoint E.E2.A → K × K} {H : Crv K} (G : CPt K → Pt K), H.Good → H.A = nullToMontCoeff c → Null1 c →
      PartIs σ (fun x => ¬ GlueExc (2 ^ (n - 1) • φ1 p) (2 ^ (n - 1) • φ1 q) (2 ^ (n - 1) • g • γ (φA p)) (2 ^ (n - 1) • g • γ (φA q)) x.1 x.2)
        c W β' γ' (fun x => (m1 * d1) • α' x.1 - (m2 * e) • x.2) →
      OffAxes (fun x => ¬ GlueExc (2 ^ (n - 1) • φ1 p) (2 ^ (n - 1) • φ1 q) (2 ^ (n - 1) • g • γ (φA p)) (2 ^ (n - 1) • g • γ (φA q)) x.1 x.2) W' →
      (∀ {R : CPt K} {r1 : MPoint E.E1.A} {r2 : MPoint E.E2.A}, PRep R.P1 r1 → PRep R.P2 r2 →
        ¬ GlueExc (2 ^ (n - 1) • φ1 p) (2 ^ (n - 1) • φ1 q) (2 ^ (n - 1) • g • γ (φA p)) (2 ^ (n - 1) • g • γ (φA q)) r1 r2 →
        ((W' (r1, r2)).1 ≠ 0 ∧ (W' (r1, r2)).2 ≠ 0) → ∃ t : K, t ≠ 0 ∧
          G R = (H.completePointX ⟨t * (thetaToMontPoint c (W (r1, r2))).X, t * (thetaToMontPoint c (W (r1, r2))).Z⟩).1) →
      H.A ≠ -EA.A → Reads EA H (E := E) G (fun x => m1 • φA (ψ1 x.1) - m2 • ψ x.2) := by
    intro c W W' H G gH hH nc hpart hoff hout hne
    obtain ⟨hfound, θ, hθ, hk⟩ := hpart.found σ gEA gH hH (fun h => nc.s (by rw [← h]; ring)) (fun h => nc.d (by rw [← h]; ring)) b8 a0 a3 a9 hne
    refine ⟨hfound.j gH gEA, ?_⟩
    rintro X x1 x2 hx1 hx2 ⟨s, k, so, s2, s1, s4⟩ hΦ
    have hN : ¬ GlueExc (2 ^ (n - 1) • φ1 p) (2 ^ (n - 1) • φ1 q) (2 ^ (n - 1) • g • γ (φA p)) (2 ^ (n - 1) • g • γ (φA q)) x1 x2 :=
      C68_not_exceptional (by omega) b1 b2 (.inl ⟨s, Nat.odd_iff.mpr so, .inr s2⟩)
    obtain ⟨t, ht, eG⟩ := hout hx1 hx2 hN (by
      constructor <;> intro h0
      · exact s4 (hoff (x1, x2) hN (.inl h0) s k s2 s1)
      · exact s4 (hoff (x1, x2) hN (.inr h0) s k s2 s1))
    obtain ⟨X1, hX1⟩ := iβ.surj (mapHom σ x1)
    obtain ⟨X2, hX2⟩ := iγ.surj (mapHom σ x2)
    have e : (m1 * d1) • α' X1 - (m2 * e) • X2 = mapHom σ (m1 • φA (ψ1 x1) - m2 • ψ x2) := by
      rw [map_sub, map_nsmul, map_nsmul, ← cα, h1 _ _ hX1, h2 _ _ hX2, map_nsmul, mul_nsmul', mul_nsmul']
    have hkr := hk (x1, x2) hN X1 X2 hX1 hX2 _ hΦ e
    have hR0 : θ.symm (m1 • φA (ψ1 x1) - m2 • ψ x2) ≠ 0 := fun h => hΦ (by
      change m1 • φA (ψ1 x1) - m2 • ψ x2 = 0
      rw [← θ.apply_symm_apply (m1 • φA (ψ1 x1) - m2 • ψ x2), h, map_zero])
    simp only [eG]
    rcases complete_rep gH (krep_mul ht hkr) with r | r
    · left
      simpa using hθ _ _ r hR0
    · right
      simpa using hθ _ _ r (neg_ne_zero.mpr hR0)
  have second := fun a b => read (fun X => (F X).P2) h.good4 h.a4 h.netU.null a b fun hr1 hr2 hN hW => by
    obtain ⟨c, d, hc, hd, e⟩ := h.out hr1 hr2 hN
    exact ⟨_, mul_ne_zero hd hW.2, by rw [e]⟩
  have first := fun a b => read (fun X => (F X).P1) h.good3 h.a3 h.netV.null a b fun hr1 hr2 hN hW => by
    obtain ⟨c, d, hc, hd, e⟩ := h.out hr1 hr2 hN
    exact ⟨_, mul_ne_zero hc hW.1, by rw [e]⟩
  refine ⟨main.symm.imp (fun h => first h.1 h.2) (fun h => second h.1 h.2), fun hsp hg' => ?_⟩
  -- the position of the points
  have hM := Option.some.inj (split.symm.trans hsp)
  have N1 := exc_comb (by omega) b1 b2 0 1
  simp only [zero_smul, one_smul, zero_add] at N1
  have N2 : ¬ GlueExc (2 ^ (n - 1) • φ1 p) (2 ^ (n - 1) • φ1 q) (2 ^ (n - 1) • g • γ (φA p)) (2 ^ (n - 1) • g • γ (φA q))
      (0 : MPoint E.E1.A) (4 • 2 ^ (n - 1) • g • γ (φA p)) := C68_not_exceptional (by omega) b1 b2 (.inl ⟨1, odd_one, .inl (smul_zero 1)⟩)
  obtain ⟨hu, t, ht, hv⟩ := factor_pos g1 g2 h3 f1 f2 frm hc hM nulls (img (_, _) N1) (img (0, _) N2) (h.netV.ne (x := (_, _)) N1)
    (h.netU.ne (x := (0, _)) N2) (h.netV.ne (x := (0, _)) N2)
  have zero : ∀ X : MPoint E0.A, 2 ^ (n + 2) • X = 0 →
      (m1 * d1) • α' (mapHom σ X) - (m2 * e) • g • α' (mapHom σ X) = 0 := by
    intro X hX
    have : 2 ^ (n + 2) • α' (mapHom σ X) = 0 := by rw [← map_nsmul, ← map_nsmul, hX, map_zero, map_zero]
    rw [← mul_nsmul', sub_eq_zero, mul_comm (m2 * e)]
    exact nsmul_modEq this hg'.symm
  have cγα : ∀ X, γ' (g • α' (mapHom σ X)) = mapHom σ (g • γ (φA X)) := fun X => by rw [map_nsmul, cα, cγ, map_nsmul]
  have hsec := main.resolve_left fun a => by
    have := a.1.zero σ (x := (_, _)) N1 (cβ q) (cγα q) (zero q hb.nsmul_right)
    rw [hu, mul_zero] at this
    exact h.netU.ne (x := (_, _)) N1 (Prod.ext ((mul_eq_zero.mp this.symm).resolve_left h.netU.null.b) hu)
  refine ⟨first hsec.1 hsec.2, fun hopp => ?_⟩
  by_cases h0 : 2 ^ (n + 1) • φA p = 0
  · rw [h0]; rfl
  have e4 : 4 • 2 ^ (n - 1) • g • γ (φA p) = 2 ^ (n + 1) • g • γ (φA p) := by
    rw [← mul_nsmul', show 4 * 2 ^ (n - 1) = 2 ^ (n + 1) by rw [show n + 1 = n - 1 + 2 by omega, pow_add]; ring]
  have two : 2 • 2 ^ (n + 1) • α' (mapHom σ p) = 0 := by
    rw [← mul_nsmul', ← pow_succ', ← map_nsmul, ← map_nsmul, hb.nsmul_left, map_zero, map_zero]
  refine hsec.1.opposite σ h.a3 hopp a0 a3 a9 (x := (0, _)) N2 (X1 := 0) (X2 := 2 ^ (n + 1) • g • α' (mapHom σ p)) ((map_zero β').trans (map_zero (mapHom σ)).symm)
    ?_ h0 ?_ ?_
  · exact (map_nsmul γ' _ _).trans ((congrArg _ (cγα p)).trans ((map_nsmul (mapHom σ) _ _).symm.trans (congrArg _ e4.symm)))
  · have o1 : m1 * d1 % 2 = 1 := by
      rcases Nat.mod_two_eq_zero_or_one (m1 * d1) with h | h
      · rw [show m1 * dA * d1 = m1 * d1 * dA by ring, Nat.mul_mod, h, zero_mul, Nat.zero_mod] at odd1
        exact absurd odd1 (by norm_num)
      · exact h
    have z := sub_eq_zero.mp (zero p hb.nsmul_left)
    show (m1 * d1) • α' 0 - (m2 * e) • 2 ^ (n + 1) • g • α' (mapHom σ p) = _
    rw [map_zero, smul_zero, zero_sub, smul_comm (m2 * e), ← z, smul_comm _ (m1 * d1), nsmul_modEq two (b := 1) o1, one_nsmul, map_nsmul, ← cα,
      neg_eq_iff_add_eq_zero, ← two_nsmul, two]
  · have e1 : o'.1 = t * _ := congrArg Prod.fst hv
    have e2 : -o'.2 = t * _ := congrArg Prod.snd hv
    have : t * (o'.1 * (V (0, 4 • 2 ^ (n - 1) • g • γ (φA p))).2 + o'.2 * (V (0, 4 • 2 ^ (n - 1) • g • γ (φA p))).1) = 0 := by
      linear_combination -o'.1 * e2 - o'.2 * e1
    exact (mul_eq_zero.mp this).resolve_left ht

open Classical in
theorem kani_code {E0 EA : Crv K} {E : EProd K} (gE0 : E0.Good) (gEA : EA.Good) (g1 : E.E1.Good) (g2 : E.E2.Good)
    {φ1 : MPoint E0.A →+ MPoint E.E1.A} {φA : MPoint E0.A →+ MPoint EA.A} {γ : MPoint EA.A →+ MPoint E.E2.A} {d1 dA e : ℕ}
    {β' : MPoint (algebraMap K (AlgebraicClosure K) E0.A) →+ MPoint (algebraMap K (AlgebraicClosure K) E.E1.A)}
    {α' : MPoint (algebraMap K (AlgebraicClosure K) E0.A) →+ MPoint (algebraMap K (AlgebraicClosure K) EA.A)}
    {γ' : MPoint (algebraMap K (AlgebraicClosure K) EA.A) →+ MPoint (algebraMap K (AlgebraicClosure K) E.E2.A)}
    (cβ : ∀ X, β' (mapHom (algebraMap K (AlgebraicClosure K)) X) = mapHom (algebraMap K (AlgebraicClosure K)) (φ1 X))
    (cα : ∀ X, α' (mapHom (algebraMap K (AlgebraicClosure K)) X) = mapHom (algebraMap K (AlgebraicClosure K)) (φA X))
    (cγ : ∀ X, γ' (mapHom (algebraMap K (AlgebraicClosure K)) X) = mapHom (algebraMap K (AlgebraicClosure K)) (γ X))
    (iβ : Isg β' d1) (iα : Isg α' dA) (iγ : Isg γ' e)
    {ψ1 : MPoint E.E1.A →+ MPoint E0.A} {ψ : MPoint E.E2.A →+ MPoint EA.A}
    (h1 : ∀ Y X, β' X = mapHom (algebraMap K (AlgebraicClosure K)) Y → mapHom (algebraMap K (AlgebraicClosure K)) (ψ1 Y) = d1 • X)
    (h2 : ∀ Y X, γ' X = mapHom (algebraMap K (AlgebraicClosure K)) Y → mapHom (algebraMap K (AlgebraicClosure K)) (ψ Y) = e • X)
    {m1 m2 n g : ℕ} (h3 : 3 ≤ n) (norm : m1 ^ 2 * dA * d1 + m2 ^ 2 * e = 2 ^ n) (odd1 : (m1 * dA * d1) % 2 = 1) (odd2 : (m2 * e) % 2 = 1)
    (hg : g * (m2 * e) ≡ m1 * d1 [MOD 2 ^ n]) {p q : MPoint E0.A} (hb : IsBasis (2 ^ (n + 2)) p q)
    {P Q : CPt K} (rp1 : PRep P.P1 (φ1 p)) (rp2 : PRep P.P2 (g • γ (φA p))) (rq1 : PRep Q.P1 (φ1 q)) (rq2 : PRep Q.P2 (g • γ (φA q)))
    (b1 : IsBasis (2 ^ (n + 2)) (φ1 p) (φ1 q)) (b2 : IsBasis (2 ^ (n + 2)) (g • γ (φA p)) (g • γ (φA q)))
    {P8 Q8 : MPoint EA.A} (b8 : IsBasis 8 P8 Q8) {O T1 T2 : ThPt K}
    (hgl : gluingIsogeny E (E.doubleIter P (n - 1)) (E.doubleIter Q (n - 1)) [P, Q] = (ThStr.new O, [T1, T2]))
    (hc : JacChain (n - 1) O T1 T2) (a0 : EA.A ≠ 0) (a3 : EA.A * EA.A ≠ 3) (a9 : 2 * (EA.A * EA.A) ≠ 9) :
    ∃ (E3 E4 : Crv K) (F : CPt K → CPt K), E3.Good ∧ E4.Good ∧
      (∀ (S : List Nat) (images : List (CPt K)), IsStrategy n S →
        productIsogeny E P Q images n S = some (⟨E3, E4⟩, images.map F)) ∧
      ((E3.A ≠ -EA.A → Reads EA E3 (E := E) (fun X => (F X).P1) (fun x => m1 • φA (ψ1 x.1) - m2 • ψ x.2)) ∨
        (E4.A ≠ -EA.A → Reads EA E4 (E := E) (fun X => (F X).P2) (fun x => m1 • φA (ψ1 x.1) - m2 • ψ x.2))) ∧
      (g * (m2 * e) ≡ m1 * d1 [MOD 2 ^ (n + 2)] →
        (E3.A ≠ -EA.A → Reads EA E3 (E := E) (fun X => (F X).P1) (fun x => m1 • φA (ψ1 x.1) - m2 • ψ x.2)) ∧
        (E3.A = -EA.A → xc (2 ^ (n + 1) • φA p) = 0)) := by
  suffices hh : ProdChain (n - 1) O T1 T2 ∧ ∀ c i, Even (parity c i) → (evenConst (chainNull (n - 3) O T1 T2) c i = 0 ↔ (c, i) = (3, 0)) by
    obtain ⟨E3, E4, F, k1, k2, k3, k4, k5⟩ := kani_code_prod gE0 gEA g1 g2 cβ cα cγ iβ iα iγ h1 h2 h3 norm odd1 odd2 hg hb rp1 rp2 rq1 rq2 b1 b2 b8
      hgl hh.1 a0 a3 a9
    have hid : identifyEvenIndex (chainNull (n - 3) O T1 T2) = (3, 0) := identify_eq (by decide) hh.2
    exact ⟨E3, E4, F, k1, k2, k3, k4, k5 (by rw [splittingMatrix, hid]; rfl)⟩
  generalize hσ : algebraMap K (AlgebraicClosure K) = σ at *
  have hb4 : IsBasis (2 ^ n) (4 • mapHom σ p) (4 • mapHom σ q) := by
    have := IsBasis.nsmul (m := 4) (n := 2 ^ n) (by rw [show 4 * 2 ^ n = 2 ^ (n + 2) by rw [pow_add]; ring]; exact hb) (by norm_num)
    rw [← map_nsmul, ← map_nsmul]
    exact this.map fun S _ h0 => mapPt_inj σ h0
  have dia : Diamond β' α' γ' d1 dA e m1 m2 n g (4 • mapHom σ p) (4 • mapHom σ q) :=
    ⟨(gE0.up σ).disc, (gEA.up σ).disc, iβ, iα, iγ, norm, by omega, odd1, odd2, hg, hb4⟩
  have kβ : ∀ p, 2 • mapHom σ (φ1 p) = β' (2 • mapHom σ p) := fun p => by rw [map_nsmul, cβ]
  have kγ : ∀ p, 2 • mapHom σ (g • γ (φA p)) = g • γ' (α' (2 • mapHom σ p)) := fun p => by
    rw [map_nsmul α', map_nsmul γ', cα, cγ, map_nsmul, smul_comm]
  obtain ⟨k1, -, k2⟩ := jac_prod σ g1 g2 rp1 rp2 rq1 rq2 b1 b2 h3 hgl hc dia (mul_nsmul' _ 2 2).symm (mul_nsmul' _ 2 2).symm (kβ p) (kγ p) (kβ q) (kγ q)
  exact ⟨k1, k2⟩

end
end Festa
