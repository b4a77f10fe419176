import Verif.Lemmas.ProductNet
/-! C68: the map computed by `product_isogeny` is a map of groups up to sign. -/
namespace Festa
open WeierstrassCurve.Affine
variable {K : Type*} [Field K] [DecidableEq K]

theorem krep_div {A c X Z : K} {f : MPoint A} (hc : c ≠ 0) (h : KRep (c * X) (c * Z) f) : KRep X Z f := by
  have := krep_mul (inv_ne_zero hc) h
  rwa [inv_mul_cancel_left₀ hc, inv_mul_cancel_left₀ hc] at this

section
variable [RootOps K]

/-- What can be read off a completed point that is not infinity. -/
theorem complete_read {E : Crv K} (hE : E.Good) {c X Z : K} {f : MPoint E.A} (hf : f ≠ 0)
    (h : PRep (E.completePointX ⟨c * X, c * Z⟩).1 f) : c ≠ 0 ∧ KRep X Z f := by
  have hz : (E.completePointX ⟨c * X, c * Z⟩).1.Z ≠ 0 := by
    obtain ⟨x, y, k, rfl⟩ := exists_some hf
    exact h.1
  have hcz : c * Z ≠ 0 := fun h0 => hz (complete_Z h0)
  have hc := left_ne_zero_of_mul hcz
  obtain ⟨-, h2, h3⟩ := C29_complete hE ⟨c * X, c * Z⟩
  have ht : (E.completePointX ⟨c * X, c * Z⟩).2 = true := by
    by_contra hfalse
    have := h3 (by simpa using hfalse)
    rw [Pt.isInf, decide_eq_true_eq] at this
    exact hz this
  obtain ⟨Q, q1, q2⟩ := h2 ht (.inr hcz)
  rw [prep_unique h q2]
  exact ⟨hc, krep_div hc q1⟩

/-- Points with x-coordinate `1` or `-1` have order four. -/
theorem order_four {E : Crv K} (hE : E.Good) {X Z : K} {f : MPoint E.A} (h : KRep X Z f) (e : X ^ 2 = Z ^ 2) :
    addOrderOf f = 4 := by
  have hz : Z ≠ 0 := by
    intro h0
    rcases h.ne with hX | hZ
    · exact hX (by rw [h0] at e; simpa using e)
    · exact hZ h0
  have hd := krep_dbl hE h
  have x0 : (E.xDbl X Z).1 = 0 := by
    simp only [Crv.xDbl]
    linear_combination (X ^ 2 - Z ^ 2) * e
  have n2 : 2 • f ≠ 0 := by
    intro h0
    rw [h0] at hd
    exact hd.1 x0
  obtain ⟨x, y, k, hk⟩ := exists_some n2
  rw [hk] at hd
  have hx : x = 0 := by
    have := hd.2
    rw [x0] at this
    exact (mul_eq_zero.mp this.symm).resolve_right hd.1
  subst hx
  have hy : y = 0 := by
    have := curve_eq k
    simpa using this
  subst hy
  have h4 : 2 ^ (1 + 1) • f = 0 := by
    rw [show 2 ^ (1 + 1) = 2 * 2 from rfl, mul_nsmul', hk, two_nsmul]
    exact add_opp (by simp)
  exact addOrderOf_eq_prime_pow (p := 2) (n := 1) (by simpa using n2) h4

end

/-- Pairs with a component of odd order, and combinations of the kernel points, are not exceptional. -/
theorem C68_not_exceptional {A A' : K} {p1 q1 : MPoint A} {p2 q2 : MPoint A'} {n : Nat} (hn : 1 ≤ n)
    (b1 : IsBasis (2 ^ (n + 2)) p1 q1) (b2 : IsBasis (2 ^ (n + 2)) p2 q2) {r1 : MPoint A} {r2 : MPoint A'}
    (h : (∃ m : Nat, Odd m ∧ (m • r1 = 0 ∨ m • r2 = 0)) ∨ ∃ a b : ℤ, r1 = a • p1 + b • q1 ∧ r2 = a • p2 + b • q2) :
    ¬ GlueExc (2 ^ (n - 1) • p1) (2 ^ (n - 1) • q1) (2 ^ (n - 1) • p2) (2 ^ (n - 1) • q2) r1 r2 := by
  rcases h with ⟨m, hm, h⟩ | ⟨a, b, rfl, rfl⟩
  · have hne : ∀ {A : K} {p q : MPoint A}, IsBasis (2 ^ (n + 2)) p q → ∀ a b : ℤ, (a = 1 ∨ b = 1) →
        a • 4 • 2 ^ (n - 1) • p + b • 4 • 2 ^ (n - 1) • q ≠ 0 := by
      intro A p q hb a b hab h0
      have e : 4 * 2 ^ (n - 1) = 2 ^ (n + 1) := by rw [show n + 1 = (n - 1) + 2 by omega, pow_add]; ring
      rw [← mul_nsmul', ← mul_nsmul', e, ← natCast_zsmul, ← natCast_zsmul, ← mul_zsmul, ← mul_zsmul] at h0
      have hd : ¬ ((2 ^ (n + 2) : ℕ) : ℤ) ∣ ((2 ^ (n + 1) : ℕ) : ℤ) := by
        rw [Int.natCast_dvd_natCast, Nat.pow_dvd_pow_iff_le_right (by norm_num)]; omega
      have := (hb _ _).mp h0
      rcases hab with rfl | rfl
      · exact hd (by simpa using this.1)
      · exact hd (by simpa using this.2)
    have h2 : ∀ {A : K} {p q : MPoint A}, IsBasis (2 ^ (n + 2)) p q → ∀ a b : ℤ,
        2 • (a • 4 • 2 ^ (n - 1) • p + b • 4 • 2 ^ (n - 1) • q) = 0 := by
      intro A p q hb a b
      have e : 4 * 2 ^ (n - 1) = 2 ^ (n + 1) := by rw [show n + 1 = (n - 1) + 2 by omega, pow_add]; ring
      rw [← mul_nsmul', ← mul_nsmul', e, nsmul_add]
      simp only [← natCast_zsmul, ← mul_zsmul]
      refine (hb _ _).mpr ⟨⟨a, ?_⟩, ⟨b, ?_⟩⟩ <;> push_cast <;> ring
    have odd : ∀ {A : K} {p q r : MPoint A}, IsBasis (2 ^ (n + 2)) p q → m • r = 0 → ∀ a b : ℤ, (a = 1 ∨ b = 1) →
        2 • r ≠ a • 4 • 2 ^ (n - 1) • p + b • 4 • 2 ^ (n - 1) • q := by
      intro A p q r hb hr a b hab e
      refine hne hb a b hab ?_
      obtain ⟨k, rfl⟩ := hm
      have h3 : (2 * k + 1) • (2 • r) = 0 := by rw [smul_comm, hr, smul_zero]
      rwa [e, add_nsmul, mul_nsmul, h2 hb, smul_zero, one_nsmul, zero_add] at h3
    rcases h with h | h
    · have o1 := odd b1 h 0 1 (.inr rfl)
      have o2 := odd b1 h 1 1 (.inr rfl)
      rw [zero_zsmul, zero_add, one_zsmul] at o1
      rw [one_zsmul, one_zsmul] at o2
      rintro (⟨h, -⟩ | ⟨h, -⟩)
      · exact o1 h
      · exact o2 h
    · have o1 := odd b2 h 0 1 (.inr rfl)
      have o2 := odd b2 h 1 1 (.inr rfl)
      rw [zero_zsmul, zero_add, one_zsmul] at o1
      rw [one_zsmul, one_zsmul] at o2
      rintro (⟨-, h⟩ | ⟨-, h⟩)
      · exact o2 h
      · exact o1 h
  · exact exc_comb hn b1 b2 a b

section
variable [RootOps K]

/-- `product_isogeny` on a kernel given by points of order `2^(n+2)`, whose chain stays among Jacobians until it ends in a
product: the result is one product of curves and one map `F` applied to all points, for every strategy; `F` sends the
combinations of two pairs of points to the same combinations of their images, up to one sign in each factor of each image,
and a combination of the images vanishes in both factors only when the combination of the points lies in the kernel; it
sends the points of the kernel to infinity in both factors, and does not change, up to sign, when a point of the kernel
is added.  An image can be read only when the other factor's image is not of order four (the code then returns infinity,
as it divides a quadruple by one of its coordinates), and combinations must avoid the exceptional points of gluing (C67);
`C68_not_exceptional` says which points never meet them. -/
theorem C68_product_hom {E : EProd K} (g1 : E.E1.Good) (g2 : E.E2.Good) {P Q : CPt K} {n : Nat}
    {p1 q1 : MPoint E.E1.A} {p2 q2 : MPoint E.E2.A}
    (rp1 : PRep P.P1 p1) (rp2 : PRep P.P2 p2) (rq1 : PRep Q.P1 q1) (rq2 : PRep Q.P2 q2)
    (b1 : IsBasis (2 ^ (n + 2)) p1 q1) (b2 : IsBasis (2 ^ (n + 2)) p2 q2) {O T1 T2 : ThPt K} (h3 : 3 ≤ n)
    (hg : gluingIsogeny E (E.doubleIter P (n - 1)) (E.doubleIter Q (n - 1)) [P, Q] = (ThStr.new O, [T1, T2]))
    (hc : ProdChain (n - 1) O T1 T2) :
    ∃ (E3 E4 : Crv K) (F : CPt K → CPt K), E3.Good ∧ E4.Good ∧
      (∀ (S : List Nat) (images : List (CPt K)), IsStrategy n S →
        productIsogeny E P Q images n S = some (⟨E3, E4⟩, images.map F)) ∧
      (∀ {X Y : CPt K} {x1 y1 : MPoint E.E1.A} {x2 y2 : MPoint E.E2.A}, PRep X.P1 x1 → PRep X.P2 x2 → PRep Y.P1 y1 →
        PRep Y.P2 y2 →
        (∀ a b : ℤ, ¬ GlueExc (2 ^ (n - 1) • p1) (2 ^ (n - 1) • q1) (2 ^ (n - 1) • p2) (2 ^ (n - 1) • q2)
          (a • x1 + b • y1) (a • x2 + b • y2)) →
        ∀ {f g : MPoint E3.A} {f' g' : MPoint E4.A}, f ≠ 0 → g ≠ 0 → f' ≠ 0 → g' ≠ 0 → PRep (F X).P1 f → PRep (F Y).P1 g →
        PRep (F X).P2 f' → PRep (F Y).P2 g' →
        ∃ s t, (s = g ∨ s = -g) ∧ (t = g' ∨ t = -g') ∧ (∀ (a b : ℤ) {R : CPt K},
          PRep R.P1 (a • x1 + b • y1) → PRep R.P2 (a • x2 + b • y2) →
          (addOrderOf (a • f' + b • t) ≠ 4 → PRep (F R).P1 (a • f + b • s) ∨ PRep (F R).P1 (-(a • f + b • s))) ∧
          (addOrderOf (a • f + b • s) ≠ 4 → PRep (F R).P2 (a • f' + b • t) ∨ PRep (F R).P2 (-(a • f' + b • t)))) ∧
          ∀ a b : ℤ, (a • f + b • s = 0 ∧ a • f' + b • t = 0) ↔
            ∃ i j : ℤ, a • x1 + b • y1 = i • (4 • p1) + j • (4 • q1) ∧ a • x2 + b • y2 = i • (4 • p2) + j • (4 • q2)) ∧
      (∀ (a b : ℤ) {R : CPt K}, PRep R.P1 (a • (4 • p1) + b • (4 • q1)) → PRep R.P2 (a • (4 • p2) + b • (4 • q2)) →
        (F R).P1.isInf = true ∧ (F R).P2.isInf = true) ∧
      (∀ (a b : ℤ) {R S : CPt K} {r1 : MPoint E.E1.A} {r2 : MPoint E.E2.A}, PRep R.P1 r1 → PRep R.P2 r2 →
        PRep S.P1 (r1 + (a • (4 • p1) + b • (4 • q1))) → PRep S.P2 (r2 + (a • (4 • p2) + b • (4 • q2))) →
        (∀ k : ℤ, ¬ GlueExc (2 ^ (n - 1) • p1) (2 ^ (n - 1) • q1) (2 ^ (n - 1) • p2) (2 ^ (n - 1) • q2)
          (r1 + k • (a • (4 • p1) + b • (4 • q1))) (r2 + k • (a • (4 • p2) + b • (4 • q2)))) →
        (∀ {f : MPoint E3.A}, f ≠ 0 → PRep (F R).P1 f → PRep (F S).P1 f ∨ PRep (F S).P1 (-f)) ∧
        (∀ {f : MPoint E4.A}, f ≠ 0 → PRep (F R).P2 f → PRep (F S).P2 f ∨ PRep (F S).P2 (-f))) := by
  obtain ⟨E3, E4, F, o, o', U, V, h, -, hF⟩ := prodNet g1 g2 rp1 rp2 rq1 rq2 b1 b2 h3 hg hc
  have g3 := h.good3
  have g4 := h.good4
  have h2 := g1.two
  have ho := h.netU.null
  have ho' := h.netV.null
  have tz : ∀ {A : K} {o u : K × K}, Null1 o → TR o u (0 : MPoint A) → ∃ c, c ≠ 0 ∧ u = (c * o.1, c * o.2) := by
    intro A o u ho hu
    obtain ⟨hX, hZ⟩ := hu
    simp only [thetaToMontPoint] at hX hZ
    refine ⟨u.1 / o.1, div_ne_zero (fun h0 => hX ?_) ho.a, ?_⟩
    · rw [h0] at hZ ⊢
      simp only [mul_zero, sub_zero, add_zero] at hZ ⊢
      exact hZ
    · ext
      · show u.1 = u.1 / o.1 * o.1
        rw [div_mul_cancel₀ _ ho.a]
      · show u.2 = u.1 / o.1 * o.2
        rw [div_mul_eq_mul_div, eq_div_iff ho.a]; linear_combination hZ
  have kz : ∀ {A : K} {o : K × K} {N : MPoint E.E1.A × MPoint E.E2.A → Prop} {θ}, Net o N θ → (A = nullToMontCoeff o) →
      (∀ a b : ℤ, N (a • (4 • p1, 4 • p2) + b • (4 • q1, 4 • q2))) →
      (∃ c, c ≠ 0 ∧ θ (4 • p1, 4 • p2) = (c * o.1, c * o.2)) → (∃ c, c ≠ 0 ∧ θ (4 • q1, 4 • q2) = (c * o.1, c * o.2)) →
      ∀ a b : ℤ, TR o (θ (a • (4 • p1, 4 • p2) + b • (4 • q1, 4 • q2))) (0 : MPoint A) := by
    rintro A o N θ hN hA hx ⟨c, hc, e⟩ ⟨d, hd, e'⟩ a b
    obtain ⟨g', hg', hab⟩ := hN.two_gen hA (f := (0 : MPoint A)) (g := 0) hx (by rw [e]; exact (TR.null h2 hN.null).scale hc)
      (by rw [e']; exact (TR.null h2 hN.null).scale hd)
    have e0 : g' = 0 := by rcases hg' with r | r <;> simp [r]
    have := hab a b
    rwa [e0, smul_zero, smul_zero, add_zero] at this
  have hx4 : ∀ a b : ℤ, ¬ GlueExc (2 ^ (n - 1) • p1) (2 ^ (n - 1) • q1) (2 ^ (n - 1) • p2) (2 ^ (n - 1) • q2)
      (a • (4 • p1) + b • (4 • q1)) (a • (4 • p2) + b • (4 • q2)) := by
    intro a b
    have := exc_comb (by omega) b1 b2 (a * 4) (b * 4)
    simpa only [mul_zsmul, ofNat_zsmul] using this
  have kU := kz h.netU h.a4 hx4 h.kerP.1 h.kerQ.1
  have kV := kz h.netV h.a3 hx4 h.kerP.2 h.kerQ.2
  refine ⟨E3, E4, F, g3, g4, ?_, ?_, ?_, ?_⟩
  · intro S images hS
    rw [C47_strategy_equals_naive g1 g2 rp1 rp2 rq1 rq2 b1 b2 hg (RegChain.ok _ (ProdChain.reg _ hc)) hS images, hF]
  · intro X Y x1 y1 x2 y2 hX1 hX2 hY1 hY2 hx f g f' g' nf ng nf' ng' rf rg rf' rg'
    have xX := hx 1 0
    have xY := hx 0 1
    simp only [one_zsmul, zero_zsmul, add_zero, zero_add] at xX xY
    obtain ⟨c, d, hc, hd, eX⟩ := h.out hX1 hX2 xX
    obtain ⟨c', d', hc', hd', eY⟩ := h.out hY1 hY2 xY
    rw [eX] at rf rf'
    rw [eY] at rg rg'
    have tf := (complete_read g3 nf rf).2
    have tg := (complete_read g3 ng rg).2
    have tf' := (complete_read g4 nf' rf').2
    have tg' := (complete_read g4 ng' rg').2
    obtain ⟨s, hs, es⟩ := h.netV.two_gen h.a3 (x := (x1, x2)) (y := (y1, y2)) hx tf tg
    obtain ⟨t, ht, et⟩ := h.netU.two_gen h.a4 (x := (x1, x2)) (y := (y1, y2)) hx tf' tg'
    refine ⟨s, t, hs, ht, fun a b R hR1 hR2 => ?_, fun a b => ⟨?_, ?_⟩⟩
    rotate_left
    · rintro ⟨e1, e2⟩
      have es := es a b
      have et := et a b
      rw [e1] at es
      rw [e2] at et
      exact h.exact' (by omega) b1 b2 (hx a b) (tz ho et) (tz ho' es)
    · rintro ⟨i, j, e1, e2⟩
      have es := es a b
      have et := et a b
      simp only [Prod.smul_mk, Prod.mk_add_mk, e1, e2] at es et
      have z1 := es.eq (kV i j)
      have z2 := et.eq (kU i j)
      exact ⟨by rcases z1 with z | z; exacts [z.symm, neg_eq_zero.mp z.symm],
        by rcases z2 with z | z; exacts [z.symm, neg_eq_zero.mp z.symm]⟩
    obtain ⟨c, d, hc, hd, eR⟩ := h.out hR1 hR2 (hx a b)
    have es := es a b
    have et := et a b
    simp only [Prod.smul_mk, Prod.mk_add_mk] at es et
    rw [eR]
    constructor
    · intro h4
      refine complete_rep g3 (krep_mul (mul_ne_zero hc fun h0 => h4 (order_four g4 et ?_)) es)
      simp only [thetaToMontPoint, h0]; ring
    · intro h4
      refine complete_rep g4 (krep_mul (mul_ne_zero hd fun h0 => h4 (order_four g3 es ?_)) et)
      simp only [thetaToMontPoint, h0]; ring
  · intro a b R hR1 hR2
    obtain ⟨c, d, hc, hd, eR⟩ := h.out hR1 hR2 (hx4 a b)
    have e1 := (kU a b).2
    have e2 := (kV a b).2
    simp only [Prod.smul_mk, Prod.mk_add_mk] at e1 e2
    rw [eR, e1, e2]
    simp only [Pt.isInf, complete_Z (mul_zero _)]
    simp
  · intro a b R S r1 r2 hR1 hR2 hS1 hS2 hx
    have x0 := hx 0
    have x1 := hx 1
    have xm := hx (-1)
    simp only [zero_zsmul, one_zsmul, neg_zsmul, add_zero, ← sub_eq_add_neg] at x0 x1 xm
    obtain ⟨c, d, hc, hd, eR⟩ := h.out hR1 hR2 x0
    obtain ⟨c', d', hc', hd', eS⟩ := h.out hS1 hS2 x1
    have pU := (h.netU.riem (x := (r1, r2)) (y := a • (4 • p1, 4 • p2) + b • (4 • q1, 4 • q2)) x0 (hx4 a b) x1 xm).null h2 ho
      (tz ho (kU a b)) (h.netU.ne x0) (h.netU.ne x1)
    have pV := (h.netV.riem (x := (r1, r2)) (y := a • (4 • p1, 4 • p2) + b • (4 • q1, 4 • q2)) x0 (hx4 a b) x1 xm).null h2 ho'
      (tz ho' (kV a b)) (h.netV.ne x0) (h.netV.ne x1)
    simp only [Prod.smul_mk, Prod.mk_add_mk] at pU pV
    obtain ⟨u, hu, eu⟩ := pU
    obtain ⟨v, hv, ev⟩ := pV
    rw [eR, eS, eu, ev]
    constructor
    · intro f nf rf
      obtain ⟨n0, tf⟩ := complete_read g3 nf rf
      exact complete_rep g3 (krep_mul (mul_ne_zero hc' (mul_ne_zero hu (right_ne_zero_of_mul n0))) (TR.scale hv tf))
    · intro f nf rf
      obtain ⟨n0, tf⟩ := complete_read g4 nf rf
      exact complete_rep g4 (krep_mul (mul_ne_zero hd' (mul_ne_zero hv (right_ne_zero_of_mul n0))) (TR.scale hu tf))

end
end Festa
