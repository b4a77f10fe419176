import Verif.Props.KaniCase
/-!
Property C84: the factor of the product that `trapdoor_inverse` needs is always the first one, and it is never a curve for which
the isomorphism of the code fails.
-/
namespace Festa
open WeierstrassCurve.Affine

section
variable {K : Type} [Field K] [DecidableEq K] [RootOps K]

/-- C84.  The kernel is as in C72, with `g` equal to `m1 d1 / (m2 e)` modulo `2^(n+2)`, the order of the basis, as in the code
(C72 needs it only modulo `2^n`).  Then

* the factor isomorphic to `EA` in the product returned by `product_isogeny` is the first one, and it is there that the points
  become the values of Kani's map; so the test festa.rs:563 always succeeds and the second branch, festa.rs:571-579, never runs;
* if the point of order two below the first point of the basis is not `(0, 0)`, then the coefficient of the first factor is not
  `-EA.A`, the case in which the isomorphism of the code fails (C31).  For the code this holds by C85. -/
theorem C84_first_factor (p : Nat) [Fact p.Prime] [CharP K p] [Fintype K] (hcard : Fintype.card K = p ^ 2) (hp : p % 4 = 3)
    {E0 EA : Crv K} {E : EProd K} (h0 : E0.A = 6) {φ1 : MPoint E0.A →+ MPoint E.E1.A} {φA : MPoint E0.A →+ MPoint EA.A}
    {γ : MPoint EA.A →+ MPoint E.E2.A} {d1 dA e : Nat} (i1 : IsIsog φ1 d1) (iA : IsIsog φA dA) (iγ : IsIsog γ e)
    (od1 : d1 % 2 = 1) (odA : dA % 2 = 1) (oe : e % 2 = 1) {m1 m2 n g : Nat} (om1 : m1 % 2 = 1) (om2 : m2 % 2 = 1) (h3 : 3 ≤ n)
    (norm : m1 ^ 2 * dA * d1 + m2 ^ 2 * e = 2 ^ n) (hg : g * (m2 * e) ≡ m1 * d1 [MOD 2 ^ (n + 2)])
    {p0 q0 : MPoint E0.A} (hb : IsBasis (2 ^ (n + 2)) p0 q0) {P Q : CPt K}
    (rp1 : PRep P.P1 (φ1 p0)) (rp2 : PRep P.P2 (g • γ (φA p0))) (rq1 : PRep Q.P1 (φ1 q0)) (rq2 : PRep Q.P2 (g • γ (φA q0)))
    {O T1 T2 : ThPt K}
    (hgl : gluingIsogeny E (E.doubleIter P (n - 1)) (E.doubleIter Q (n - 1)) [P, Q] = (ThStr.new O, [T1, T2]))
    (hc : JacChain (n - 1) O T1 T2) (a0 : EA.A ≠ 0) (a3 : EA.A * EA.A ≠ 3) (a9 : 2 * (EA.A * EA.A) ≠ 9) :
    ∃ (ψ1 : MPoint E.E1.A →+ MPoint E0.A) (ψ : MPoint E.E2.A →+ MPoint EA.A),
      ((∀ X, ψ1 (φ1 X) = d1 • X) ∧ ∀ Y, φ1 (ψ1 Y) = d1 • Y) ∧ ((∀ X, ψ (γ X) = e • X) ∧ ∀ Y, γ (ψ Y) = e • Y) ∧
      ∃ (E3 E4 : Crv K) (F : CPt K → CPt K), E3.Good ∧ E4.Good ∧
        (∀ (S : List Nat) (images : List (CPt K)), IsStrategy n S →
          productIsogeny E P Q images n S = some (⟨E3, E4⟩, images.map F)) ∧
        E3.jInvariant = EA.jInvariant ∧
        (∀ chk I1 I2, chooseFactor chk EA ⟨E3, E4⟩ I1 I2 =
          some (if E3.A = EA.A then (I1.P1, I2.P1) else ((CrvIso.new E3 EA).eval I1.P1, (CrvIso.new E3 EA).eval I2.P1))) ∧
        (E3.A ≠ -EA.A → Reads EA E3 (E := E) (fun X => (F X).P1) (fun x => m1 • φA (ψ1 x.1) - m2 • ψ x.2)) ∧
        (xc (2 ^ (n + 1) • p0) ≠ 0 → E3.A ≠ -EA.A) := by
  have hF0 : FrobNeg p E0.A := h0 ▸ frobNeg_six hcard hp
  obtain ⟨gE0, g1⟩ := i1.good
  obtain ⟨-, gEA⟩ := iA.good
  obtain ⟨-, g2⟩ := iγ.good
  obtain ⟨-, β', cβ, sβ, ψ1, l1, r1, -, t1⟩ := i1.lift_dual hcard hp od1 hF0
  obtain ⟨hFA, α', cα, sα, -⟩ := iA.lift_dual hcard hp odA hF0
  obtain ⟨-, γ', cγ, sγ, ψ, l2, r2, -, t2⟩ := iγ.lift_dual hcard hp oe hFA
  refine ⟨ψ1, ψ, ⟨l1, r1⟩, ⟨l2, r2⟩, ?_⟩
  have cop : ∀ {d : Nat}, d % 2 = 1 → d.Coprime (2 ^ (n + 2)) := fun h => two_pow_coprime h
  have pos : 1 ≤ 2 ^ (n + 2) := Nat.one_le_two_pow
  have bA := hb.map (iA.inj pos odA (cop odA).symm)
  have o12 : ∀ {a b : Nat}, a % 2 = 1 → b % 2 = 1 → a * b % 2 = 1 := fun ha hb => by rw [Nat.mul_mod, ha, hb]
  have og : g % 2 = 1 := by
    have h := hg.of_dvd (dvd_pow_self 2 (show n + 2 ≠ 0 by omega))
    by_contra hg0
    have : g % 2 = 0 := by omega
    rw [Nat.ModEq, o12 om1 od1, Nat.mul_mod, this, zero_mul, Nat.zero_mod] at h
    exact absurd h (by norm_num)
  have b8 := IsBasis.nsmul (m := 2 ^ (n - 1)) (n := 8) (eight_dvd h3 ▸ bA) (by positivity)
  obtain ⟨E3, E4, F, k1, k2, k3, -, k4⟩ := kani_code gE0 gEA g1 g2 cβ cα cγ sβ sα sγ t1 t2 h3 norm (o12 (o12 om1 odA) od1) (o12 om2 oe)
    (hg.of_dvd (pow_dvd_pow 2 (show n ≤ n + 2 by omega))) hb rp1 rp2 rq1 rq2 (hb.map (i1.inj pos od1 (cop od1).symm))
    ((bA.map (iγ.inj pos oe (cop oe).symm)).smul_unit (cop og)) b8 hgl hc a0 a3 a9
  obtain ⟨k4, k5⟩ := k4 hg
  have j : E3.jInvariant = EA.jInvariant := by
    by_cases h : E3.A = -EA.A
    · simp only [Crv.jInvariant, h, neg_mul_neg]
    · exact (k4 h).1
  refine ⟨E3, E4, F, k1, k2, k3, j, fun chk I1 I2 => ?_, k4, fun hx h => hx ?_⟩
  · rw [chooseFactor, if_pos j]
    split <;> rfl
  · obtain ⟨-, -, ne, -⟩ := IsBasis.two_parts (k := n + 1) hb
    have := k5 h
    rw [← map_nsmul] at this
    exact iA.zero_x_of odA ne (by rw [← mul_nsmul', ← pow_succ']; exact hb.nsmul_left) this

end

/-- A case of C84: the small version of the scheme, where the first factor is the one isomorphic to `EA'` and the other is not. -/
example : toyE3.jInvariant = toyEA'.jInvariant ∧ toyE4.jInvariant ≠ toyEA'.jInvariant ∧ toyE3.A ≠ -toyEA'.A ∧
    ∃ (φA1 : MPoint toyE0.A →+ MPoint toyEA'.A) (ψ1 : MPoint toyE1.A →+ MPoint toyE0.A) (ψ : MPoint toyE2.A →+ MPoint toyEA'.A)
      (F : CPt Toy → CPt Toy),
      (∀ images, productIsogeny ⟨toyE1, toyE2⟩ ⟨toyR1, toygP⟩ ⟨toyS1, toygQ⟩ images toyC.thetaLen toyC.strategy =
        some (⟨toyE3, toyE4⟩, images.map F)) ∧
      Reads toyEA' toyE3 (E := ⟨toyE1, toyE2⟩) (fun X => (F X).P1) (fun x => 1 • φA1 (ψ1 x.1) - 5 • ψ x.2) := by
  obtain ⟨φA1, φA2, L2, -, -, hkey, hb⟩ := toy_key
  obtain ⟨φ1, φ2, hout, -, -⟩ := toy_value hkey hb
  obtain ⟨kP, kQ⟩ := kernel_second toyS toy_sound toyPk toySk toyM toyOut toy_b hkey hout toy_glue.1 toy_glue.2.1 toy_glue.2.2.1
    toy_glue.2.2.2.1 toy_glue.2.2.2.2.1 toy_glue.2.2.2.2.2
  have kR : PRep toyR1 (φ1 (toyM.b11 • tPb)) := by rw [map_nsmul]; exact hout.r1
  have kS : PRep toyS1 (φ1 (toyM.b22 • tQb)) := by rw [map_nsmul]; exact hout.s1
  obtain ⟨c0, c3, c9, -, -, nj⟩ := toy_kani_curves
  obtain ⟨ψ1, ψ, -, -, E3, E4, F, -, -, hF, hj, -, hr, hn⟩ := C84_first_factor toyP toy_card (by norm_num) (E0 := toyS.E0) (EA := toySk.EA')
    (E := ⟨toyOut.E1, toyOut.E2⟩) rfl hout.isog1 hkey.isog1 (hkey.isog2.comp hout.isog2) (by decide +kernel) (by decide +kernel)
    (by decide +kernel) (m1 := 1) (m2 := 5) (n := 23) (g := toyS.g2) (by norm_num) (by norm_num) (by norm_num) (by decide +kernel)
    (by decide +kernel) (p0 := toyM.b11 • tPb) (q0 := toyM.b22 • tQb)
    (IsBasis.smul_units (n := 2 ^ (23 + 2)) toy_b (by decide +kernel) (by decide +kernel))
    (P := ⟨toyR1, toygP⟩) (Q := ⟨toyS1, toygQ⟩) kR kP kS kQ
    toy_glue_eq toyChain21.jac c0 c3 c9
  have hp := toy_product
  rw [show toyC.thetaLen = 23 from rfl] at hp
  have hp := (hF _ _ toy_strategy).symm.trans hp
  simp only [Option.some.injEq, Prod.mk.injEq, EProd.mk.injEq] at hp
  obtain ⟨⟨rfl, rfl⟩, -⟩ := hp
  have half : 2 ^ (23 + 1) • toyM.b11 • tPb = (toyS.l / 2) • tPb := by
    have two : 2 • (toyS.l / 2) • tPb = 0 := by rw [← mul_nsmul', show 2 * (toyS.l / 2) = toyS.l by decide +kernel]; exact toy_b.nsmul_left
    rw [show 2 ^ (23 + 1) = toyS.l / 2 by decide +kernel, smul_comm, nsmul_modEq two (b := 1) (by decide +kernel), one_nsmul]
  have ne := hn (fun h => toy_half ((congrArg xc half).symm.trans h))
  exact ⟨hj, nj.resolve_left (not_not.mpr hj), ne, φA1, ψ1, ψ, F, fun images => hF _ _ toy_strategy, hr ne⟩

end Festa
