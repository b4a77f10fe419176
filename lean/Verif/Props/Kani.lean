import Verif.Lemmas.KaniCode
import Verif.Lemmas.ZeroPoint
import Verif.Props.Dual
import Verif.Props.ProductHomCase
/-!
Property C72: Kani's lemma for `product_isogeny`, and with it the inversion of the trapdoor function (C54) without any
assumption on what the chain of (2,2)-isogenies computes.
-/
namespace Festa
open WeierstrassCurve.Affine

section
variable {K : Type} [Field K] [DecidableEq K] [RootOps K]

open Classical in
/-- An isogeny of the code over the closure, and its dual. -/
theorem IsIsog.lift_dual {p : Nat} [Fact p.Prime] [CharP K p] [Fintype K] (hc : Fintype.card K = p ^ 2) (hp : p % 4 = 3)
    {E E' : Crv K} {φ : MPoint E.A →+ MPoint E'.A} {d : Nat} (hφ : IsIsog φ d) (hd : d % 2 = 1) (hF : FrobNeg p E.A) :
    FrobNeg p E'.A ∧
    ∃ f : MPoint (algebraMap K (AlgebraicClosure K) E.A) →+ MPoint (algebraMap K (AlgebraicClosure K) E'.A),
      (∀ X, f (mapHom (algebraMap K (AlgebraicClosure K)) X) = mapHom (algebraMap K (AlgebraicClosure K)) (φ X)) ∧ Isg f d ∧
      ∃ ψ : MPoint E'.A →+ MPoint E.A, (∀ X, ψ (φ X) = d • X) ∧ (∀ Y, φ (ψ Y) = d • Y) ∧
        (∀ Y, d ∣ p + 1 → ψ Y = 0 → ∃ X, d • X = 0 ∧ φ X = Y) ∧
        ∀ Y X, f X = mapHom (algebraMap K (AlgebraicClosure K)) Y → mapHom (algebraMap K (AlgebraicClosure K)) (ψ Y) = d • X := by
  obtain ⟨hE, -⟩ := hφ.good
  have hF' : FrobNeg p E'.A := by
    obtain ⟨L', f', h', rfl, -⟩ := hφ
    exact h'.frobNeg hc hp hd hF
  obtain ⟨f, f1, f2⟩ := hφ.isg hd
  exact ⟨hF', f, f1, f2, Festa.lift_dual hc hE.two hE.disc hF hF' f1 f2.surj f2.kill⟩

omit [RootOps K] in
/-- Different multiples of the two points of a basis. -/
theorem IsBasis.smul_units {A : K} {P Q : MPoint A} {n a b : Nat} (h : IsBasis n P Q) (ha : a.Coprime n) (hb : b.Coprime n) :
    IsBasis n (a • P) (b • Q) := by
  intro x y
  have e : ∀ {a : Nat}, a.Coprime n → ∀ x : Int, (n : Int) ∣ x * a ↔ (n : Int) ∣ x := fun ha x =>
    ⟨(Nat.isCoprime_iff_coprime.mpr ha).symm.dvd_of_dvd_mul_right, fun h => h.mul_right _⟩
  rw [← e ha x, ← e hb y, ← h, mul_zsmul, mul_zsmul, natCast_zsmul, natCast_zsmul]

omit [DecidableEq K] [RootOps K] in
theorem eight_dvd {n : Nat} (h3 : 3 ≤ n) : 2 ^ (n + 2) = 2 ^ (n - 1) * 8 := by
  rw [show (8 : Nat) = 2 ^ 3 from rfl, ← pow_add]; congr 1; omega

/-- C72, Kani's lemma for the code.  `E0` is the starting curve, `φ1 : E0 → E1` an isogeny of degree `d1`, `φA : E0 → EA` one
of degree `dA`, `γ : EA → E2` one of degree `e`, all odd, and `m1² dA d1 + m2² e = 2^n`.  The kernel is given by the images
of a basis `p, q` of order `2^(n+2)` of `E0` under `(φ1, g γ φA)`, where `g` is `m1 d1 / (m2 e)` modulo `2^n`.  If the chain
meets no product before its last step (`JacChain`), then for every strategy `product_isogeny` returns a product in which one
factor is isomorphic to `EA`, and the images in this factor become, after the isomorphism of the code, the values of
`(x1, x2) ↦ m1 φA(φ1^(x1)) - m2 γ^(x2)` up to sign, `^` the dual isogeny.  Excluded are the curves `EA` with j-invariant 0 or
1728 (more automorphisms) and a factor with coefficient `-EA.A` (the isomorphism of the code fails, C31). -/
theorem C72_kani (p : Nat) [Fact p.Prime] [CharP K p] [Fintype K] (hcard : Fintype.card K = p ^ 2) (hp : p % 4 = 3)
    {E0 EA : Crv K} {E : EProd K} (h0 : E0.A = 6) {φ1 : MPoint E0.A →+ MPoint E.E1.A} {φA : MPoint E0.A →+ MPoint EA.A}
    {γ : MPoint EA.A →+ MPoint E.E2.A} {d1 dA e : Nat} (i1 : IsIsog φ1 d1) (iA : IsIsog φA dA) (iγ : IsIsog γ e)
    (od1 : d1 % 2 = 1) (odA : dA % 2 = 1) (oe : e % 2 = 1) {m1 m2 n g : Nat} (om1 : m1 % 2 = 1) (om2 : m2 % 2 = 1) (h3 : 3 ≤ n)
    (norm : m1 ^ 2 * dA * d1 + m2 ^ 2 * e = 2 ^ n) (hg : g * (m2 * e) ≡ m1 * d1 [MOD 2 ^ n])
    {p0 q0 : MPoint E0.A} (hb : IsBasis (2 ^ (n + 2)) p0 q0) {P Q : CPt K}
    (rp1 : PRep P.P1 (φ1 p0)) (rp2 : PRep P.P2 (g • γ (φA p0))) (rq1 : PRep Q.P1 (φ1 q0)) (rq2 : PRep Q.P2 (g • γ (φA q0)))
    {O T1 T2 : ThPt K}
    (hgl : gluingIsogeny E (E.doubleIter P (n - 1)) (E.doubleIter Q (n - 1)) [P, Q] = (ThStr.new O, [T1, T2]))
    (hc : JacChain (n - 1) O T1 T2) (a0 : EA.A ≠ 0) (a3 : EA.A * EA.A ≠ 3) (a9 : 2 * (EA.A * EA.A) ≠ 9) :
    ∃ (ψ1 : MPoint E.E1.A →+ MPoint E0.A) (ψ : MPoint E.E2.A →+ MPoint EA.A),
      ((∀ X, ψ1 (φ1 X) = d1 • X) ∧ ∀ Y, φ1 (ψ1 Y) = d1 • Y) ∧ ((∀ X, ψ (γ X) = e • X) ∧ ∀ Y, γ (ψ Y) = e • Y) ∧
      ∃ (E3 E4 : Crv K) (F : CPt K → CPt K), E3.Good ∧ E4.Good ∧
        (∀ (S : List Nat) (images : List (CPt K)), IsStrategy n S →
          productIsogeny E P Q images n S = some (⟨E3, E4⟩, images.map F)) ∧
        ((E3.A ≠ -EA.A → Reads EA E3 (E := E) (fun X => (F X).P1) (fun x => m1 • φA (ψ1 x.1) - m2 • ψ x.2)) ∨
          (E4.A ≠ -EA.A → Reads EA E4 (E := E) (fun X => (F X).P2) (fun x => m1 • φA (ψ1 x.1) - m2 • ψ x.2))) := by
  have hF0 : FrobNeg p E0.A := h0 ▸ frobNeg_six hcard hp
  obtain ⟨gE0, g1⟩ := i1.good
  obtain ⟨-, gEA⟩ := iA.good
  obtain ⟨-, g2⟩ := iγ.good
  obtain ⟨-, β', cβ, sβ, ψ1, l1, r1, -, t1⟩ := i1.lift_dual hcard hp od1 hF0
  obtain ⟨hFA, α', cα, sα, -⟩ := iA.lift_dual hcard hp odA hF0
  obtain ⟨-, γ', cγ, sγ, ψ, l2, r2, -, t2⟩ := iγ.lift_dual hcard hp oe hFA
  refine ⟨ψ1, ψ, ⟨l1, r1⟩, ⟨l2, r2⟩, ?_⟩
  have cop : ∀ {d : Nat}, d % 2 = 1 → d.Coprime (2 ^ (n + 2)) := fun h => two_pow_coprime h
  have pos : 1 ≤ 2 ^ (n + 2) := Nat.one_le_two_pow
  have bA := hb.map (iA.inj pos odA (cop odA).symm)
  have o12 : ∀ {a b : Nat}, a % 2 = 1 → b % 2 = 1 → a * b % 2 = 1 := fun ha hb => by rw [Nat.mul_mod, ha, hb]
  have og : g % 2 = 1 := by
    have h := hg.of_dvd (dvd_pow_self 2 (show n ≠ 0 by omega))
    by_contra hg0
    have : g % 2 = 0 := by omega
    rw [Nat.ModEq, o12 om1 od1, Nat.mul_mod, this, zero_mul, Nat.zero_mod] at h
    exact absurd h (by norm_num)
  have b8 := IsBasis.nsmul (m := 2 ^ (n - 1)) (n := 8) (eight_dvd h3 ▸ bA) (by positivity)
  obtain ⟨E3, E4, F, k1, k2, k3, k4, -⟩ := kani_code gE0 gEA g1 g2 cβ cα cγ sβ sα sγ t1 t2 h3 norm (o12 (o12 om1 odA) od1) (o12 om2 oe) hg
    hb rp1 rp2 rq1 rq2 (hb.map (i1.inj pos od1 (cop od1).symm)) ((bA.map (iγ.inj pos oe (cop oe).symm)).smul_unit (cop og)) b8 hgl hc a0 a3 a9
  exact ⟨E3, E4, F, k1, k2, k3, k4⟩

/-- The second halves of the generators of the kernel of the chain. -/
theorem kernel_second (S : Crypto K) {chk : Bool} (hS : S.Sound chk) (pk : PublicKey K) (sk : SecretKey K) (m : TrapdoorInput) (c : TrapdoorOutput K)
    {φA1 : MPoint S.E0.A →+ MPoint sk.EA'.A} {φA2 : MPoint sk.EA'.A →+ MPoint pk.EA.A}
    {φ1 : MPoint S.E0.A →+ MPoint c.E1.A} {φ2 : MPoint pk.EA.A →+ MPoint c.E2.A}
    {Pb Qb Pd1 Qd1 : MPoint S.E0.A} {PA QA : MPoint pk.EA.A} (hb : IsBasis S.l Pb Qb)
    (hkey : KeyRel S pk sk φA1 φA2 Pb Qb Pd1 Qd1 PA QA)
    (hout : OutRel S pk m c φ1 φ2 Pb Qb Pd1 Qd1 (sk.a11 • φA2 (φA1 Pb)) (sk.a22 • φA2 (φA1 Qb)) PA QA)
    {a b : Nat} {r s gP gQ : Pt K} (ha : xgcdBig sk.a11 S.l = some a) (hb' : xgcdBig sk.a22 S.l = some b)
    (hr : c.E2.mulBig c.R2 a = some r) (hs : c.E2.mulBig c.S2 b = some s)
    (hgP : c.E2.mulBig r S.g2 = some gP) (hgQ : c.E2.mulBig s S.g2 = some gQ) :
    PRep gP (S.g2 • (φ2.comp φA2) (φA1 (m.b11 • Pb))) ∧ PRep gQ (S.g2 • (φ2.comp φA2) (φA1 (m.b22 • Qb))) := by
  obtain ⟨-, hE2⟩ := hout.isog2.good
  have l1' : 1 < S.l := by rw [hS.l_eq]; exact Nat.one_lt_two_pow (by have := hS.l_big; omega)
  have cop : ∀ {d : Nat}, d % 2 = 1 → d.Coprime S.l := fun h => by rw [hS.l_eq]; exact two_pow_coprime h
  have inv1 : a * sk.a11 ≡ 1 [MOD S.l] := inv_modEq l1' (cop hkey.odd11) ha
  have inv2 : b * sk.a22 ≡ 1 [MOD S.l] := inv_modEq l1' (cop hkey.odd22) hb'
  obtain ⟨r', er, gr⟩ := C27_mul_big hE2 hout.r2 a
  obtain ⟨s', es, gs⟩ := C27_mul_big hE2 hout.s2 b
  rw [hr, Option.some.injEq] at er; subst er
  rw [hs, Option.some.injEq] at es; subst es
  obtain ⟨gP', eP, ggP⟩ := C27_mul_big hE2 gr S.g2
  obtain ⟨gQ', eQ, ggQ⟩ := C27_mul_big hE2 gs S.g2
  rw [hgP, Option.some.injEq] at eP; subst eP
  rw [hgQ, Option.some.injEq] at eQ; subst eQ
  have red : ∀ {Z : MPoint S.E0.A} {a k : Nat} (u : Nat), S.l • Z = 0 → a * k ≡ 1 [MOD S.l] →
      S.g2 • a • u • φ2 (k • φA2 (φA1 Z)) = S.g2 • (φ2.comp φA2) (φA1 (u • Z)) := by
    intro Z a k u hZ hak
    have t : S.l • φ2 (φA2 (φA1 Z)) = 0 := by rw [← map_nsmul, ← map_nsmul, ← map_nsmul, hZ]; simp
    congr 1
    simp only [AddMonoidHom.comp_apply, map_nsmul, ← mul_nsmul']
    refine nsmul_congr t ?_
    have := hak.mul_right u
    rw [show a * (u * k) = a * k * u by ring]
    rwa [one_mul] at this
  rw [red _ hb.nsmul_left inv1] at ggP
  rw [red _ hb.nsmul_right inv2] at ggQ
  exact ⟨ggP, ggQ⟩

open Classical in
/-- C54, inversion: `trapdoor_inverse` returns the input of the trapdoor function.  Compared with `C54_inverse_partial` nothing is
assumed on the values of the chain of (2,2)-isogenies; that they are the ones of Kani's lemma is proved.  What is assumed is
that the chain meets no product before its last step (`JacChain`), that `EA'` has neither j-invariant 0 nor 1728, that
`(l/2) Pb` is not `(0, 0)` (true for the setup of the code, C85), and, as in `C54_recover_partial`, that the computed points,
if multiples of the first basis points, meet no zero in the Miller loops (`AxisFree`; needed, `C54_zero_fails`) and are not
killed by the numbers met in those loops. -/
theorem C54_invert_partial (p : Nat) [Fact p.Prime] [CharP K p] [Fintype K] (hcard : Fintype.card K = p ^ 2) (hp : p % 4 = 3)
    (chk : Bool) (fuel : Nat) (S : Crypto K) (hS : S.Sound chk) (hN : S.Norm) (h0 : S.E0.A = 6)
    (dv1 : S.d1 ∣ p + 1) (dv2 : S.d2 ∣ p + 1)
    (pk : PublicKey K) (sk : SecretKey K) (m : TrapdoorInput) (c : TrapdoorOutput K)
    {φA1 : MPoint S.E0.A →+ MPoint sk.EA'.A} {φA2 : MPoint sk.EA'.A →+ MPoint pk.EA.A}
    {φ1 : MPoint S.E0.A →+ MPoint c.E1.A} {φ2 : MPoint pk.EA.A →+ MPoint c.E2.A}
    {Pb Qb Pd1 Qd1 : MPoint S.E0.A} {PA QA : MPoint pk.EA.A}
    (hb : IsBasis S.l Pb Qb) (hx : xc ((S.l / 2) • Pb) ≠ 0) (hb1 : IsBasis S.d1 Pd1 Qd1) (hbA : IsBasis S.d2 PA QA)
    (hkey : KeyRel S pk sk φA1 φA2 Pb Qb Pd1 Qd1 PA QA)
    (hout : OutRel S pk m c φ1 φ2 Pb Qb Pd1 Qd1 (sk.a11 • φA2 (φA1 Pb)) (sk.a22 • φA2 (φA1 Qb)) PA QA)
    (hs1 : m.s1 < S.d1) (hs2 : m.s2 < S.d2) (hb11 : m.b11 % 2 = 1)
    (hlt : m.b11 < S.l / 2) (hb22 : m.b22 < S.l) (hinv : m.b11 * m.b22 % S.l = 1)
    -- the bases of the second halves
    {x1 y1 x2 y2 : Pt K} {X1 Y1 : MPoint c.E1.A} {X2 Y2 : MPoint c.E2.A}
    (ht1 : torsionBasis chk fuel c.E1 S.c.f1 S.c.lPower.toNat = some (x1, y1))
    (hx1 : PRep x1 X1) (hy1 : PRep y1 Y1) (hbx : IsBasis S.d1 X1 Y1)
    (ht2 : torsionBasis chk fuel c.E2 S.c.f2 S.c.lPower.toNat = some (x2, y2))
    (hx2 : PRep x2 X2) (hy2 : PRep y2 Y2) (hby : IsBasis S.d2 X2 Y2)
    -- the chain of (2,2)-isogenies
    {a b : Nat} {r s gP gQ : Pt K} (ha : xgcdBig sk.a11 S.l = some a) (hb' : xgcdBig sk.a22 S.l = some b)
    (hr : c.E2.mulBig c.R2 a = some r) (hs : c.E2.mulBig c.S2 b = some s)
    (hgP : c.E2.mulBig r S.g2 = some gP) (hgQ : c.E2.mulBig s S.g2 = some gQ)
    (h3 : 3 ≤ S.c.thetaLen) (hst : IsStrategy S.c.thetaLen S.c.strategy) {O T1 T2 : ThPt K}
    (hgl : gluingIsogeny ⟨c.E1, c.E2⟩ (EProd.doubleIter ⟨c.E1, c.E2⟩ ⟨c.R1, gP⟩ (S.c.thetaLen - 1))
      (EProd.doubleIter ⟨c.E1, c.E2⟩ ⟨c.S1, gQ⟩ (S.c.thetaLen - 1)) [⟨c.R1, gP⟩, ⟨c.S1, gQ⟩] = (ThStr.new O, [T1, T2]))
    (hc : JacChain (S.c.thetaLen - 1) O T1 T2)
    -- the curves
    (a0 : sk.EA'.A ≠ 0) (a3 : sk.EA'.A * sk.EA'.A ≠ 3) (a9 : 2 * (sk.EA'.A * sk.EA'.A) ≠ 9)
    -- the points on `EA'`
    (hgen : ∀ E34 I1 I2 l1 l2, productIsogeny ⟨c.E1, c.E2⟩ ⟨c.R1, gP⟩ ⟨c.S1, gQ⟩
      [⟨c.E1.add x1 c.R1, x2⟩, ⟨c.E1.add y1 c.S1, y2⟩] S.c.thetaLen S.c.strategy = some (E34, [I1, I2]) →
      chooseFactor chk sk.EA' E34 I1 I2 = some (l1, l2) → ∀ L : MPoint sk.EA'.A, PRep l1 L ∨ PRep l2 L →
      AxisFree S.d1 (S.l • φA1 (Pb + Pd1)) (S.d2 • (S.l • L)) ∧
      (∀ P2, PRep sk.P2 P2 → AxisFree S.d2 P2 (S.d1 • (S.l • L))) ∧
      ChainFree S.d1 (S.d2 • (S.l • L)) ∧ ChainFree S.d2 (S.d1 • (S.l • L))) :
    S.trapdoorInverse chk fuel c sk = some m := by
  obtain ⟨hE0, hA'⟩ := hkey.isog1.good
  obtain ⟨-, hA⟩ := hkey.isog2.good
  obtain ⟨-, hE1⟩ := hout.isog1.good
  obtain ⟨-, hE2⟩ := hout.isog2.good
  have l1' : 1 < S.l := by rw [hS.l_eq]; exact Nat.one_lt_two_pow (by have := hS.l_big; omega)
  have hl : S.l = 2 ^ (S.c.thetaLen + 2) := by rw [hN.len, hS.l_eq]
  have cop : ∀ {d : Nat}, d % 2 = 1 → d.Coprime S.l := fun h => by rw [hS.l_eq]; exact two_pow_coprime h
  have o12 : ∀ {a b : Nat}, a % 2 = 1 → b % 2 = 1 → a * b % 2 = 1 := fun ha hb => by rw [Nat.mul_mod, ha, hb]
  have ob22 : m.b22 % 2 = 1 := by
    by_contra h
    have h : m.b22 % 2 = 0 := by omega
    have : m.b11 * m.b22 % S.l % 2 = 0 := by
      rw [Nat.mod_mod_of_dvd _ (by rw [hl]; exact dvd_pow_self 2 (by omega)), Nat.mul_mod, h, mul_zero, Nat.zero_mod]
    rw [hinv] at this
    exact absurd this (by norm_num)
  -- isogenies over the closure and duals
  have hF0 : FrobNeg p S.E0.A := h0 ▸ frobNeg_six hcard hp
  obtain ⟨-, β', cβ, sβ, ψ1, dl1, dr1, dk1, t1⟩ := hout.isog1.lift_dual hcard hp hS.odd1 hF0
  obtain ⟨hFA', α', cα, sα, -⟩ := hkey.isog1.lift_dual hcard hp hN.oddA1 hF0
  obtain ⟨hFA, γ1, cγ1, sγ1, ψA2, dlA, -, -, tA⟩ := hkey.isog2.lift_dual hcard hp hN.oddA2 hFA'
  obtain ⟨-, γ2, cγ2, sγ2, ψ2, dl2, dr2, dk2, t2⟩ := hout.isog2.lift_dual hcard hp hS.odd2 hFA
  -- the points
  obtain ⟨ggP, ggQ⟩ := kernel_second S hS pk sk m c hb hkey hout ha hb' hr hs hgP hgQ
  have rp1 : PRep c.R1 (φ1 (m.b11 • Pb)) := by rw [map_nsmul]; exact hout.r1
  have rq1 : PRep c.S1 (φ1 (m.b22 • Qb)) := by rw [map_nsmul]; exact hout.s1
  have hbb : IsBasis S.l (m.b11 • Pb) (m.b22 • Qb) := hb.smul_units (cop hb11) (cop ob22)
  have bA := hbb.map (hkey.isog1.inj (by omega) hN.oddA1 (cop hN.oddA1).symm)
  have be := (bA.map (hkey.isog2.inj (by omega) hN.oddA2 (cop hN.oddA2).symm)).map
    (hout.isog2.inj (by omega) hS.odd2 (cop hS.odd2).symm)
  have b1 := hbb.map (hout.isog1.inj (by omega) hS.odd1 (cop hS.odd1).symm)
  have hg' : S.g2 * (S.c.m2 * (S.c.dA2 * S.d2)) ≡ S.c.m1 * S.d1 [MOD 2 ^ (S.c.thetaLen + 2)] := by
    have := hS.g2
    rw [hl] at this
    rwa [← mul_assoc S.c.m2]
  have hg := hg'.of_dvd (pow_dvd_pow 2 (show S.c.thetaLen ≤ S.c.thetaLen + 2 by omega))
  have og : S.g2 % 2 = 1 := by
    have h := hg.of_dvd (dvd_pow_self 2 (show S.c.thetaLen ≠ 0 by omega))
    by_contra hg0
    have : S.g2 % 2 = 0 := by omega
    rw [Nat.ModEq, o12 hS.oddm1 hS.odd1, Nat.mul_mod, this, zero_mul, Nat.zero_mod] at h
    exact absurd h (by norm_num)
  -- Kani's lemma
  obtain ⟨E3, E4, F, g3, g4, hF, -, hread⟩ := kani_code (E := ⟨c.E1, c.E2⟩) (γ := φ2.comp φA2) (γ' := γ2.comp γ1) (ψ := ψA2.comp ψ2)
    (P := ⟨c.R1, gP⟩) (Q := ⟨c.S1, gQ⟩) hE0 hA' hE1 hE2 cβ cα
    (fun X => by rw [AddMonoidHom.comp_apply, AddMonoidHom.comp_apply, cγ1, cγ2]) sβ sα (sγ1.comp sγ2) t1
    (fun Y X hX => by
      rw [AddMonoidHom.comp_apply] at hX ⊢
      have := t2 Y _ hX
      rw [← map_nsmul] at this
      rw [tA _ _ this.symm, mul_nsmul'])
    h3 (by rw [← mul_assoc]; exact hN.eq) (o12 (o12 hS.oddm1 hN.oddA1) hS.odd1) (o12 hN.oddm2 (o12 hN.oddA2 hS.odd2)) hg
    (hl ▸ hbb) rp1 ggP rq1 ggQ (hl ▸ b1) (hl ▸ be.smul_unit (cop og))
    (IsBasis.nsmul (m := 2 ^ (S.c.thetaLen - 1)) (n := 8) (eight_dvd h3 ▸ hl ▸ bA) (by positivity)) hgl hc a0 a3 a9
  have hprod := hF S.c.strategy [⟨c.E1.add x1 c.R1, x2⟩, ⟨c.E1.add y1 c.S1, y2⟩] hst
  obtain ⟨hread, hopp⟩ := hread hg'
  have n3 : E3.A ≠ -sk.EA'.A := fun h => by
    have half : 2 ^ (S.c.thetaLen + 1) • m.b11 • Pb = (S.l / 2) • Pb := by
      have two : 2 • 2 ^ (S.c.thetaLen + 1) • Pb = 0 := by rw [← mul_nsmul', ← pow_succ', ← hl]; exact hb.nsmul_left
      rw [hl, pow_succ _ (S.c.thetaLen + 1), Nat.mul_div_cancel _ two_pos, smul_comm, nsmul_modEq two (b := 1) hb11, one_nsmul]
    obtain ⟨-, -, ne, -⟩ := IsBasis.two_parts (k := S.c.thetaLen + 1) (hl ▸ hbb)
    have := hopp h
    rw [← map_nsmul] at this
    have := hkey.isog1.zero_x_of hN.oddA1 ne (by rw [← mul_nsmul', ← pow_succ', ← hl]; exact hbb.nsmul_left) this
    exact hx (half ▸ this)
  simp only [List.map_cons, List.map_nil] at hprod
  -- the two values
  have ready : ∀ {X : MPoint c.E1.A} {V : MPoint c.E2.A} {Z : MPoint S.E0.A} {u : Nat}, S.d1 • X = 0 → S.d2 • V = 0 → S.l • Z = 0 → u % 2 = 1 →
      (∀ t : Nat, t • Z = 0 → S.l ∣ t) →
      (∃ s k : ℕ, s % 2 = 1 ∧ s • V = 0 ∧ 2 ^ k • s • (X + φ1 (u • Z)) = 0 ∧ 4 • s • (X + φ1 (u • Z)) ≠ 0) ∧
        S.c.m1 • φA1 (ψ1 (X + φ1 (u • Z))) - S.c.m2 • (ψA2.comp ψ2) V ≠ 0 := by
    intro X V Z u hX hV hZ hu hord
    have sX : (S.d1 * S.d2) • (X + φ1 (u • Z)) = φ1 ((S.d1 * S.d2 * u) • Z) := by
      rw [nsmul_add, mul_comm S.d1, mul_nsmul', hX, nsmul_zero, zero_add, ← map_nsmul, ← mul_nsmul']
    have big : ∀ t : Nat, t % 2 = 1 → ¬ S.l ∣ 4 * t := by
      intro t ht hd
      have h8 : 8 ∣ 4 * t := (by rw [hl, eight_dvd h3]; exact Dvd.intro_left _ rfl : 8 ∣ S.l).trans hd
      omega
    refine ⟨⟨S.d1 * S.d2, S.c.thetaLen + 2, o12 hS.odd1 hS.odd2, by rw [mul_nsmul', hV, nsmul_zero], ?_, ?_⟩, ?_⟩
    · rw [sX, ← hl, ← map_nsmul, smul_comm, hZ, nsmul_zero, map_zero]
    · rw [sX, ← map_nsmul]
      intro h
      have := hout.isog1.inj (by omega : 1 ≤ S.l) hS.odd1 (cop hS.odd1).symm _ (by rw [smul_comm, smul_comm S.l, hZ]; simp) h
      rw [← mul_nsmul'] at this
      exact big _ (o12 (o12 hS.odd1 hS.odd2) hu) (hord _ this)
    · intro h
      have h := congrArg (fun T => (S.d1 * S.d2) • T) h
      simp only [smul_zero, nsmul_sub, AddMonoidHom.comp_apply] at h
      rw [smul_comm _ S.c.m2, ← map_nsmul ψA2, ← map_nsmul ψ2, mul_nsmul' V, hV, nsmul_zero, map_zero, map_zero, nsmul_zero, sub_zero,
        smul_comm, ← map_nsmul φA1, ← map_nsmul ψ1, sX, dl1, ← map_nsmul, ← mul_nsmul', ← mul_nsmul'] at h
      have := hkey.isog1.inj (by omega : 1 ≤ S.l) hN.oddA1 (cop hN.oddA1).symm _ (by rw [smul_comm, hZ]; simp) h
      have := (hord _ this).mul_left 4
      exact big _ (o12 (o12 hS.oddm1 hS.odd1) (o12 (o12 hS.odd1 hS.odd2) hu)) this
  have ordP : ∀ t : Nat, t • Pb = 0 → S.l ∣ t := fun t ht => by
    have := (hb t 0).mp (by simpa using ht)
    exact_mod_cast this.1
  have ordQ : ∀ t : Nat, t • Qb = 0 → S.l ∣ t := fun t ht => by
    have := (hb 0 t).mp (by simpa using ht)
    exact_mod_cast this.2
  obtain ⟨w1, z1⟩ := ready hbx.nsmul_left hby.nsmul_left hb.nsmul_left hb11 ordP
  obtain ⟨w2, z2⟩ := ready hbx.nsmul_right hby.nsmul_right hb.nsmul_right ob22 ordQ
  have rx : PRep (c.E1.add x1 c.R1) (X1 + φ1 (m.b11 • Pb)) := C25_add hE1 hx1 rp1
  have ry : PRep (c.E1.add y1 c.S1) (Y1 + φ1 (m.b22 • Qb)) := C25_add hE1 hy1 rq1
  -- the choice of the factor
  have fin : ∃ l1 l2, chooseFactor chk sk.EA' ⟨E3, E4⟩ (F ⟨c.E1.add x1 c.R1, x2⟩) (F ⟨c.E1.add y1 c.S1, y2⟩) = some (l1, l2) ∧
      (PRep l1 (S.c.m1 • φA1 (ψ1 (X1 + φ1 (m.b11 • Pb))) - S.c.m2 • (ψA2.comp ψ2) X2) ∨
        PRep l1 (-(S.c.m1 • φA1 (ψ1 (X1 + φ1 (m.b11 • Pb))) - S.c.m2 • (ψA2.comp ψ2) X2))) ∧
      (PRep l2 (S.c.m1 • φA1 (ψ1 (Y1 + φ1 (m.b22 • Qb))) - S.c.m2 • (ψA2.comp ψ2) Y2) ∨
        PRep l2 (-(S.c.m1 • φA1 (ψ1 (Y1 + φ1 (m.b22 • Qb))) - S.c.m2 • (ψA2.comp ψ2) Y2))) := by
    obtain ⟨j, hread⟩ := hread n3
    have q1 := hread (X := ⟨c.E1.add x1 c.R1, x2⟩) rx hx2 w1 z1
    have q2 := hread (X := ⟨c.E1.add y1 c.S1, y2⟩) ry hy2 w2 z2
    refine ⟨_, _, ?_, q1, q2⟩
    rw [chooseFactor, if_pos j]
    split <;> rfl
  obtain ⟨l1, l2, hch, hr1, hr2⟩ := fin
  have pick : ∀ {l : Pt K} {X : MPoint sk.EA'.A}, PRep l X ∨ PRep l (-X) → ∃ L, PRep l L ∧ (L = X ∨ L = -X) := by
    rintro l X (h | h)
    · exact ⟨X, h, .inl rfl⟩
    · exact ⟨-X, h, .inr rfl⟩
  obtain ⟨L1, hL1, e1⟩ := pick hr1
  obtain ⟨L2, hL2, e2⟩ := pick hr2
  have gen := hgen _ _ _ _ _ hprod hch
  have all : ∀ {f : MPoint sk.EA'.A → Prop}, (∀ L, PRep l1 L ∨ PRep l2 L → f L) → ∀ L ∈ [L1, L2], f L := by
    intro f h L hL
    simp only [List.mem_cons, List.not_mem_nil, or_false] at hL
    rcases hL with rfl | rfl
    · exact h _ (.inl hL1)
    · exact h _ (.inr hL2)
  have sg : ∀ (U : MPoint c.E1.A) (V : MPoint c.E2.A), S.c.m1 • φA1 (ψ1 U) - S.c.m2 • (ψA2.comp ψ2) V =
      S.c.m1 • φA1 (ψ1 U) + S.c.m2 • ψA2 ((-ψ2) V) := by
    intro U V
    rw [AddMonoidHom.comp_apply, AddMonoidHom.neg_apply, map_neg, smul_neg, ← sub_eq_add_neg]
  rw [sg, map_nsmul φ1] at e1 e2
  refine C54_inverse_partial chk fuel S hS hN pk sk m c hb hb1 hbA hkey hout hs1 hs2 hb11 hlt hb22 hinv ht1 hx1 hy1 hbx ht2 hx2 hy2 hby
    (ψ1 := ψ1) (ψ2 := -ψ2) (ψA2 := ψA2) ⟨fun X _ => dl1 X, fun Y _ => dr1 Y, fun Y _ h => dk1 Y dv1 h⟩
    ⟨fun X hX => ?_, fun Y hY => ?_, fun Y _ h => dk2 Y dv2 (neg_eq_zero.mp h)⟩ (fun X _ => dlA X) ha hb' hr hs hgP hgQ hprod hch hL1 hL2
    e1 e2 (all fun L hL => (gen L hL).1) (all fun L hL => (gen L hL).2.1) (all fun L hL => (gen L hL).2.2.1)
    (all fun L hL => (gen L hL).2.2.2)
  · rw [AddMonoidHom.neg_apply, dl2, hX, neg_zero]
  · rw [AddMonoidHom.neg_apply, map_neg, dr2, hY, neg_zero]

end
end Festa
