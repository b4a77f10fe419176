import Verif.Lemmas.Dual
import Verif.Props.StartCurve
/-!
Property C70: dual isogenies and the kernel of the chain of (2,2)-isogenies.  On the curves of the scheme every isogeny of
the code has a dual, and the points handed to `product_isogeny` in `trapdoor_inverse` generate the kernel, within the points
killed by `l`, of the first component of the isogeny of Kani's lemma.
-/
namespace Festa
open WeierstrassCurve.Affine

section
variable {K : Type*} [Field K] [DecidableEq K] [RootOps K]

/-- C70, duals: `E` and `E'` curves reached from the curve with `A = 6`, over the field with `p²` elements, and
`φ : E → E'` an isogeny of odd degree `d`.  Then there is a homomorphism back with both compositions the multiplication by
`d`, and if `d` divides `p + 1`, its kernel is the image of the points killed by `d`. -/
theorem C70_dual (p : Nat) [Fact p.Prime] [CharP K p] [Fintype K] (hc : Fintype.card K = p ^ 2) (hp : p % 4 = 3)
    {E0 E E' : Crv K} (h0 : E0.A = 6) {φ0 : MPoint E0.A →+ MPoint E.A} {d0 : Nat} (hφ0 : IsIsog φ0 d0) (hd0 : d0 % 2 = 1)
    {φ : MPoint E.A →+ MPoint E'.A} {d : Nat} (hφ : IsIsog φ d) (hd : d % 2 = 1) :
    ∃ ψ : MPoint E'.A →+ MPoint E.A, (∀ X, ψ (φ X) = d • X) ∧ (∀ Y, φ (ψ Y) = d • Y) ∧
      (d ∣ p + 1 → ∀ Y, ψ Y = 0 ↔ ∃ X, d • X = 0 ∧ φ X = Y) := by
  obtain ⟨L, f, h, rfl, -⟩ := hφ0
  have hF := h.frobNeg hc hp hd0 (h0 ▸ frobNeg_six hc hp)
  obtain ⟨hE, hE'⟩ := hφ.good
  have hF' : FrobNeg p E'.A := by
    obtain ⟨L', f', h', rfl, -⟩ := hφ
    exact h'.frobNeg hc hp hd hF
  obtain ⟨ψ, h1, h2, h3⟩ := (hφ.lift hd).dual hc hE.two hE.disc hF hF'
  refine ⟨ψ, h1, h2, fun hdv Y => ⟨h3 Y hdv, ?_⟩⟩
  rintro ⟨X, hX, rfl⟩
  rw [h1, hX]

omit [RootOps K] in
/-- The pairing with a multiple by a unit. -/
theorem IsBasis.we_unit {A : K} (h2 : (2 : K) ≠ 0) (hA : A * A ≠ 4) {n g : Nat} (hn : 2 ≤ n) (hg : g.Coprime n)
    {X Y : MPoint A} (h : IsBasis n X Y) : we n Y (g • X) = we n Y X ^ g := by
  have h1 := (h.we_eq h2 hA hn (g % n) 0 (Nat.pos_of_ne_zero fun h0 => by
    have : n ∣ g := Nat.dvd_of_mod_eq_zero h0
    have := Nat.Coprime.eq_one_of_dvd hg.symm this
    omega) (Nat.mod_lt _ (by omega)))
  have e : (g % n) • X = g • X := by
    conv_rhs => rw [← Nat.mod_add_div g n]
    rw [add_nsmul, mul_comm, mul_nsmul', h.nsmul_left, nsmul_zero, add_zero]
  rw [zero_nsmul, add_zero, e] at h1
  rw [h1.1]
  conv_rhs => rw [← Nat.mod_add_div g n, pow_add, pow_mul, h1.2, one_pow, mul_one]

/-- C70, pairing: the dual is adjoint to the isogeny for the Weil pairing of order `n`, prime to the degree. -/
theorem C70_adjoint {E E' : Crv K} {φ : MPoint E.A →+ MPoint E'.A} {d : Nat} (hφ : IsIsog φ d) (hd : d % 2 = 1)
    {ψ : MPoint E'.A →+ MPoint E.A} (h1 : ∀ X, ψ (φ X) = d • X) (h2 : ∀ Y, φ (ψ Y) = d • Y) {n : Nat} (hn : 2 ≤ n)
    (hco : n.Coprime d) {P : MPoint E.A} {Y : MPoint E'.A} (hP : n • P = 0) (hb : IsBasis n (φ P) Y) :
    we n (φ P) Y = we n P (ψ Y) := by
  obtain ⟨hE, -⟩ := hφ.good
  obtain ⟨u, v, huv⟩ := Nat.isCoprime_iff_coprime.mpr hco.symm
  -- a preimage of `Y`
  have hZ : φ (u • ψ Y) = Y := by
    rw [map_zsmul, h2, ← natCast_zsmul, ← mul_zsmul]
    calc (u * d : Int) • Y = (u * d + v * n : Int) • Y := by
          rw [add_zsmul, mul_zsmul _ v, natCast_zsmul, hb.nsmul_right, zsmul_zero, add_zero]
      _ = Y := by rw [huv, one_zsmul]
  generalize u • ψ Y = Z at hZ
  subst hZ
  obtain ⟨Z', hZ', tZ⟩ : ∃ Z', φ Z' = φ Z ∧ n • Z' = 0 := by
    refine ⟨(u * d) • Z, ?_, ?_⟩
    · rw [map_zsmul]
      calc (u * d : Int) • φ Z = (u * d + v * n : Int) • φ Z := by
            rw [add_zsmul, mul_zsmul _ v, natCast_zsmul, hb.nsmul_right, zsmul_zero, add_zero]
        _ = φ Z := by rw [huv, one_zsmul]
    · rw [mul_zsmul, natCast_zsmul, ← h1, smul_comm, ← map_nsmul, hb.nsmul_right, map_zero, zsmul_zero]
  rw [← hZ'] at hb ⊢
  have hbZ : IsBasis n P Z' := by
    intro a b
    rw [← hb a b, ← map_zsmul, ← map_zsmul, ← map_add]
    refine ⟨fun e => by rw [e, map_zero], hφ.inj (by omega) hd hco _ ?_⟩
    rw [smul_add, smul_comm, hP, smul_comm, tZ, smul_zero, smul_zero, add_zero]
  rw [h1, hφ.weil hn hd hco hbZ, hbZ.symm.we_unit hE.two hE.disc hn hco.symm]

end

section
variable {K : Type} [Field K] [DecidableEq K] [RootOps K]

/-- C70, kernel: in `trapdoor_inverse`, within the pairs of points killed by `l`, the combinations of the two pairs
`(R1, gP)`, `(S1, gQ)` handed to `product_isogeny` are the pairs `(U, V)` with `m1 φA1(φ1^(U)) = m2 φA2^(φ2^(V))`, where `^` is
the dual isogeny.  This is the first component of the isogeny of degree `m1² dA1 d1 + m2² dA2 d2` of Kani's lemma. -/
theorem C70_kernel (chk : Bool) (S : Crypto K) (hS : S.Sound chk) (hN : S.Norm) (pk : PublicKey K) (sk : SecretKey K)
    (m : TrapdoorInput) (c : TrapdoorOutput K) {φA1 : MPoint S.E0.A →+ MPoint sk.EA'.A}
    {φA2 : MPoint sk.EA'.A →+ MPoint pk.EA.A} {φ1 : MPoint S.E0.A →+ MPoint c.E1.A} {φ2 : MPoint pk.EA.A →+ MPoint c.E2.A}
    {Pb Qb Pd1 Qd1 : MPoint S.E0.A} {PA QA : MPoint pk.EA.A} (hb : IsBasis S.l Pb Qb)
    (hkey : KeyRel S pk sk φA1 φA2 Pb Qb Pd1 Qd1 PA QA)
    (hout : OutRel S pk m c φ1 φ2 Pb Qb Pd1 Qd1 (sk.a11 • φA2 (φA1 Pb)) (sk.a22 • φA2 (φA1 Qb)) PA QA)
    (hinv : m.b11 * m.b22 % S.l = 1)
    -- the dual isogenies
    {ψ1 : MPoint c.E1.A →+ MPoint S.E0.A} {ψ2 : MPoint c.E2.A →+ MPoint pk.EA.A} {ψA2 : MPoint pk.EA.A →+ MPoint sk.EA'.A}
    (h1 : ∀ X, ψ1 (φ1 X) = S.d1 • X)
    (h2 : ∀ X, ψ2 (φ2 X) = S.d2 • X) (h2' : ∀ Y, φ2 (ψ2 Y) = S.d2 • Y)
    (hA : ∀ X, ψA2 (φA2 X) = S.c.dA2 • X) (hA' : ∀ Y, φA2 (ψA2 Y) = S.c.dA2 • Y)
    -- the points computed in trapdoor_inverse
    {a b : Nat} {r s gP gQ : Pt K} (ha : xgcdBig sk.a11 S.l = some a) (hb' : xgcdBig sk.a22 S.l = some b)
    (hr : c.E2.mulBig c.R2 a = some r) (hs : c.E2.mulBig c.S2 b = some s)
    (hgP : c.E2.mulBig r S.g2 = some gP) (hgQ : c.E2.mulBig s S.g2 = some gQ) :
    ∃ (R1 S1 : MPoint c.E1.A) (GP GQ : MPoint c.E2.A), PRep c.R1 R1 ∧ PRep c.S1 S1 ∧ PRep gP GP ∧ PRep gQ GQ ∧
      ∀ (U : MPoint c.E1.A) (V : MPoint c.E2.A), S.l • U = 0 → S.l • V = 0 →
        (S.c.m1 • φA1 (ψ1 U) = S.c.m2 • ψA2 (ψ2 V) ↔
          ∃ x y : Int, U = x • R1 + y • S1 ∧ V = x • GP + y • GQ) := by
  obtain ⟨-, hE1⟩ := hout.isog1.good
  obtain ⟨-, hE2⟩ := hout.isog2.good
  have l1' : 1 < S.l := by rw [hS.l_eq]; exact Nat.one_lt_two_pow (by have := hS.l_big; omega)
  have cop : ∀ {d : Nat}, d % 2 = 1 → d.Coprime S.l := fun h => by rw [hS.l_eq]; exact two_pow_coprime h
  have inv1 : a * sk.a11 ≡ 1 [MOD S.l] := inv_modEq l1' (cop hkey.odd11) ha
  have inv2 : b * sk.a22 ≡ 1 [MOD S.l] := inv_modEq l1' (cop hkey.odd22) hb'
  obtain ⟨r', er, gr⟩ := C27_mul_big hE2 hout.r2 a
  obtain ⟨s', es, gs⟩ := C27_mul_big hE2 hout.s2 b
  rw [hr, Option.some.injEq] at er; subst er
  rw [hs, Option.some.injEq] at es; subst es
  obtain ⟨gP', eP, ggP⟩ := C27_mul_big hE2 gr S.g2
  obtain ⟨gQ', eQ, ggQ⟩ := C27_mul_big hE2 gs S.g2
  rw [hgP, Option.some.injEq] at eP; subst eP
  rw [hgQ, Option.some.injEq] at eQ; subst eQ
  refine ⟨_, _, _, _, hout.r1, hout.s1, ggP, ggQ, ?_⟩
  -- multiples modulo `l`
  have cong : ∀ {H : Type} [AddCommGroup H] {X : H} {i j : Nat}, S.l • X = 0 → i ≡ j [MOD S.l] → i • X = j • X := by
    intro H _ X i j hX hij
    have e : ∀ t : Nat, t • X = (t % S.l) • X := by
      intro t
      conv_lhs => rw [← Nat.mod_add_div t S.l]
      rw [add_nsmul, mul_comm, mul_nsmul', hX, nsmul_zero, add_zero]
    rw [e i, e j, hij]
  -- both sides at the generators
  have gen : ∀ {Z : MPoint S.E0.A} (u a' k : Nat), S.l • Z = 0 → a' * k ≡ 1 [MOD S.l] →
      S.c.m1 • φA1 (ψ1 (u • φ1 Z)) = S.c.m2 • ψA2 (ψ2 (S.g2 • a' • u • φ2 (k • φA2 (φA1 Z)))) := by
    intro Z u a' k hZ hk
    have tZ : S.l • φA1 Z = 0 := by rw [← map_nsmul, hZ, map_zero]
    simp only [map_nsmul, h1, h2, hA, ← mul_nsmul']
    refine cong tZ ?_
    calc S.c.m1 * (u * S.d1) = S.c.m1 * S.d1 * u * 1 := by ring
      _ ≡ S.g2 * (S.c.m2 * S.c.dA2 * S.d2) * u * (a' * k) [MOD S.l] := ((hS.g2.symm.mul_right u).mul hk.symm)
      _ = S.c.m2 * (S.g2 * (a' * (u * (k * (S.d2 * S.c.dA2))))) := by ring
      _ = _ := by ring
  have tl : ∀ {Z : MPoint S.E0.A}, Z = Pb ∨ Z = Qb → S.l • Z = 0 := by
    rintro Z (rfl | rfl)
    · exact hb.nsmul_left
    · exact hb.nsmul_right
  have gP := gen m.b11 a sk.a11 (tl (Or.inl rfl)) inv1
  have gQ := gen m.b22 b sk.a22 (tl (Or.inr rfl)) inv2
  intro U V hU hV
  constructor
  · intro hUV
    -- `U` in terms of the basis
    have k1 : m.b11 * m.b22 ≡ 1 [MOD S.l] := by rw [Nat.ModEq, hinv, Nat.mod_eq_of_lt l1']
    have bs := hb.map (hout.isog1.inj (by omega) hS.odd1 (cop hS.odd1).symm)
    obtain ⟨x, y, hxy⟩ := span_basis hE1.two hE1.disc (by omega) bs hU
    have e1 : U = (x * m.b22) • m.b11 • φ1 Pb + (y * m.b11) • m.b22 • φ1 Qb := by
      rw [hxy, mul_zsmul, mul_zsmul, natCast_zsmul, natCast_zsmul, ← mul_nsmul', ← mul_nsmul', mul_comm m.b22,
        cong bs.nsmul_left k1, cong bs.nsmul_right k1, one_nsmul, one_nsmul]
    refine ⟨x * m.b22, y * m.b11, e1, ?_⟩
    -- the difference is killed by `l` and by a number prime to `l`
    generalize hx' : x * (m.b22 : Int) = x' at e1 ⊢
    generalize hy' : y * (m.b11 : Int) = y' at e1 ⊢
    rw [e1] at hUV
    simp only [map_add, map_zsmul, smul_add] at hUV
    rw [smul_comm _ x', smul_comm _ y', gP, gQ] at hUV
    rw [← sub_eq_zero]
    generalize hW : V - (x' • S.g2 • a • m.b11 • φ2 (sk.a11 • φA2 (φA1 Pb)) +
      y' • S.g2 • b • m.b22 • φ2 (sk.a22 • φA2 (φA1 Qb))) = W
    have w1 : S.c.m2 • ψA2 (ψ2 W) = 0 := by
      rw [← hW]
      simp only [map_sub, map_add, map_zsmul, smul_sub, smul_add]
      rw [← hUV, smul_comm _ x', smul_comm _ y', sub_self]
    have w2 : (S.c.m2 * (S.c.dA2 * S.d2)) • W = 0 := by
      have := congrArg (fun X => φ2 (φA2 X)) w1
      simp only [map_nsmul, hA', h2', map_zero] at this
      rw [mul_nsmul', mul_nsmul', this]
    have w3 : S.l • W = 0 := by
      rw [← hW, smul_sub, hV, smul_add]
      have t : ∀ {Z : MPoint S.E0.A} (t : Int) (i j k n : Nat), S.l • Z = 0 →
          S.l • t • i • j • k • φ2 (n • φA2 (φA1 Z)) = 0 := by
        intro Z t i j k n hZ
        have hY : S.l • φ2 (n • φA2 (φA1 Z)) = 0 := by
          rw [← map_nsmul, smul_comm, ← map_nsmul φA2, ← map_nsmul φA1, hZ]
          simp
        rw [smul_comm _ t, smul_comm _ i, smul_comm _ j, smul_comm _ k, hY]
        simp
      rw [t _ _ _ _ _ (tl (Or.inl rfl)), t _ _ _ _ _ (tl (Or.inr rfl))]
      simp
    have co : (S.c.m2 * (S.c.dA2 * S.d2)).Coprime S.l :=
      (cop hN.oddm2).mul_left ((cop hN.oddA2).mul_left (cop hS.odd2))
    obtain ⟨u, v, huv⟩ := Nat.isCoprime_iff_coprime.mpr co
    calc W = (u * ((S.c.m2 * (S.c.dA2 * S.d2) : Nat) : Int) + v * (S.l : Int)) • W := by rw [huv, one_zsmul]
      _ = 0 := by rw [add_zsmul, mul_zsmul, mul_zsmul _ v, natCast_zsmul, natCast_zsmul, w2, w3, zsmul_zero, zsmul_zero, add_zero]
  · rintro ⟨x, y, rfl, rfl⟩
    simp only [map_add, map_zsmul, smul_add]
    rw [smul_comm _ x, smul_comm _ y, gP, gQ, smul_comm _ x, smul_comm _ y]

end

/-- C70, for the code: the dual isogenies exist for every key pair and every value of the trapdoor function that belong to
an object made by `FESTACrypto::new`. -/
theorem C70_code (chk : Bool) (fuel : Nat) (S : Crypto Fq) (h : Crypto.new (F := Fr) chk fuel festaConsts = some S)
    (pk : PublicKey Fq) (sk : SecretKey Fq) (m : TrapdoorInput) (c : TrapdoorOutput Fq)
    {φA1 : MPoint S.E0.A →+ MPoint sk.EA'.A} {φA2 : MPoint sk.EA'.A →+ MPoint pk.EA.A} {φ1 : MPoint S.E0.A →+ MPoint c.E1.A}
    {φ2 : MPoint pk.EA.A →+ MPoint c.E2.A} {Pb Qb Pd1 Qd1 : MPoint S.E0.A} {RA SA PA QA : MPoint pk.EA.A}
    (hkey : KeyRel S pk sk φA1 φA2 Pb Qb Pd1 Qd1 PA QA) (hout : OutRel S pk m c φ1 φ2 Pb Qb Pd1 Qd1 RA SA PA QA) :
    ∃ (ψ1 : MPoint c.E1.A →+ MPoint S.E0.A) (ψ2 : MPoint c.E2.A →+ MPoint pk.EA.A)
      (ψA1 : MPoint sk.EA'.A →+ MPoint S.E0.A) (ψA2 : MPoint pk.EA.A →+ MPoint sk.EA'.A),
      ((∀ X, ψ1 (φ1 X) = S.d1 • X) ∧ (∀ Y, φ1 (ψ1 Y) = S.d1 • Y) ∧ ∀ Y, ψ1 Y = 0 ↔ ∃ X, S.d1 • X = 0 ∧ φ1 X = Y) ∧
      ((∀ X, ψ2 (φ2 X) = S.d2 • X) ∧ (∀ Y, φ2 (ψ2 Y) = S.d2 • Y) ∧ ∀ Y, ψ2 Y = 0 ↔ ∃ X, S.d2 • X = 0 ∧ φ2 X = Y) ∧
      ((∀ X, ψA1 (φA1 X) = S.c.dA1 • X) ∧ ∀ Y, φA1 (ψA1 Y) = S.c.dA1 • Y) ∧
      ((∀ X, ψA2 (φA2 X) = S.c.dA2 • X) ∧ ∀ Y, φA2 (ψA2 Y) = S.c.dA2 • Y) := by
  obtain ⟨hS, hc, h0, hE⟩ := C54_setup chk fuel S h
  have hN := C54_norm chk fuel S h
  have dv1 : S.d1 ∣ festaFp.p + 1 := by rw [hS.d1_eq, hc]; decide +kernel
  have dv2 : S.d2 ∣ festaFp.p + 1 := by rw [hS.d2_eq, hc]; decide +kernel
  have oA : (S.c.dA1 * S.c.dA2) % 2 = 1 := Nat.odd_iff.mp ((Nat.odd_iff.mpr hN.oddA1).mul (Nat.odd_iff.mpr hN.oddA2))
  obtain ⟨ψ1, a1, a2, a3⟩ := C70_dual festaFp.p fq_card festa_mod_four h0 (isIsog_id hE) (by norm_num) hout.isog1 hS.odd1
  obtain ⟨ψ2, b1, b2, b3⟩ := C70_dual festaFp.p fq_card festa_mod_four h0 (hkey.isog1.comp hkey.isog2) oA hout.isog2 hS.odd2
  obtain ⟨ψA1, c1, c2, -⟩ := C70_dual festaFp.p fq_card festa_mod_four h0 (isIsog_id hE) (by norm_num) hkey.isog1 hN.oddA1
  obtain ⟨ψA2, e1, e2, -⟩ := C70_dual festaFp.p fq_card festa_mod_four h0 hkey.isog1 hN.oddA1 hkey.isog2 hN.oddA2
  exact ⟨ψ1, ψ2, ψA1, ψA2, ⟨a1, a2, a3 dv1⟩, ⟨b1, b2, b3 dv2⟩, ⟨c1, c2⟩, e1, e2⟩

/-! ### Concrete case: the small version of the scheme -/

/-- The duals of the four isogenies of the small scheme, and the kernel. -/
example : ∃ (φA1 : MPoint toyE0.A →+ MPoint toyEA'.A) (φA2 : MPoint toyEA'.A →+ MPoint toyEA.A)
    (φ1 : MPoint toyE0.A →+ MPoint toyE1.A) (φ2 : MPoint toyEA.A →+ MPoint toyE2.A)
    (ψ1 : MPoint toyE1.A →+ MPoint toyE0.A) (ψ2 : MPoint toyE2.A →+ MPoint toyEA.A)
    (ψA2 : MPoint toyEA.A →+ MPoint toyEA'.A),
    (∀ X, ψ1 (φ1 X) = 343 • X) ∧ (∀ Y, φ2 (ψ2 Y) = 169 • Y) ∧
    (∀ Y, ψ2 Y = 0 ↔ ∃ X, 169 • X = 0 ∧ φ2 X = Y) ∧
    ∃ (R1 S1 : MPoint toyE1.A) (GP GQ : MPoint toyE2.A), PRep toyOut.R1 R1 ∧ PRep toyOut.S1 S1 ∧
      ∀ (U : MPoint toyE1.A) (V : MPoint toyE2.A), 2 ^ 25 • U = 0 → 2 ^ 25 • V = 0 →
        (1 • φA1 (ψ1 U) = 5 • ψA2 (ψ2 V) ↔ ∃ x y : Int, U = x • R1 + y • S1 ∧ V = x • GP + y • GQ) := by
  obtain ⟨φA1, φA2, L2, -, -, hkey, hb⟩ := toy_key
  obtain ⟨φ1, φ2, hout, -, -⟩ := toy_value hkey hb
  obtain ⟨ψ1, a1, a2, a3⟩ := C70_dual toyP toy_card (by norm_num) (E0 := toyS.E0) rfl (isIsog_id toyE0_good) (by norm_num)
    hout.isog1 (by decide +kernel)
  obtain ⟨ψ2, b1, b2, b3⟩ := C70_dual toyP toy_card (by norm_num) (E0 := toyS.E0) rfl (hkey.isog1.comp hkey.isog2)
    (by decide +kernel) hout.isog2 (by decide +kernel)
  obtain ⟨ψA2, e1, e2, -⟩ := C70_dual toyP toy_card (by norm_num) (E0 := toyS.E0) rfl hkey.isog1
    (by decide +kernel) hkey.isog2 (by decide +kernel)
  obtain ⟨R1, S1, GP, GQ, r1, s1, -, -, hk⟩ := C70_kernel true toyS toy_sound toy_norm toyPk toySk toyM toyOut toy_b hkey hout
    (by decide +kernel) a1 b1 b2 e1 e2 toy_glue.1 toy_glue.2.1 toy_glue.2.2.1 toy_glue.2.2.2.1 toy_glue.2.2.2.2.1
    toy_glue.2.2.2.2.2
  exact ⟨φA1, φA2, φ1, φ2, ψ1, ψ2, ψA2, a1, b2, b3 (by decide +kernel), R1, S1, GP, GQ, r1, s1, hk⟩

/-- The pairing of order `l` on `E0` and the dual of `φA1`, in the small scheme. -/
example : ∃ (φA1 : MPoint toyE0.A →+ MPoint toyEA'.A) (ψA1 : MPoint toyEA'.A →+ MPoint toyE0.A),
    we (2 ^ 25) (φA1 tPb) (φA1 tQb) = we (2 ^ 25) tPb (ψA1 (φA1 tQb)) := by
  obtain ⟨φA1, φA2, L2, -, -, hkey, hb⟩ := toy_key
  obtain ⟨ψ, a1, a2, -⟩ := C70_dual toyP toy_card (by norm_num) (E0 := toyS.E0) rfl (isIsog_id toyE0_good) (by norm_num)
    hkey.isog1 (by decide +kernel)
  refine ⟨φA1, ψ, C70_adjoint hkey.isog1 (by decide +kernel) a1 a2 (by norm_num) (by decide +kernel) toy_b.nsmul_left ?_⟩
  exact toy_b.map (hkey.isog1.inj (by decide +kernel) (by decide +kernel) (by decide +kernel))

end Festa
