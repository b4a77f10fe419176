import Verif.Props.RoundTrip
import Verif.Props.Festa
import Verif.Lemmas.ProjectiveChain
/-!
Property C74: `product_isogeny` does not depend on the choice of projective coordinates.  Property C75: keys and values of the
trapdoor function can be written out and read back without changing the result of the inversion.  Property C76: different inputs
have different encoded values.
-/
namespace Festa

/-! ### C74 -/

section
variable {K : Type*} [Field K] [DecidableEq K] [RootOps K]

/-- C74: scaling the coordinates of the points given to `product_isogeny` changes neither success nor the curves, and the
images, up to sign, only by scaling.  (The sign is that of the square root taken when the y-coordinate is completed.) -/
theorem C74_projective (E : EProd K) {P Q P' Q' : CPt K} {im im' : List (CPt K)} (n : Nat) (strategy : List Nat)
    (hP : P.Same P') (hQ : Q.Same Q') (h : List.Forall₂ CPt.Same im im') :
    (productIsogeny E P Q im n strategy = none → productIsogeny E P' Q' im' n strategy = none) ∧
    ∀ E34 out, productIsogeny E P Q im n strategy = some (E34, out) →
      ∃ out', productIsogeny E P' Q' im' n strategy = some (E34, out') ∧ List.Forall₂ CPt.SameX out out' := by
  refine ⟨fun e => ?_, fun E34 out e => productIsogeny_projective E n strategy hP hQ h e⟩
  by_contra hne
  obtain ⟨⟨E34, out⟩, h'⟩ := Option.ne_none_iff_exists'.mp hne
  obtain ⟨out', h'', -⟩ := productIsogeny_projective E n strategy hP.symm hQ.symm
    (List.Forall₂.flip (h.imp fun _ _ h => CPt.Same.symm h)) h'
  rw [e] at h''
  exact absurd h'' (by simp)

end

/-! ### C75 -/

section
variable {K : Type} [Field K] [DecidableEq K] [RootOps K]

/-- The generators of the kernel, for two representations of the same data. -/
theorem glueGens_same (S : Crypto K) (hS : S.Sound true) (hN : S.Norm) (pk : PublicKey K) (sk : SecretKey K) (m : TrapdoorInput)
    (c : TrapdoorOutput K) {φA1 : MPoint S.E0.A →+ MPoint sk.EA'.A} {φA2 : MPoint sk.EA'.A →+ MPoint pk.EA.A}
    {φ1 : MPoint S.E0.A →+ MPoint c.E1.A} {φ2 : MPoint pk.EA.A →+ MPoint c.E2.A}
    {Pb Qb Pd1 Qd1 : MPoint S.E0.A} {PA QA : MPoint pk.EA.A} (hb : IsBasis S.l Pb Qb)
    (hkey : KeyRel S pk sk φA1 φA2 Pb Qb Pd1 Qd1 PA QA)
    (hout : OutRel S pk m c φ1 φ2 Pb Qb Pd1 Qd1 (sk.a11 • φA2 (φA1 Pb)) (sk.a22 • φA2 (φA1 Qb)) PA QA)
    (mo : m.b11 % 2 = 1) (mo' : m.b22 % 2 = 1) {R1 S1 R2 S2 P1 Q1 P2 Q2 : Pt K}
    (hR1 : c.R1.Same R1) (hS1 : c.S1.Same S1) (hR2 : c.R2.Same R2) (hS2 : c.S2.Same S2) (P' Q' : CPt K)
    (hg' : S.glueGens ⟨c.E1, R1, S1, c.E2, R2, S2⟩ ⟨sk.EA', P1, Q1, P2, Q2, sk.a11, sk.a22⟩ = some (P', Q')) :
    ∃ P Q, S.glueGens c sk = some (P, Q) ∧ P.Same P' ∧ Q.Same Q' := by
  have l1' : 1 < S.l := by rw [hS.l_eq]; exact Nat.one_lt_two_pow (by have := hS.l_big; omega)
  have cop : ∀ {d : Nat}, d % 2 = 1 → d.Coprime S.l := fun h => by rw [hS.l_eq]; exact two_pow_coprime h
  have o12 : ∀ {a b : Nat}, a % 2 = 1 → b % 2 = 1 → a * b % 2 = 1 := fun ha hb => by rw [Nat.mul_mod, ha, hb]
  have l2 : 2 ∣ S.l := by rw [hS.l_eq]; exact dvd_pow_self 2 (by have := hS.l_big; omega)
  have og : S.g2 % 2 = 1 := by
    have h := hS.g2.of_dvd l2
    by_contra hg0
    have : S.g2 % 2 = 0 := by omega
    rw [Nat.ModEq, o12 hS.oddm1 hS.odd1, Nat.mul_mod, this, zero_mul, Nat.zero_mod] at h
    exact absurd h (by norm_num)
  obtain ⟨a, ha, -⟩ := xgcdBig_spec sk.a11 S.l (by omega)
  obtain ⟨b, hb'', -⟩ := xgcdBig_spec sk.a22 S.l (by omega)
  have oa : a.Coprime S.l := by
    have := inv_modEq l1' (cop hkey.odd11) ha
    exact Nat.coprime_of_mul_modEq_one _ this
  have ob : b.Coprime S.l := by
    have := inv_modEq l1' (cop hkey.odd22) hb''
    exact Nat.coprime_of_mul_modEq_one _ this
  obtain ⟨-, hE2⟩ := hout.isog2.good
  obtain ⟨r, er, gr⟩ := C27_mul_big hE2 hout.r2 a
  obtain ⟨s, es, gs⟩ := C27_mul_big hE2 hout.s2 b
  obtain ⟨gP, eP, ggP⟩ := C27_mul_big hE2 gr S.g2
  obtain ⟨gQ, eQ, ggQ⟩ := C27_mul_big hE2 gs S.g2
  obtain ⟨r', er', gr'⟩ := C27_mul_big hE2 (hR2.prep hout.r2) a
  obtain ⟨s', es', gs'⟩ := C27_mul_big hE2 (hS2.prep hout.s2) b
  obtain ⟨gP', eP', ggP'⟩ := C27_mul_big hE2 gr' S.g2
  obtain ⟨gQ', eQ', ggQ'⟩ := C27_mul_big hE2 gs' S.g2
  have hg : S.glueGens c sk = some (⟨c.R1, gP⟩, ⟨c.S1, gQ⟩) := by
    unfold Crypto.glueGens
    simp only [Option.bind_eq_bind, ha, hb'', Option.bind_some, er, es, eP, eQ]
  unfold Crypto.glueGens at hg'
  simp only [Option.bind_eq_bind, ha, hb'', Option.bind_some, er', es', eP', eQ', Option.some.injEq, Prod.mk.injEq] at hg'
  obtain ⟨rfl, rfl⟩ := hg'
  have bas := ((hb.map (hkey.isog1.inj (by omega) hN.oddA1 (cop hN.oddA1).symm)).map
    (hkey.isog2.inj (by omega) hN.oddA2 (cop hN.oddA2).symm)).smul_units (cop hkey.odd11) (cop hkey.odd22)
  have bas := (((bas.map (hout.isog2.inj (by omega) hS.odd2 (cop hS.odd2).symm)).smul_units (cop mo) (cop mo')).smul_units
    oa ob).smul_unit (cop og)
  refine ⟨_, _, hg, ⟨hR1, same_of_prep (bas.ne_left l1') ggP ggP'⟩, ⟨hS1, same_of_prep (bas.symm.ne_left l1') ggQ ggQ'⟩⟩

variable [Codec K] [LawfulCodec K]

omit [DecidableEq K] [RootOps K] [Codec K] [LawfulCodec K] in
theorem newXY_same {P : Pt K} (h : P.Z ≠ 0) : P.Same (Pt.newXY P.toXY.1 P.toXY.2) := by
  refine ⟨P.Z⁻¹, inv_ne_zero h, ?_⟩
  simp only [Pt.newXY, Pt.toXY, Pt.mk.injEq]
  exact ⟨mul_comm _ _, mul_comm _ _, (inv_mul_cancel₀ h).symm⟩

omit [DecidableEq K] [RootOps K] [Codec K] [LawfulCodec K] in
theorem prep_z {A : K} {P : Pt K} {X : MPoint A} (h0 : X ≠ 0) (h : PRep P X) : P.Z ≠ 0 := by
  rcases X with _ | ⟨x, y, hq⟩
  · exact absurd rfl h0
  · exact h.1

/-- The key with normalised coordinates. -/
abbrev SecretKey.norm (sk : SecretKey K) : SecretKey K := ⟨sk.EA', Pt.newXY sk.P1.toXY.1 sk.P1.toXY.2, Pt.newXY sk.Q1.toXY.1 sk.Q1.toXY.2,
  Pt.newXY sk.P2.toXY.1 sk.P2.toXY.2, Pt.newXY sk.Q2.toXY.1 sk.Q2.toXY.2, sk.a11, sk.a22⟩

/-- The value with normalised coordinates. -/
abbrev TrapdoorOutput.norm (c : TrapdoorOutput K) : TrapdoorOutput K := ⟨c.E1, Pt.newXY c.R1.toXY.1 c.R1.toXY.2,
  Pt.newXY c.S1.toXY.1 c.S1.toXY.2, c.E2, Pt.newXY c.R2.toXY.1 c.R2.toXY.2, Pt.newXY c.S2.toXY.1 c.S2.toXY.2⟩

omit [Codec K] [LawfulCodec K] in
/-- Normalising the coordinates changes nothing. -/
theorem norm_rel (fuel : Nat) (S : Crypto K) (hS : S.Sound true) (hN : S.Norm)
    (pk : PublicKey K) (sk : SecretKey K) (m : TrapdoorInput) (c : TrapdoorOutput K)
    {φA1 : MPoint S.E0.A →+ MPoint sk.EA'.A} {φA2 : MPoint sk.EA'.A →+ MPoint pk.EA.A}
    {φ1 : MPoint S.E0.A →+ MPoint c.E1.A} {φ2 : MPoint pk.EA.A →+ MPoint c.E2.A}
    {Pb Qb Pd1 Qd1 : MPoint S.E0.A} {PA QA : MPoint pk.EA.A}
    (hb : IsBasis S.l Pb Qb) (hb1 : IsBasis S.d1 Pd1 Qd1) (hbA : IsBasis S.d2 PA QA) (d22 : 2 ≤ S.d2)
    (hkey : KeyRel S pk sk φA1 φA2 Pb Qb Pd1 Qd1 PA QA)
    (hout : OutRel S pk m c φ1 φ2 Pb Qb Pd1 Qd1 (sk.a11 • φA2 (φA1 Pb)) (sk.a22 • φA2 (φA1 Qb)) PA QA)
    (mo : m.b11 % 2 = 1) (minv : m.b11 * m.b22 % S.l = 1) :
    KeyRel S pk sk.norm φA1 φA2 Pb Qb Pd1 Qd1 PA QA ∧
    OutRel S pk m c.norm φ1 φ2 Pb Qb Pd1 Qd1 (sk.norm.a11 • φA2 (φA1 Pb)) (sk.norm.a22 • φA2 (φA1 Qb)) PA QA ∧
    (S.CleanOut true fuel sk c → S.CleanOut true fuel sk.norm c.norm) := by
  have l1' : 1 < S.l := by rw [hS.l_eq]; exact Nat.one_lt_two_pow (by have := hS.l_big; omega)
  have cop : ∀ {d : Nat}, d % 2 = 1 → d.Coprime S.l := fun h => by rw [hS.l_eq]; exact two_pow_coprime h
  have mo' : m.b22 % 2 = 1 := by
    by_contra h
    have h : m.b22 % 2 = 0 := by omega
    have l2 : 2 ∣ S.l := by rw [hS.l_eq]; exact dvd_pow_self 2 (by have := hS.l_big; omega)
    have : m.b11 * m.b22 % S.l % 2 = 0 := by
      rw [Nat.mod_mod_of_dvd _ l2, Nat.mul_mod, h, mul_zero, Nat.zero_mod]
    rw [minv] at this
    exact absurd this (by norm_num)
  -- no point is at infinity
  have d10 : 1 ≤ S.d1 := by have := hS.odd1; omega
  have bk := (hb.sum (cop hS.odd1).symm hb1).map (hkey.isog1.inj (Nat.mul_pos (by omega) d10) hN.oddA1
    (Nat.Coprime.mul_left (cop hN.oddA1).symm hN.copA1.symm))
  have big : 2 ≤ S.l * S.d1 := le_trans l1' (Nat.le_mul_of_pos_right _ d10)
  have b1 := (hb.map (hout.isog1.inj (by omega) hS.odd1 (cop hS.odd1).symm)).smul_units (cop mo) (cop mo')
  have b2 := ((hb.map (hkey.isog1.inj (by omega) hN.oddA1 (cop hN.oddA1).symm)).map
    (hkey.isog2.inj (by omega) hN.oddA2 (cop hN.oddA2).symm)).smul_units (cop hkey.odd11) (cop hkey.odd22)
  have b2 := (b2.map (hout.isog2.inj (by omega) hS.odd2 (cop hS.odd2).symm)).smul_units (cop mo) (cop mo')
  obtain ⟨k, P2, Q2, hk, hp2, hq2, dp2, dq2, iP, iQ⟩ := hkey.basis
  have bk2 := hbA.smul_units hk hk
  have zP2 : P2 ≠ 0 := fun h => bk2.ne_left d22 (by rw [← iP, h, map_zero])
  have zQ2 : Q2 ≠ 0 := fun h => bk2.symm.ne_left d22 (by rw [← iQ, h, map_zero])
  have sP1 := newXY_same (prep_z (bk.ne_left big) hkey.p1)
  have sQ1 := newXY_same (prep_z (bk.symm.ne_left big) hkey.q1)
  have sP2 := newXY_same (prep_z zP2 hp2)
  have sQ2 := newXY_same (prep_z zQ2 hq2)
  have sR1 := newXY_same (prep_z (b1.ne_left l1') hout.r1)
  have sS1 := newXY_same (prep_z (b1.symm.ne_left l1') hout.s1)
  have sR2 := newXY_same (prep_z (b2.ne_left l1') hout.r2)
  have sS2 := newXY_same (prep_z (b2.symm.ne_left l1') hout.s2)
  refine ⟨?_, ?_, fun hcl => CleanOut.same hcl sR1 sS1 sP1 sP2
    (glueGens_same S hS hN pk sk m c hb hkey hout mo mo' sR1 sS1 sR2 sS2)⟩
  · exact ⟨hkey.isog1, hkey.isog2, hkey.odd11, hkey.odd22, hkey.ra, hkey.sa, sP1.prep hkey.p1, sQ1.prep hkey.q1,
      k, P2, Q2, hk, sP2.prep hp2, sQ2.prep hq2, dp2, dq2, iP, iQ⟩
  · exact ⟨hout.isog1, hout.isog2, hout.ker1, hout.ker2, sR1.prep hout.r1, sS1.prep hout.s1, sR2.prep hout.r2, sS2.prep hout.s2⟩

/-- C75, for any parameters: the secret key made by key generation can be written out, and the value of the trapdoor function
too; what is read back from the bytes inverts to the input.  The hypotheses are those of `C73_scheme_partial`. -/
theorem C75_scheme_partial (p : Nat) [Fact p.Prime] [CharP K p] [Fintype K] (hcard : Fintype.card K = p ^ 2) (hp : p % 4 = 3)
    (fuel : Nat) (S : Crypto K) (hS : S.Sound true) (hN : S.Norm) (hE : S.E0.Good) (h0 : S.E0.A = 6)
    (dv1 : S.d1 ∣ p + 1) (dv2 : S.d2 ∣ p + 1) (hB : p + 1 ∣ ofSlice BASIS_ORDER) (h3 : 3 ≤ S.c.thetaLen) (hst : IsStrategy S.c.thetaLen S.c.strategy)
    (hf1 : S.c.fA1.Ok true) (hf2 : S.c.fA2.Ok true) (hn1 : S.c.fA1 ≠ []) (hn2 : S.c.fA2 ≠ [])
    (drawsA1 drawsA2 : List (List (List (K × Bool))))
    (hd1 : S.c.dA1 = (S.c.fA1.map fun q => q.1.toNat ^ q.2.toNat).prod ^ drawsA1.length)
    (hd2 : S.c.dA2 = (S.c.fA2.map fun q => q.1.toNat ^ q.2.toNat).prod ^ drawsA2.length)
    (hl1 : drawsA1 ≠ []) (hl2 : drawsA2 ≠ [])
    {Pb Qb Pd1 Qd1 : MPoint S.E0.A} (hPb : PRep S.Pb Pb) (hQb : PRep S.Qb Qb) (hb : IsBasis S.l Pb Qb)
    (hx : xc ((S.l / 2) • Pb) ≠ 0)
    (hPd : PRep S.Pd1 Pd1) (hQd : PRep S.Qd1 Qd1) (hb1 : IsBasis S.d1 Pd1 Qd1)
    (ht0 : Finds true fuel S.E0 S.c.f1 634 Pd1 Qd1)
    -- key generation
    (r11 r22 : Nat) (hr11 : r11 < 2 ^ 656) (hr22 : r22 < 2 ^ 656) {L1 L2 : List (KIso K)} {EA' EA : Crv K}
    (h1 : randomIsogeny true S.c.fA1 drawsA1 S.E0 = some (L1, EA')) (h2 : randomIsogeny true S.c.fA2 drawsA2 EA' = some (L2, EA))
    {P' Q' : MPoint EA'.A} {PA QA : MPoint EA.A}
    (n' : P' ≠ 0) (f' : AxisFree S.d2 P' Q') (ht' : Finds true fuel EA' S.c.f2 S.c.lPower.toNat P' Q')
    (nA : PA ≠ 0) (fA : AxisFree S.d2 PA QA) (ht : Finds true fuel EA S.c.f2 S.c.lPower.toNat PA QA)
    (ht634 : Finds true fuel EA S.c.f2 634 PA QA)
    (hax : ∀ φ : MPoint EA'.A →+ MPoint EA.A, IsChain EA' L2 EA φ →
      ∀ X ∈ [PA, QA], AxisFree S.d2 (φ P') X ∧ AxisFree S.d2 (φ Q') X)
    (a0 : EA'.A ≠ 0) (a3 : EA'.A * EA'.A ≠ 3) (a9 : 2 * (EA'.A * EA'.A) ≠ 9) :
    ∃ pk sk v, S.keygen true fuel r11 r22 drawsA1 drawsA2 = some (pk, sk) ∧ pk.EA = EA ∧ sk.EA' = EA' ∧ sk.encode = some v ∧
      ∀ m : TrapdoorInput, m.s1 < S.d1 → m.s2 < S.d2 → m.b11 % 2 = 1 → m.b11 < S.l / 2 → m.b22 < S.l → m.b11 * m.b22 % S.l = 1 →
        ∃ c, S.trapdoorEval true fuel pk m = some c ∧ (S.CleanOut true fuel sk c →
          ∃ sk' c', SecretKey.decode true v = some sk' ∧ TrapdoorOutput.decode true c.encode = some c' ∧
            S.trapdoorInverse true fuel c' sk' = some m) := by
  obtain ⟨hb', hbA⟩ := key_bases p hcard hp hB S hS hN hE h0 dv2 hf1 hf2 hn1 hn2 drawsA1 drawsA2 hd1 hd2 hl1 hl2 hb h1 h2 n' f' ht'
    nA fA ht
  obtain ⟨R, T, x1, y1, x2, y2, φA1, φA2, hk, hkey, h⟩ := scheme_runs fuel S hS hN hE hf1 hf2 hn1 hn2 drawsA1 drawsA2 hd1 hd2 hl1
    hl2 hPb hQb hb hPd hQd hb1 ht0 r11 r22 h1 h2 hb' ht' hbA ht ht634 hax
  have b11 : r11 ||| 1 < 2 ^ 656 := Nat.or_lt_two_pow hr11 (Nat.one_lt_two_pow (by norm_num))
  have b22 : r22 ||| 1 < 2 ^ 656 := Nat.or_lt_two_pow hr22 (Nat.one_lt_two_pow (by norm_num))
  have d22 : 2 ≤ S.d2 := by
    by_contra h
    have : S.d2 = 1 := by have := hS.odd2; omega
    obtain ⟨p', q', ht', hp', hq'⟩ := ht'
    obtain ⟨pA, qA, ht, hpA, hqA⟩ := ht
    obtain ⟨φ1, φ2, -, -, c2, -, -⟩ := C54_keygen_partial fuel S hS hN hE r11 r22 drawsA1 drawsA2 hPb hQb hb hPd hQd hb1
      hf1 hf2 hn1 hn2 hd1 hd2 hl1 hl2 h1 h2 ht' hp' hq' hb' ht hpA hqA hbA
    have h0 := hbA.nsmul_left
    rw [this, one_nsmul] at h0
    exact (hax φ2 c2 PA (by simp)).1.ne_zero h0
  obtain ⟨-, hA'⟩ := hkey.isog1.good
  obtain ⟨v, hv, -, hd⟩ := C51_roundtrip ⟨EA', x1, y1, x2, y2, r11 ||| 1, r22 ||| 1⟩ hA' b11 b22
  refine ⟨_, _, v, hk, rfl, rfl, hv, ?_⟩
  intro m ms1 ms2 mo mlt mb22 minv
  obtain ⟨c, φ1, φ2', hev, hout⟩ := h m
  refine ⟨c, hev, fun hcl => ?_⟩
  obtain ⟨k1, k2, k3⟩ := norm_rel fuel S hS hN _ _ m c hb hb1 hbA d22 hkey hout mo minv
  exact ⟨_, _, hd true, (C52_roundtrip c hout.isog1.good.2 hout.isog2.good.2 true).2,
    invert_clean p hcard hp fuel S hS hN h0 dv1 dv2 hB h3 hst _ _ m _ hb hx hb1 hbA k1 k2 ms1 ms2 mo mlt mb22 minv a0 a3 a9 (k3 hcl)⟩

/-- C76, for any parameters: values of the trapdoor function with the same encoding belong to the same input, if one of them meets
no exceptional case in the inversion.  The other hypotheses are those of `C73_scheme_partial`. -/
theorem C76_injective_partial (p : Nat) [Fact p.Prime] [CharP K p] [Fintype K] (hcard : Fintype.card K = p ^ 2) (hp : p % 4 = 3)
    (fuel : Nat) (S : Crypto K) (hS : S.Sound true) (hN : S.Norm) (hE : S.E0.Good) (h0 : S.E0.A = 6)
    (dv1 : S.d1 ∣ p + 1) (dv2 : S.d2 ∣ p + 1) (hB : p + 1 ∣ ofSlice BASIS_ORDER) (h3 : 3 ≤ S.c.thetaLen) (hst : IsStrategy S.c.thetaLen S.c.strategy)
    (hf1 : S.c.fA1.Ok true) (hf2 : S.c.fA2.Ok true) (hn1 : S.c.fA1 ≠ []) (hn2 : S.c.fA2 ≠ [])
    (drawsA1 drawsA2 : List (List (List (K × Bool))))
    (hd1 : S.c.dA1 = (S.c.fA1.map fun q => q.1.toNat ^ q.2.toNat).prod ^ drawsA1.length)
    (hd2 : S.c.dA2 = (S.c.fA2.map fun q => q.1.toNat ^ q.2.toNat).prod ^ drawsA2.length)
    (hl1 : drawsA1 ≠ []) (hl2 : drawsA2 ≠ [])
    {Pb Qb Pd1 Qd1 : MPoint S.E0.A} (hPb : PRep S.Pb Pb) (hQb : PRep S.Qb Qb) (hb : IsBasis S.l Pb Qb)
    (hx : xc ((S.l / 2) • Pb) ≠ 0)
    (hPd : PRep S.Pd1 Pd1) (hQd : PRep S.Qd1 Qd1) (hb1 : IsBasis S.d1 Pd1 Qd1)
    (ht0 : Finds true fuel S.E0 S.c.f1 634 Pd1 Qd1)
    -- key generation
    (r11 r22 : Nat) {L1 L2 : List (KIso K)} {EA' EA : Crv K}
    (h1 : randomIsogeny true S.c.fA1 drawsA1 S.E0 = some (L1, EA')) (h2 : randomIsogeny true S.c.fA2 drawsA2 EA' = some (L2, EA))
    {P' Q' : MPoint EA'.A} {PA QA : MPoint EA.A}
    (n' : P' ≠ 0) (f' : AxisFree S.d2 P' Q') (ht' : Finds true fuel EA' S.c.f2 S.c.lPower.toNat P' Q')
    (nA : PA ≠ 0) (fA : AxisFree S.d2 PA QA) (ht : Finds true fuel EA S.c.f2 S.c.lPower.toNat PA QA)
    (ht634 : Finds true fuel EA S.c.f2 634 PA QA)
    (hax : ∀ φ : MPoint EA'.A →+ MPoint EA.A, IsChain EA' L2 EA φ →
      ∀ X ∈ [PA, QA], AxisFree S.d2 (φ P') X ∧ AxisFree S.d2 (φ Q') X)
    (a0 : EA'.A ≠ 0) (a3 : EA'.A * EA'.A ≠ 3) (a9 : 2 * (EA'.A * EA'.A) ≠ 9) :
    ∃ pk sk, S.keygen true fuel r11 r22 drawsA1 drawsA2 = some (pk, sk) ∧
      ∀ m m' c c', m.s1 < S.d1 → m.s2 < S.d2 → m.b11 % 2 = 1 → m.b11 < S.l / 2 → m.b22 < S.l → m.b11 * m.b22 % S.l = 1 →
        m'.s1 < S.d1 → m'.s2 < S.d2 → m'.b11 % 2 = 1 → m'.b11 < S.l / 2 → m'.b22 < S.l → m'.b11 * m'.b22 % S.l = 1 →
        S.trapdoorEval true fuel pk m = some c → S.trapdoorEval true fuel pk m' = some c' → c.encode = c'.encode →
        S.CleanOut true fuel sk c → m = m' := by
  obtain ⟨hb', hbA⟩ := key_bases p hcard hp hB S hS hN hE h0 dv2 hf1 hf2 hn1 hn2 drawsA1 drawsA2 hd1 hd2 hl1 hl2 hb h1 h2 n' f' ht'
    nA fA ht
  obtain ⟨R, T, x1, y1, x2, y2, φA1, φA2, hk, hkey, h⟩ := scheme_runs fuel S hS hN hE hf1 hf2 hn1 hn2 drawsA1 drawsA2 hd1 hd2 hl1
    hl2 hPb hQb hb hPd hQd hb1 ht0 r11 r22 h1 h2 hb' ht' hbA ht ht634 hax
  have d22 : 2 ≤ S.d2 := by
    by_contra h
    have : S.d2 = 1 := by have := hS.odd2; omega
    obtain ⟨p', q', ht', hp', hq'⟩ := ht'
    obtain ⟨pA, qA, ht, hpA, hqA⟩ := ht
    obtain ⟨φ1, φ2, -, -, c2, -, -⟩ := C54_keygen_partial fuel S hS hN hE r11 r22 drawsA1 drawsA2 hPb hQb hb hPd hQd hb1
      hf1 hf2 hn1 hn2 hd1 hd2 hl1 hl2 h1 h2 ht' hp' hq' hb' ht hpA hqA hbA
    have h0 := hbA.nsmul_left
    rw [this, one_nsmul] at h0
    exact (hax φ2 c2 PA (by simp)).1.ne_zero h0
  refine ⟨_, _, hk, ?_⟩
  intro m m' c c' ms1 ms2 mo mlt mb22 minv ms1' ms2' mo' mlt' mb22' minv' hev hev' henc hcl
  obtain ⟨c₁, φ1, φ2, hev₁, hout⟩ := h m
  rw [hev, Option.some.injEq] at hev₁
  subst hev₁
  obtain ⟨c₂, φ1', φ2', hev₂, hout'⟩ := h m'
  rw [hev', Option.some.injEq] at hev₂
  subst hev₂
  obtain ⟨k1, k2, k3⟩ := norm_rel fuel S hS hN _ _ m c hb hb1 hbA d22 hkey hout mo minv
  obtain ⟨-, k2', -⟩ := norm_rel fuel S hS hN _ _ m' c' hb hb1 hbA d22 hkey hout' mo' minv'
  have e1 := (C52_roundtrip c hout.isog1.good.2 hout.isog2.good.2 true).2
  have e2 := (C52_roundtrip c' hout'.isog1.good.2 hout'.isog2.good.2 true).2
  rw [henc, e2, Option.some.injEq] at e1
  replace e1 : c'.norm = c.norm := e1
  have i1 := invert_clean p hcard hp fuel S hS hN h0 dv1 dv2 hB h3 hst _ _ m _ hb hx hb1 hbA k1 k2 ms1 ms2 mo mlt mb22 minv a0 a3 a9 (k3 hcl)
  have i2 := invert_clean p hcard hp fuel S hS hN h0 dv1 dv2 hB h3 hst _ _ m' _ hb hx hb1 hbA k1 k2' ms1' ms2' mo' mlt' mb22' minv' a0 a3 a9
    (by rw [e1]; exact k3 hcl)
  exact Option.some.inj (i1.symm.trans ((congrArg (fun c => S.trapdoorInverse true fuel c _) e1).symm.trans i2))

end

/-- C75, for the parameters of the code, with the hypotheses of `C73_bench_partial` and numbers drawn below `2^634`. -/
theorem C75_festa_partial (fuel : Nat) (S : Crypto Fq) (hnew : Crypto.new (F := Fr) true fuel festaConsts = some S)
    (hf : 4 ≤ fuel)
    -- key generation
    (r11 r22 : Nat) (hr11 : r11 < 2 ^ 634) (hr22 : r22 < 2 ^ 634)
    (drawsA1 drawsA2 : List (List (List (Fq × Bool)))) (hl1 : drawsA1.length = 2) (hl2 : drawsA2.length = 2)
    {L1 L2 : List (KIso Fq)} {EA' EA : Crv Fq}
    (h1 : randomIsogeny true S.c.fA1 drawsA1 S.E0 = some (L1, EA')) (h2 : randomIsogeny true S.c.fA2 drawsA2 EA' = some (L2, EA))
    {P' Q' : MPoint EA'.A} {PA QA : MPoint EA.A}
    (n' : P' ≠ 0) (f' : AxisFree S.d2 P' Q') (ht' : Finds true fuel EA' S.c.f2 S.c.lPower.toNat P' Q')
    (nA : PA ≠ 0) (fA : AxisFree S.d2 PA QA) (ht : Finds true fuel EA S.c.f2 S.c.lPower.toNat PA QA)
    (hax : ∀ φ : MPoint EA'.A →+ MPoint EA.A, IsChain EA' L2 EA φ →
      ∀ X ∈ [PA, QA], AxisFree S.d2 (φ P') X ∧ AxisFree S.d2 (φ Q') X)
    (a0 : EA'.A ≠ 0) (a3 : EA'.A * EA'.A ≠ 3) (a9 : 2 * (EA'.A * EA'.A) ≠ 9)
    -- evaluation and inversion
    (s1 s2 r : Nat) (hs1 : s1 < S.c.d1) (hs2 : s2 < S.c.d2) (hr : r < 2 ^ (S.c.lPower.toNat - 1))
    (hcl : ∀ pk sk m c, S.keygen true fuel r11 r22 drawsA1 drawsA2 = some (pk, sk) → genInput S.c s1 s2 r = some m →
      S.trapdoorEval true fuel pk m = some c → S.CleanOut true fuel sk c) :
    ∃ pk sk m c v sk' c', S.keygen true fuel r11 r22 drawsA1 drawsA2 = some (pk, sk) ∧ genInput S.c s1 s2 r = some m ∧
      S.trapdoorEval true fuel pk m = some c ∧ sk.encode = some v ∧ SecretKey.decode true v = some sk' ∧
      TrapdoorOutput.decode true c.encode = some c' ∧ S.trapdoorInverse true fuel c' sk' = some m := by
  obtain ⟨hS, hc, hA, hE⟩ := C54_setup true fuel S hnew
  have hN := C54_norm true fuel S hnew
  obtain ⟨⟨Pb, Qb, hPb, hQb, hb⟩, -⟩ := C69_setup true fuel S hnew
  obtain ⟨Pd1, Qd1, hPd, hQd, hb1⟩ := setup_basis true fuel S hf hnew
  have e1 : S.d1 = S.c.d1 := by rw [hS.d1_eq, hc]; decide +kernel
  have e2 : S.d2 = S.c.d2 := by rw [hS.d2_eq, hc]; decide +kernel
  have el : S.c.lPower.toNat = 634 := by rw [hc]; decide +kernel
  have et := setup_torsion true fuel S hnew
  obtain ⟨pk, sk, v, hk, -, -, hv, h⟩ := C75_scheme_partial festaFp.p fq_card festa_mod_four fuel S hS hN hE hA
    (by rw [e1, hc]; decide +kernel) (by rw [e2, hc]; decide +kernel) (by decide +kernel) (by rw [hc]; decide +kernel)
    (by rw [hc]; exact C47_shipped_strategy) (hc ▸ festa_okA.1) (hc ▸ festa_okA.2)
    (by rw [hc]; decide +kernel) (by rw [hc]; decide +kernel) drawsA1 drawsA2 (by rw [hc, hl1]; decide +kernel)
    (by rw [hc, hl2]; decide +kernel) (by rintro rfl; simp at hl1) (by rintro rfl; simp at hl2) hPb hQb hb (C85_setup true fuel S hnew hPb hQb).2.2.1 hPd hQd hb1
    ⟨_, _, el ▸ et, hPd, hQd⟩ r11 r22 (hr11.trans_le (Nat.pow_le_pow_right (by norm_num) (by norm_num)))
    (hr22.trans_le (Nat.pow_le_pow_right (by norm_num) (by norm_num))) h1 h2 n' f' ht' nA fA ht (el ▸ ht) hax a0 a3 a9
  obtain ⟨m, em, m1, m2, m3, m4, m5, m6⟩ := C63_generated S.c (by omega) s1 s2 r hs1 hs2 hr
  rw [← hS.l_eq] at m4 m5 m6
  rw [← e1] at m1
  rw [← e2] at m2
  obtain ⟨c, hev, hinv⟩ := h m m1 m2 m3 m4 m5 m6
  obtain ⟨sk', c', e1, e2, e3⟩ := hinv (hcl _ _ _ _ hk em hev)
  exact ⟨pk, sk, m, c, v, sk', c', hk, em, hev, hv, e1, e2, e3⟩

/-- C76, for the parameters of the code, with the hypotheses of `C73_bench_partial`. -/
theorem C76_festa_partial (fuel : Nat) (S : Crypto Fq) (hnew : Crypto.new (F := Fr) true fuel festaConsts = some S)
    (hf : 4 ≤ fuel)
    -- key generation
    (r11 r22 : Nat)
    (drawsA1 drawsA2 : List (List (List (Fq × Bool)))) (hl1 : drawsA1.length = 2) (hl2 : drawsA2.length = 2)
    {L1 L2 : List (KIso Fq)} {EA' EA : Crv Fq}
    (h1 : randomIsogeny true S.c.fA1 drawsA1 S.E0 = some (L1, EA')) (h2 : randomIsogeny true S.c.fA2 drawsA2 EA' = some (L2, EA))
    {P' Q' : MPoint EA'.A} {PA QA : MPoint EA.A}
    (n' : P' ≠ 0) (f' : AxisFree S.d2 P' Q') (ht' : Finds true fuel EA' S.c.f2 S.c.lPower.toNat P' Q')
    (nA : PA ≠ 0) (fA : AxisFree S.d2 PA QA) (ht : Finds true fuel EA S.c.f2 S.c.lPower.toNat PA QA)
    (hax : ∀ φ : MPoint EA'.A →+ MPoint EA.A, IsChain EA' L2 EA φ →
      ∀ X ∈ [PA, QA], AxisFree S.d2 (φ P') X ∧ AxisFree S.d2 (φ Q') X)
    (a0 : EA'.A ≠ 0) (a3 : EA'.A * EA'.A ≠ 3) (a9 : 2 * (EA'.A * EA'.A) ≠ 9) :
    ∃ pk sk, S.keygen true fuel r11 r22 drawsA1 drawsA2 = some (pk, sk) ∧
      ∀ m m' c c', m.s1 < S.d1 → m.s2 < S.d2 → m.b11 % 2 = 1 → m.b11 < S.l / 2 → m.b22 < S.l → m.b11 * m.b22 % S.l = 1 →
        m'.s1 < S.d1 → m'.s2 < S.d2 → m'.b11 % 2 = 1 → m'.b11 < S.l / 2 → m'.b22 < S.l → m'.b11 * m'.b22 % S.l = 1 →
        S.trapdoorEval true fuel pk m = some c → S.trapdoorEval true fuel pk m' = some c' → c.encode = c'.encode →
        S.CleanOut true fuel sk c → m = m' := by
  obtain ⟨hS, hc, hA, hE⟩ := C54_setup true fuel S hnew
  have hN := C54_norm true fuel S hnew
  obtain ⟨⟨Pb, Qb, hPb, hQb, hb⟩, -⟩ := C69_setup true fuel S hnew
  obtain ⟨Pd1, Qd1, hPd, hQd, hb1⟩ := setup_basis true fuel S hf hnew
  have e1 : S.d1 = S.c.d1 := by rw [hS.d1_eq, hc]; decide +kernel
  have e2 : S.d2 = S.c.d2 := by rw [hS.d2_eq, hc]; decide +kernel
  have el : S.c.lPower.toNat = 634 := by rw [hc]; decide +kernel
  have et := setup_torsion true fuel S hnew
  obtain ⟨pk, sk, hk, h⟩ := C76_injective_partial festaFp.p fq_card festa_mod_four fuel S hS hN hE hA
    (by rw [e1, hc]; decide +kernel) (by rw [e2, hc]; decide +kernel) (by decide +kernel) (by rw [hc]; decide +kernel)
    (by rw [hc]; exact C47_shipped_strategy) (hc ▸ festa_okA.1) (hc ▸ festa_okA.2)
    (by rw [hc]; decide +kernel) (by rw [hc]; decide +kernel) drawsA1 drawsA2 (by rw [hc, hl1]; decide +kernel)
    (by rw [hc, hl2]; decide +kernel) (by rintro rfl; simp at hl1) (by rintro rfl; simp at hl2) hPb hQb hb (C85_setup true fuel S hnew hPb hQb).2.2.1 hPd hQd hb1
    ⟨_, _, el ▸ et, hPd, hQd⟩ r11 r22 h1 h2 n' f' ht' nA fA ht (el ▸ ht) hax a0 a3 a9
  exact ⟨pk, sk, hk, h⟩

end Festa
