import Verif.Model.Bench
import Verif.Spec.Run
import Verif.Props.Kani
import Verif.Props.TorsionFree
import Verif.Props.Setup
import Verif.Props.EntangledZero
/-!
Property C73: key generation, evaluation and inversion fit together.
-/
namespace Festa
open WeierstrassCurve.Affine

section
variable {K : Type} [Field K] [DecidableEq K] [RootOps K]

/-- The order `l d` divides the order used by `torsion_basis`. -/
theorem dvd_order (p : Nat) [Fact p.Prime] [CharP K p] [Fintype K] (hcard : Fintype.card K = p ^ 2) (hp : p % 4 = 3)
    (hB : p + 1 ∣ ofSlice BASIS_ORDER) (S : Crypto K) (hS : S.Sound true) (hE : S.E0.Good) (h0 : S.E0.A = 6)
    {Pb Qb : MPoint S.E0.A} (hb : IsBasis S.l Pb Qb) {d : Nat} (ho : d % 2 = 1) (hd : d ∣ p + 1) :
    2 ^ S.c.lPower.toNat * d ∣ ofSlice BASIS_ORDER := by
  have h1 := addOrderOf_dvd_of_nsmul_eq_zero ((C69_reached p hcard hp h0 (isIsog_id hE) (by norm_num)).1 Pb)
  rw [hb.order_left] at h1
  rw [← hS.l_eq]
  refine (Nat.Coprime.mul_dvd_of_dvd_of_dvd ?_ h1 hd).trans hB
  rw [hS.l_eq]
  exact Nat.Coprime.pow_left _ ((Nat.coprime_two_left).mpr (Nat.odd_iff.mpr ho))

/-- Inversion, with the exceptional cases collected in `CleanOut`. -/
theorem invert_clean (p : Nat) [Fact p.Prime] [CharP K p] [Fintype K] (hcard : Fintype.card K = p ^ 2) (hp : p % 4 = 3)
    (fuel : Nat) (S : Crypto K) (hS : S.Sound true) (hN : S.Norm) (h0 : S.E0.A = 6)
    (dv1 : S.d1 ∣ p + 1) (dv2 : S.d2 ∣ p + 1) (hB : p + 1 ∣ ofSlice BASIS_ORDER) (h3 : 3 ≤ S.c.thetaLen) (hst : IsStrategy S.c.thetaLen S.c.strategy)
    (pk : PublicKey K) (sk : SecretKey K) (m : TrapdoorInput) (c : TrapdoorOutput K)
    {φA1 : MPoint S.E0.A →+ MPoint sk.EA'.A} {φA2 : MPoint sk.EA'.A →+ MPoint pk.EA.A}
    {φ1 : MPoint S.E0.A →+ MPoint c.E1.A} {φ2 : MPoint pk.EA.A →+ MPoint c.E2.A}
    {Pb Qb Pd1 Qd1 : MPoint S.E0.A} {PA QA : MPoint pk.EA.A}
    (hb : IsBasis S.l Pb Qb) (hx : xc ((S.l / 2) • Pb) ≠ 0) (hb1 : IsBasis S.d1 Pd1 Qd1) (hbA : IsBasis S.d2 PA QA)
    (hkey : KeyRel S pk sk φA1 φA2 Pb Qb Pd1 Qd1 PA QA)
    (hout : OutRel S pk m c φ1 φ2 Pb Qb Pd1 Qd1 (sk.a11 • φA2 (φA1 Pb)) (sk.a22 • φA2 (φA1 Qb)) PA QA)
    (ms1 : m.s1 < S.d1) (ms2 : m.s2 < S.d2) (mo : m.b11 % 2 = 1)
    (mlt : m.b11 < S.l / 2) (mb22 : m.b22 < S.l) (minv : m.b11 * m.b22 % S.l = 1)
    (a0 : sk.EA'.A ≠ 0) (a3 : sk.EA'.A * sk.EA'.A ≠ 3) (a9 : 2 * (sk.EA'.A * sk.EA'.A) ≠ 9)
    (hcl : S.CleanOut true fuel sk c) : S.trapdoorInverse true fuel c sk = some m := by
  obtain ⟨X1, Y1, n1, f1, fd1⟩ := hcl.basis1
  obtain ⟨X2, Y2, n2, f2, fd2⟩ := hcl.basis2
  have hgood := hout.isog1.good.1
  have hbx := fd1.basis p hcard hp hB h0 hout.isog1 hS.odd1 hN.ne1 hS.ok1 hS.d1_eq dv1
    (dvd_order p hcard hp hB S hS hgood h0 hb hS.odd1 dv1) n1 f1
  have hby := fd2.basis p hcard hp hB h0 ((hkey.isog1.comp hkey.isog2).comp hout.isog2)
    (Nat.odd_iff.mp (((Nat.odd_iff.mpr hN.oddA1).mul (Nat.odd_iff.mpr hN.oddA2)).mul (Nat.odd_iff.mpr hS.odd2))) hN.ne2 hS.ok2
    hS.d2_eq dv2 (dvd_order p hcard hp hB S hS hgood h0 hb hS.odd2 dv2) n2 f2
  obtain ⟨u1, v1, tb1, hx1, hy1⟩ := fd1
  obtain ⟨u2, v2, tb2, hx2, hy2⟩ := fd2
  have l0 : S.l ≠ 0 := by rw [hS.l_eq]; positivity
  obtain ⟨a, ha, -⟩ := xgcdBig_spec sk.a11 S.l l0
  obtain ⟨b, hb'', -⟩ := xgcdBig_spec sk.a22 S.l l0
  obtain ⟨-, hE2⟩ := hout.isog2.good
  obtain ⟨r, er, gr⟩ := C27_mul_big hE2 hout.r2 a
  obtain ⟨s, es, gs⟩ := C27_mul_big hE2 hout.s2 b
  obtain ⟨gP, eP, -⟩ := C27_mul_big hE2 gr S.g2
  obtain ⟨gQ, eQ, -⟩ := C27_mul_big hE2 gs S.g2
  have hg : S.glueGens c sk = some (⟨c.R1, gP⟩, ⟨c.S1, gQ⟩) := by
    unfold Crypto.glueGens
    simp only [Option.bind_eq_bind, ha, hb'', Option.bind_some, er, es, eP, eQ]
  obtain ⟨O, T1, T2, hgl, hch⟩ := hcl.chain _ _ hg
  refine C54_invert_partial p hcard hp true fuel S hS hN h0 dv1 dv2 _ _ m c hb hx hb1 hbA hkey hout ms1 ms2 mo mlt mb22 minv
    tb1 hx1 hy1 hbx tb2 hx2 hy2 hby ha hb'' er es eP eQ h3 hst hgl hch a0 a3 a9 ?_
  · intro E34 I1 I2 l1 l2 hpr hcf L hL
    obtain ⟨g1, g2, g3, g4⟩ := hcl.points _ _ _ _ _ _ _ _ _ _ _ hg tb1 tb2 hpr hcf L hL
    exact ⟨g1 _ hkey.p1, g2, g3, g4⟩

/-- Key generation and evaluation succeed, and what they return. -/
theorem scheme_runs (fuel : Nat) (S : Crypto K) (hS : S.Sound true) (hN : S.Norm) (hE : S.E0.Good)
    (hf1 : S.c.fA1.Ok true) (hf2 : S.c.fA2.Ok true) (hn1 : S.c.fA1 ≠ []) (hn2 : S.c.fA2 ≠ [])
    (drawsA1 drawsA2 : List (List (List (K × Bool))))
    (hd1 : S.c.dA1 = (S.c.fA1.map fun q => q.1.toNat ^ q.2.toNat).prod ^ drawsA1.length)
    (hd2 : S.c.dA2 = (S.c.fA2.map fun q => q.1.toNat ^ q.2.toNat).prod ^ drawsA2.length)
    (hl1 : drawsA1 ≠ []) (hl2 : drawsA2 ≠ [])
    {Pb Qb Pd1 Qd1 : MPoint S.E0.A} (hPb : PRep S.Pb Pb) (hQb : PRep S.Qb Qb) (hb : IsBasis S.l Pb Qb)
    (hPd : PRep S.Pd1 Pd1) (hQd : PRep S.Qd1 Qd1) (hb1 : IsBasis S.d1 Pd1 Qd1)
    (ht0 : Finds true fuel S.E0 S.c.f1 634 Pd1 Qd1)
    -- key generation
    (r11 r22 : Nat) {L1 L2 : List (KIso K)} {EA' EA : Crv K}
    (h1 : randomIsogeny true S.c.fA1 drawsA1 S.E0 = some (L1, EA')) (h2 : randomIsogeny true S.c.fA2 drawsA2 EA' = some (L2, EA))
    {P' Q' : MPoint EA'.A} {PA QA : MPoint EA.A}
    (hb' : IsBasis S.d2 P' Q') (ht' : Finds true fuel EA' S.c.f2 S.c.lPower.toNat P' Q')
    (hbA : IsBasis S.d2 PA QA) (ht : Finds true fuel EA S.c.f2 S.c.lPower.toNat PA QA)
    (ht634 : Finds true fuel EA S.c.f2 634 PA QA)
    (hax : ∀ φ : MPoint EA'.A →+ MPoint EA.A, IsChain EA' L2 EA φ →
      ∀ X ∈ [PA, QA], AxisFree S.d2 (φ P') X ∧ AxisFree S.d2 (φ Q') X) :
    ∃ (R T x1 y1 x2 y2 : Pt K) (φA1 : MPoint S.E0.A →+ MPoint EA'.A) (φA2 : MPoint EA'.A →+ MPoint EA.A),
      S.keygen true fuel r11 r22 drawsA1 drawsA2 = some (⟨EA, R, T⟩, ⟨EA', x1, y1, x2, y2, r11 ||| 1, r22 ||| 1⟩) ∧
      KeyRel S ⟨EA, R, T⟩ ⟨EA', x1, y1, x2, y2, r11 ||| 1, r22 ||| 1⟩ φA1 φA2 Pb Qb Pd1 Qd1 PA QA ∧
      ∀ m, ∃ c φ1 φ2, S.trapdoorEval true fuel ⟨EA, R, T⟩ m = some c ∧
        OutRel S ⟨EA, R, T⟩ m c φ1 φ2 Pb Qb Pd1 Qd1 ((r11 ||| 1) • φA2 (φA1 Pb)) ((r22 ||| 1) • φA2 (φA1 Qb)) PA QA := by
  obtain ⟨p', q', ht', hp', hq'⟩ := ht'
  obtain ⟨pA, qA, ht, hpA, hqA⟩ := ht
  obtain ⟨p1, q1, ht0, hp1, hq1⟩ := ht0
  obtain ⟨p2, q2, ht2, hp2, hq2⟩ := ht634
  obtain ⟨φA1, φ2, -, i1, c2, -, h⟩ := C54_keygen_partial fuel S hS hN hE r11 r22 drawsA1 drawsA2 hPb hQb hb hPd hQd hb1
    hf1 hf2 hn1 hn2 hd1 hd2 hl1 hl2 h1 h2 ht' hp' hq' hb' ht hpA hqA hbA
  obtain ⟨R, T, x1, y1, x2, y2, φA2, -, hk, hkey, hbk⟩ := h (hax φ2 c2)
  refine ⟨R, T, x1, y1, x2, y2, _, φA2, hk, hkey, fun m => ?_⟩
  obtain ⟨c, φ1, φ2', hev, hout, -, -⟩ := C54_eval true fuel S hS hN hE ⟨EA, R, T⟩ c2.good.2 hPb hQb hb hkey.ra hkey.sa hbk
    ht0 hp1 hq1 hb1 ht2 hp2 hq2 hbA m
  exact ⟨c, φ1, φ2', hev, hout⟩

/-- The points found on the two curves of the key are bases, if they are no exceptional multiples of each other. -/
theorem key_bases (p : Nat) [Fact p.Prime] [CharP K p] [Fintype K] (hcard : Fintype.card K = p ^ 2) (hp : p % 4 = 3)
    (hB : p + 1 ∣ ofSlice BASIS_ORDER) (S : Crypto K) (hS : S.Sound true) (hN : S.Norm) (hE : S.E0.Good) (h0 : S.E0.A = 6)
    (dv2 : S.d2 ∣ p + 1) (hf1 : S.c.fA1.Ok true) (hf2 : S.c.fA2.Ok true) (hn1 : S.c.fA1 ≠ []) (hn2 : S.c.fA2 ≠ [])
    (drawsA1 drawsA2 : List (List (List (K × Bool))))
    (hd1 : S.c.dA1 = (S.c.fA1.map fun q => q.1.toNat ^ q.2.toNat).prod ^ drawsA1.length)
    (hd2 : S.c.dA2 = (S.c.fA2.map fun q => q.1.toNat ^ q.2.toNat).prod ^ drawsA2.length)
    (hl1 : drawsA1 ≠ []) (hl2 : drawsA2 ≠ []) {Pb Qb : MPoint S.E0.A} (hb : IsBasis S.l Pb Qb)
    {L1 L2 : List (KIso K)} {EA' EA : Crv K}
    (h1 : randomIsogeny true S.c.fA1 drawsA1 S.E0 = some (L1, EA')) (h2 : randomIsogeny true S.c.fA2 drawsA2 EA' = some (L2, EA))
    {fuel : Nat} {P' Q' : MPoint EA'.A} {PA QA : MPoint EA.A}
    (n' : P' ≠ 0) (f' : AxisFree S.d2 P' Q') (ht' : Finds true fuel EA' S.c.f2 S.c.lPower.toNat P' Q')
    (nA : PA ≠ 0) (fA : AxisFree S.d2 PA QA) (ht : Finds true fuel EA S.c.f2 S.c.lPower.toNat PA QA) :
    IsBasis S.d2 P' Q' ∧ IsBasis S.d2 PA QA := by
  obtain ⟨φ1, φ2, c1, g1, c2, g2⟩ := random_isogs S hN hE drawsA1 drawsA2 hf1 hf2 hn1 hn2 hd1 hd2 hl1 hl2 h1 h2
  have i1 : IsIsog φ1 S.c.dA1 := ⟨L1, φ1, c1, g1, Or.inl rfl⟩
  have i2 : IsIsog φ2 S.c.dA2 := ⟨L2, φ2, c2, g2, Or.inl rfl⟩
  have hdv := dvd_order p hcard hp hB S hS hE h0 hb hS.odd2 dv2
  exact ⟨ht'.basis p hcard hp hB h0 i1 hN.oddA1 hN.ne2 hS.ok2 hS.d2_eq dv2 hdv n' f',
    ht.basis p hcard hp hB h0 (i1.comp i2) (Nat.odd_iff.mp ((Nat.odd_iff.mpr hN.oddA1).mul (Nat.odd_iff.mpr hN.oddA2)))
      hN.ne2 hS.ok2 hS.d2_eq dv2 hdv nA fA⟩

/-- C73, for any parameters: the three functions of the scheme, called one after the other, return the input. -/
theorem C73_scheme_partial (p : Nat) [Fact p.Prime] [CharP K p] [Fintype K] (hcard : Fintype.card K = p ^ 2) (hp : p % 4 = 3)
    (fuel : Nat) (S : Crypto K) (hS : S.Sound true) (hN : S.Norm) (hE : S.E0.Good) (h0 : S.E0.A = 6)
    (dv1 : S.d1 ∣ p + 1) (dv2 : S.d2 ∣ p + 1) (hB : p + 1 ∣ ofSlice BASIS_ORDER) (h3 : 3 ≤ S.c.thetaLen) (hst : IsStrategy S.c.thetaLen S.c.strategy)
    (hf1 : S.c.fA1.Ok true) (hf2 : S.c.fA2.Ok true) (hn1 : S.c.fA1 ≠ []) (hn2 : S.c.fA2 ≠ [])
    (drawsA1 drawsA2 : List (List (List (K × Bool))))
    (hd1 : S.c.dA1 = (S.c.fA1.map fun q => q.1.toNat ^ q.2.toNat).prod ^ drawsA1.length)
    (hd2 : S.c.dA2 = (S.c.fA2.map fun q => q.1.toNat ^ q.2.toNat).prod ^ drawsA2.length)
    (hl1 : drawsA1 ≠ []) (hl2 : drawsA2 ≠ [])
    {Pb Qb Pd1 Qd1 : MPoint S.E0.A} (hPb : PRep S.Pb Pb) (hQb : PRep S.Qb Qb) (hb : IsBasis S.l Pb Qb)
    (hx : xc ((S.l / 2) • Pb) ≠ 0)
    (hPd : PRep S.Pd1 Pd1) (hQd : PRep S.Qd1 Qd1) (hb1 : IsBasis S.d1 Pd1 Qd1)
    (ht0 : Finds true fuel S.E0 S.c.f1 634 Pd1 Qd1)
    -- key generation
    (r11 r22 : Nat) {L1 L2 : List (KIso K)} {EA' EA : Crv K}
    (h1 : randomIsogeny true S.c.fA1 drawsA1 S.E0 = some (L1, EA')) (h2 : randomIsogeny true S.c.fA2 drawsA2 EA' = some (L2, EA))
    {P' Q' : MPoint EA'.A} {PA QA : MPoint EA.A}
    (n' : P' ≠ 0) (f' : AxisFree S.d2 P' Q') (ht' : Finds true fuel EA' S.c.f2 S.c.lPower.toNat P' Q')
    (nA : PA ≠ 0) (fA : AxisFree S.d2 PA QA) (ht : Finds true fuel EA S.c.f2 S.c.lPower.toNat PA QA)
    (ht634 : Finds true fuel EA S.c.f2 634 PA QA)
    (hax : ∀ φ : MPoint EA'.A →+ MPoint EA.A, IsChain EA' L2 EA φ →
      ∀ X ∈ [PA, QA], AxisFree S.d2 (φ P') X ∧ AxisFree S.d2 (φ Q') X)
    (a0 : EA'.A ≠ 0) (a3 : EA'.A * EA'.A ≠ 3) (a9 : 2 * (EA'.A * EA'.A) ≠ 9) :
    ∃ pk sk, S.keygen true fuel r11 r22 drawsA1 drawsA2 = some (pk, sk) ∧ pk.EA = EA ∧ sk.EA' = EA' ∧
      ∀ m : TrapdoorInput, m.s1 < S.d1 → m.s2 < S.d2 → m.b11 % 2 = 1 → m.b11 < S.l / 2 → m.b22 < S.l → m.b11 * m.b22 % S.l = 1 →
        ∃ c, S.trapdoorEval true fuel pk m = some c ∧
          (S.CleanOut true fuel sk c → S.trapdoorInverse true fuel c sk = some m) := by
  obtain ⟨hb', hbA⟩ := key_bases p hcard hp hB S hS hN hE h0 dv2 hf1 hf2 hn1 hn2 drawsA1 drawsA2 hd1 hd2 hl1 hl2 hb h1 h2 n' f' ht'
    nA fA ht
  obtain ⟨R, T, x1, y1, x2, y2, φA1, φA2, hk, hkey, h⟩ := scheme_runs fuel S hS hN hE hf1 hf2 hn1 hn2 drawsA1 drawsA2 hd1 hd2 hl1
    hl2 hPb hQb hb hPd hQd hb1 ht0 r11 r22 h1 h2 hb' ht' hbA ht ht634 hax
  refine ⟨_, _, hk, rfl, rfl, ?_⟩
  intro m ms1 ms2 mo mlt mb22 minv
  obtain ⟨c, φ1, φ2', hev, hout⟩ := h m
  exact ⟨c, hev, invert_clean p hcard hp fuel S hS hN h0 dv1 dv2 hB h3 hst _ _ m c hb hx hb1 hbA hkey hout ms1 ms2 mo mlt mb22 minv a0 a3 a9⟩

/-- A round of the benchmark whose steps are known. -/
theorem bench_of {chk : Bool} {fuel : Nat} {S : Crypto K} {r11 r22 : Nat} {dA1 dA2 : List (List (List (K × Bool)))} {s1 s2 r : Nat}
    {pk : PublicKey K} {sk : SecretKey K} {m : TrapdoorInput} {c : TrapdoorOutput K}
    (hk : S.keygen chk fuel r11 r22 dA1 dA2 = some (pk, sk)) (hm : genInput S.c s1 s2 r = some m)
    (hc : S.trapdoorEval chk fuel pk m = some c) (hi : S.trapdoorInverse chk fuel c sk = some m) :
    S.bench chk fuel r11 r22 dA1 dA2 s1 s2 r = some () := by
  unfold Crypto.bench
  simp only [Option.bind_eq_bind, hk, hm, hc, hi, Option.bind_some]
  simp [TrapdoorInput.eq]

end

/-- The setup stores the points found by `torsion_basis` on the starting curve. -/
theorem setup_torsion (chk : Bool) (fuel : Nat) (S : Crypto Fq) (h : Crypto.new (F := Fr) chk fuel festaConsts = some S) :
    torsionBasis chk fuel S.E0 S.c.f1 S.c.lPower.toNat = some (S.Pd1, S.Qd1) := by
  unfold Crypto.new at h
  simp only [Option.bind_eq_bind, Option.bind_eq_some_iff] at h
  obtain ⟨E0, e0, x1, hx1, x2, hx2, x3, hx3, ⟨Pb, Qb⟩, eb, ⟨Pd1, Qd1⟩, ed, x4, hx4, x5, hx5, h⟩ := h
  rw [Option.some.injEq] at h
  subst h
  exact ed

/-- The factors of the degrees of the random isogenies. -/
theorem festa_okA : festaConsts.fA1.Ok true ∧ festaConsts.fA2.Ok true := by
  have prm : ∀ p ∈ DA1_FACTORED.map Prod.fst ++ DA2_FACTORED.map Prod.fst, Nat.Prime p := by
    intro p hp
    simp only [DA1_FACTORED, DA2_FACTORED, List.map_cons, List.map_nil, List.cons_append, List.nil_append, List.mem_cons,
      List.not_mem_nil, or_false] at hp
    rcases hp with rfl | rfl | rfl | rfl | rfl | rfl | rfl | rfl | rfl | rfl | rfl <;> norm_num
  have m1 : festaConsts.fA1.map (fun p => p.1.toNat) = DA1_FACTORED.map Prod.fst := by decide +kernel
  have m2 : festaConsts.fA2.map (fun p => p.1.toNat) = DA2_FACTORED.map Prod.fst := by decide +kernel
  refine ⟨⟨⟨fun p hp => prm _ ?_, by decide +kernel⟩, by decide +kernel, fun _ => by decide +kernel⟩,
    ⟨⟨fun p hp => prm _ ?_, by decide +kernel⟩, by decide +kernel, fun _ => by decide +kernel⟩⟩
  · exact List.mem_append_left _ (m1 ▸ List.mem_map_of_mem hp)
  · exact List.mem_append_right _ (m2 ▸ List.mem_map_of_mem hp)

/-- C73, for the parameters of the code: a round of the benchmark in main.rs ends without panic, whatever is drawn, unless an
exceptional case is met.  That is, key generation, evaluation and inversion succeed, with all debug assertions, and the
result of the inversion is the input.  Excluded are: a random isogeny not found with the given draws; a search of
`torsion_basis` on the two secret curves that finds nothing, or whose second point is an exceptional multiple of the first (C41);
basis points of `EA` that are exceptional multiples of the images of those of `EA'` (`AxisFree`, C39); `EA'` with j-invariant 0 or
1728; and the cases listed in `CleanOut`. -/
theorem C73_bench_partial (fuel : Nat) (S : Crypto Fq) (hnew : Crypto.new (F := Fr) true fuel festaConsts = some S)
    (hf : 4 ≤ fuel)
    -- key generation
    (r11 r22 : Nat) (drawsA1 drawsA2 : List (List (List (Fq × Bool)))) (hl1 : drawsA1.length = 2) (hl2 : drawsA2.length = 2)
    {L1 L2 : List (KIso Fq)} {EA' EA : Crv Fq}
    (h1 : randomIsogeny true S.c.fA1 drawsA1 S.E0 = some (L1, EA')) (h2 : randomIsogeny true S.c.fA2 drawsA2 EA' = some (L2, EA))
    {P' Q' : MPoint EA'.A} {PA QA : MPoint EA.A}
    (n' : P' ≠ 0) (f' : AxisFree S.d2 P' Q') (ht' : Finds true fuel EA' S.c.f2 S.c.lPower.toNat P' Q')
    (nA : PA ≠ 0) (fA : AxisFree S.d2 PA QA) (ht : Finds true fuel EA S.c.f2 S.c.lPower.toNat PA QA)
    (hax : ∀ φ : MPoint EA'.A →+ MPoint EA.A, IsChain EA' L2 EA φ →
      ∀ X ∈ [PA, QA], AxisFree S.d2 (φ P') X ∧ AxisFree S.d2 (φ Q') X)
    (a0 : EA'.A ≠ 0) (a3 : EA'.A * EA'.A ≠ 3) (a9 : 2 * (EA'.A * EA'.A) ≠ 9)
    -- evaluation and inversion
    (s1 s2 r : Nat) (hs1 : s1 < S.c.d1) (hs2 : s2 < S.c.d2) (hr : r < 2 ^ (S.c.lPower.toNat - 1))
    (hcl : ∀ pk sk m c, S.keygen true fuel r11 r22 drawsA1 drawsA2 = some (pk, sk) → genInput S.c s1 s2 r = some m →
      S.trapdoorEval true fuel pk m = some c → S.CleanOut true fuel sk c) :
    S.bench true fuel r11 r22 drawsA1 drawsA2 s1 s2 r = some () := by
  obtain ⟨hS, hc, hA, hE⟩ := C54_setup true fuel S hnew
  have hN := C54_norm true fuel S hnew
  obtain ⟨⟨Pb, Qb, hPb, hQb, hb⟩, -⟩ := C69_setup true fuel S hnew
  obtain ⟨Pd1, Qd1, hPd, hQd, hb1⟩ := setup_basis true fuel S hf hnew
  have e1 : S.d1 = S.c.d1 := by rw [hS.d1_eq, hc]; decide +kernel
  have e2 : S.d2 = S.c.d2 := by rw [hS.d2_eq, hc]; decide +kernel
  have el : S.c.lPower.toNat = 634 := by rw [hc]; decide +kernel
  have et := setup_torsion true fuel S hnew
  obtain ⟨pk, sk, hk, -, -, h⟩ := C73_scheme_partial festaFp.p fq_card festa_mod_four fuel S hS hN hE hA
    (by rw [e1, hc]; decide +kernel) (by rw [e2, hc]; decide +kernel) (by decide +kernel) (by rw [hc]; decide +kernel)
    (by rw [hc]; exact C47_shipped_strategy) (hc ▸ festa_okA.1) (hc ▸ festa_okA.2)
    (by rw [hc]; decide +kernel) (by rw [hc]; decide +kernel) drawsA1 drawsA2 (by rw [hc, hl1]; decide +kernel)
    (by rw [hc, hl2]; decide +kernel) (by rintro rfl; simp at hl1) (by rintro rfl; simp at hl2) hPb hQb hb (C85_setup true fuel S hnew hPb hQb).2.2.1 hPd hQd hb1
    ⟨_, _, el ▸ et, hPd, hQd⟩ r11 r22 h1 h2 n' f' ht' nA fA ht (el ▸ ht) hax a0 a3 a9
  obtain ⟨m, em, m1, m2, m3, m4, m5, m6⟩ := C63_generated S.c (by omega) s1 s2 r hs1 hs2 hr
  rw [← hS.l_eq] at m4 m5 m6
  rw [← e1] at m1
  rw [← e2] at m2
  obtain ⟨c, hev, hinv⟩ := h m m1 m2 m3 m4 m5 m6
  exact bench_of hk em hev (hinv (hcl _ _ _ _ hk em hev))

end Festa
