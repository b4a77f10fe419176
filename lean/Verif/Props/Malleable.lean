import Verif.Props.Serial
import Verif.Spec.Malleable
/-!
Property C88: values of the trapdoor function are malleable.  Multiplying the points of a value by numbers known to everyone gives
the value of a related input, and changing the signs of the points on the first curve gives something that is no value of a
proper input and still inverts to the input of the value changed.
-/
namespace Festa

section
variable {K : Type} [Field K] [DecidableEq K] [RootOps K]

omit [RootOps K] in
theorem toXY_of_prep {A : K} {P Q : Pt K} {X : MPoint A} (h : PRep P X) (h' : PRep Q X) : P.toXY = Q.toXY := by
  rcases X with _ | ⟨x, y, hq⟩
  · have a : P.Z = 0 := h
    have b : Q.Z = 0 := h'
    simp [Pt.toXY, a, b]
  · obtain ⟨z, h1, h2⟩ := h
    obtain ⟨z', h1', h2'⟩ := h'
    simp only [Pt.toXY, Prod.mk.injEq]
    rw [h1, h2, h1', h2', mul_assoc, mul_assoc, mul_assoc, mul_assoc, mul_inv_cancel₀ z, mul_inv_cancel₀ z']
    simp

theorem IsIsog.neg {E E' : Crv K} {φ : MPoint E.A →+ MPoint E'.A} {d : Nat} (h : IsIsog φ d) : IsIsog (-φ) d := by
  obtain ⟨L, ψ, h1, h2, h3⟩ := h
  refine ⟨L, ψ, h1, h2, ?_⟩
  rcases h3 with rfl | rfl
  · exact Or.inr rfl
  · exact Or.inl (neg_neg _)

theorem OutRel.negFirst {S : Crypto K} {pk : PublicKey K} {m : TrapdoorInput} {c : TrapdoorOutput K}
    {φ1 : MPoint S.E0.A →+ MPoint c.E1.A} {φ2 : MPoint pk.EA.A →+ MPoint c.E2.A}
    {Pb Qb Pd1 Qd1 : MPoint S.E0.A} {RA SA PA QA : MPoint pk.EA.A} (h : OutRel S pk m c φ1 φ2 Pb Qb Pd1 Qd1 RA SA PA QA) :
    OutRel S pk m c.negFirst (-φ1) φ2 Pb Qb Pd1 Qd1 RA SA PA QA := by
  refine ⟨h.isog1.neg, h.isog2, fun X => ?_, h.ker2, ?_, ?_, h.r2, h.s2⟩
  · exact neg_eq_zero.trans (h.ker1 X)
  · have := prep_neg h.r1
    rw [← smul_neg] at this
    exact this
  · have := prep_neg h.s1
    rw [← smul_neg] at this
    exact this

theorem mod_smul {G : Type*} [AddCommGroup G] {l : Nat} {X : G} (h : l • X = 0) (n : Nat) : (n % l) • X = n • X := by
  conv_rhs => rw [← Nat.div_add_mod n l, add_smul, mul_comm, mul_smul, h, smul_zero, zero_add]

theorem sub_smul_neg {G : Type*} [AddCommGroup G] {l : Nat} {X : G} (h : l • X = 0) {b : Nat} (hb : b ≤ l) : (l - b) • (-X) = b • X := by
  have : (l - b) • X + b • X = 0 := by rw [← add_smul, Nat.sub_add_cancel hb, h]
  rw [smul_neg]; exact neg_eq_of_add_eq_zero_right this

/-- Points that are multiples of those of a value by `k` and `k'` belong to the scaled input. -/
theorem OutRel.scale {S : Crypto K} {pk : PublicKey K} {m : TrapdoorInput} {c d : TrapdoorOutput K}
    {φ1 : MPoint S.E0.A →+ MPoint c.E1.A} {φ2 : MPoint pk.EA.A →+ MPoint c.E2.A}
    {Pb Qb Pd1 Qd1 : MPoint S.E0.A} {RA SA PA QA : MPoint pk.EA.A} (h : OutRel S pk m c φ1 φ2 Pb Qb Pd1 Qd1 RA SA PA QA)
    (l0 : 0 < S.l) (hb : IsBasis S.l Pb Qb) (hR : S.l • RA = 0) (hS : S.l • SA = 0) (hc : c.E1.Good ∧ c.E2.Good) {k k' : Nat}
    (hd : c.scale k k' = some d) :
    (∃ (ψ1 : MPoint S.E0.A →+ MPoint d.E1.A) (ψ2 : MPoint pk.EA.A →+ MPoint d.E2.A),
      OutRel S pk (m.scale S.l k k') d ψ1 ψ2 Pb Qb Pd1 Qd1 RA SA PA QA) ∧
    d.E1 = c.E1 ∧ d.E2 = c.E2 ∧ PRep d.R1 ((m.b11 * k % S.l) • φ1 Pb) ∧ PRep d.S1 ((m.b22 * k' % S.l) • φ1 Qb) ∧
      PRep d.R2 ((m.b11 * k % S.l) • φ2 RA) ∧ PRep d.S2 ((m.b22 * k' % S.l) • φ2 SA) := by
  obtain ⟨r1, e1, g1⟩ := C27_mul_big hc.1 h.r1 k
  obtain ⟨s1, e2, g2⟩ := C27_mul_big hc.1 h.s1 k'
  obtain ⟨r2, e3, g3⟩ := C27_mul_big hc.2 h.r2 k
  obtain ⟨s2, e4, g4⟩ := C27_mul_big hc.2 h.s2 k'
  unfold TrapdoorOutput.scale at hd
  simp only [e1, e2, e3, e4, Option.bind_eq_bind, Option.bind_some, Option.some.injEq] at hd
  subst hd
  have z1 : S.l • φ1 Pb = 0 := by rw [← map_nsmul, hb.nsmul_left, map_zero]
  have z2 : S.l • φ1 Qb = 0 := by rw [← map_nsmul, hb.nsmul_right, map_zero]
  have z3 : S.l • φ2 RA = 0 := by rw [← map_nsmul, hR, map_zero]
  have z4 : S.l • φ2 SA = 0 := by rw [← map_nsmul, hS, map_zero]
  rw [← mul_smul, mul_comm, ← mod_smul z1] at g1
  rw [← mul_smul, mul_comm, ← mod_smul z2] at g2
  rw [← mul_smul, mul_comm, ← mod_smul z3] at g3
  rw [← mul_smul, mul_comm, ← mod_smul z4] at g4
  refine ⟨?_, rfl, rfl, g1, g2, g3, g4⟩
  have k1 : m.b11 * k % S.l ≤ S.l := (Nat.mod_lt _ l0).le
  have k2 : m.b22 * k' % S.l ≤ S.l := (Nat.mod_lt _ l0).le
  unfold TrapdoorInput.scale
  simp only
  split
  · exact ⟨φ1, φ2, h.isog1, h.isog2, h.ker1, h.ker2, g1, g2, g3, g4⟩
  · refine ⟨-φ1, -φ2, h.isog1.neg, h.isog2.neg, fun X => ?_, fun X => ?_, ?_, ?_, ?_, ?_⟩
    · rw [AddMonoidHom.neg_apply, neg_eq_zero]; exact h.ker1 X
    · rw [AddMonoidHom.neg_apply, neg_eq_zero]; exact h.ker2 X
    · rw [AddMonoidHom.neg_apply, sub_smul_neg z1 k1]; exact g1
    · rw [AddMonoidHom.neg_apply, sub_smul_neg z2 k2]; exact g2
    · rw [AddMonoidHom.neg_apply, sub_smul_neg z3 k1]; exact g3
    · rw [AddMonoidHom.neg_apply, sub_smul_neg z4 k2]; exact g4

omit [RootOps K] in
/-- Scaling by `k` and its inverse keeps the conditions on inputs. -/
theorem scale_valid {e : Nat} (he : 3 ≤ e) {m : TrapdoorInput} (minv : m.b11 * m.b22 % 2 ^ e = 1)
    {k k' : Nat} (hk : k * k' % 2 ^ e = 1) :
    (m.scale (2 ^ e) k k').b11 % 2 = 1 ∧ (m.scale (2 ^ e) k k').b11 < 2 ^ e / 2 ∧ (m.scale (2 ^ e) k k').b22 < 2 ^ e ∧
    (m.scale (2 ^ e) k k').b11 * (m.scale (2 ^ e) k k').b22 % 2 ^ e = 1 := by
  obtain ⟨n, hn⟩ : ∃ n, 2 ^ e = 4 * n := ⟨2 ^ (e - 2), by rw [show (4 : Nat) = 2 ^ 2 from rfl, ← pow_add]; congr 1; omega⟩
  have n1 : 1 < n := by
    have : 2 ^ 3 ≤ 2 ^ e := Nat.pow_le_pow_right (by norm_num) he
    omega
  rw [hn] at minv hk ⊢
  have odd : ∀ a b : Nat, a * b % (4 * n) = 1 → a % 2 = 1 ∧ b % 2 = 1 := by
    intro a b h
    have : a * b % 2 = 1 := by
      have := congrArg (· % 2) h
      rwa [Nat.mod_mod_of_dvd _ (Dvd.intro (2 * n) (by ring))] at this
    have h2 : Odd (a * b) := Nat.odd_iff.mpr this
    rw [Nat.odd_mul] at h2
    exact ⟨Nat.odd_iff.mp h2.1, Nat.odd_iff.mp h2.2⟩
  have pr : m.b11 * k % (4 * n) * (m.b22 * k' % (4 * n)) % (4 * n) = 1 := by
    rw [← Nat.mul_mod, show m.b11 * k * (m.b22 * k') = (m.b11 * m.b22) * (k * k') by ring, Nat.mul_mod, minv, hk]
    exact Nat.mod_eq_of_lt (by omega)
  obtain ⟨o1, o2⟩ := odd _ _ pr
  have l1 : m.b11 * k % (4 * n) < 4 * n := Nat.mod_lt _ (by omega)
  have l2 : m.b22 * k' % (4 * n) < 4 * n := Nat.mod_lt _ (by omega)
  unfold TrapdoorInput.scale
  simp only
  generalize m.b11 * k % (4 * n) = x at *
  generalize m.b22 * k' % (4 * n) = y at *
  split
  · exact ⟨o1, by omega, l2, pr⟩
  · refine ⟨by simp only; omega, by simp only; omega, by simp only; omega, ?_⟩
    simp only
    have : ((4 * n - x) * (4 * n - y)) % (4 * n) = x * y % (4 * n) := by
      have e : (((4 * n - x) * (4 * n - y) : Nat) : ZMod (4 * n)) = ((x * y : Nat) : ZMod (4 * n)) := by
        push_cast [Nat.cast_sub l1.le, Nat.cast_sub l2.le]
        have : (4 : ZMod (4 * n)) * (n : ZMod (4 * n)) = 0 := by exact_mod_cast ZMod.natCast_self (4 * n)
        rw [this]; ring
      exact (ZMod.natCast_eq_natCast_iff' _ _ _).mp e
    rw [this, pr]

/-- Scaling by anything but `1` and `-1` changes the input. -/
theorem scale_ne {l : Nat} (l2 : 2 ≤ l) {m : TrapdoorInput} (minv : m.b11 * m.b22 % l = 1) {k k' : Nat}
    (h1 : k % l ≠ 1) (h2 : k % l ≠ l - 1) : m.scale l k k' ≠ m := by
  intro h
  have hb := congrArg TrapdoorInput.b11 h
  have cz : (l : ZMod l) = 0 := ZMod.natCast_self l
  have inv : (m.b11 : ZMod l) * m.b22 = 1 := by
    have := (ZMod.natCast_eq_natCast_iff' (m.b11 * m.b22) 1 l).mpr (by rw [minv]; exact (Nat.mod_eq_of_lt l2).symm)
    exact_mod_cast this
  have kl : m.b11 * k % l < l := Nat.mod_lt _ (by omega)
  unfold TrapdoorInput.scale at hb
  simp only at hb
  have red : ((m.b11 * k % l : Nat) : ZMod l) = m.b11 * k := by rw [ZMod.natCast_mod]; push_cast; rfl
  split at hb
  · simp only at hb
    have : (m.b11 : ZMod l) * k = m.b11 := by rw [← red, hb]
    have : (k : ZMod l) = (1 : Nat) := by push_cast; linear_combination (m.b22 : ZMod l) * this - ((k : ZMod l) - 1) * inv
    have := (ZMod.natCast_eq_natCast_iff' _ _ _).mp this
    rw [Nat.mod_eq_of_lt (show 1 < l by omega)] at this
    exact h1 this
  · simp only at hb
    have e : ((l - m.b11 * k % l : Nat) : ZMod l) = m.b11 := by rw [hb]
    rw [Nat.cast_sub kl.le, red, cz] at e
    have : (k : ZMod l) = (l - 1 : Nat) := by
      rw [Nat.cast_sub (by omega), cz]; push_cast
      linear_combination (-(m.b22 : ZMod l)) * e - ((k : ZMod l) + 1) * inv
    have := (ZMod.natCast_eq_natCast_iff' _ _ _).mp this
    rw [Nat.mod_eq_of_lt (show l - 1 < l by omega)] at this
    exact h2 this

/-- The conclusions of `C54_keygen_partial` and `C54_eval`, for all inputs with the same kernels at once. -/
theorem scheme_family (fuel : Nat) (S : Crypto K) (hS : S.Sound true) (hN : S.Norm) (hE : S.E0.Good)
    (hf1 : S.c.fA1.Ok true) (hf2 : S.c.fA2.Ok true) (hn1 : S.c.fA1 ≠ []) (hn2 : S.c.fA2 ≠ [])
    (drawsA1 drawsA2 : List (List (List (K × Bool))))
    (hd1 : S.c.dA1 = (S.c.fA1.map fun q => q.1.toNat ^ q.2.toNat).prod ^ drawsA1.length)
    (hd2 : S.c.dA2 = (S.c.fA2.map fun q => q.1.toNat ^ q.2.toNat).prod ^ drawsA2.length)
    (hl1 : drawsA1 ≠ []) (hl2 : drawsA2 ≠ [])
    {Pb Qb Pd1 Qd1 : MPoint S.E0.A} (hPb : PRep S.Pb Pb) (hQb : PRep S.Qb Qb) (hb : IsBasis S.l Pb Qb)
    (hPd : PRep S.Pd1 Pd1) (hQd : PRep S.Qd1 Qd1) (hb1 : IsBasis S.d1 Pd1 Qd1)
    (ht0 : Finds true fuel S.E0 S.c.f1 634 Pd1 Qd1)
    (r11 r22 : Nat) {L1 L2 : List (KIso K)} {EA' EA : Crv K}
    (h1 : randomIsogeny true S.c.fA1 drawsA1 S.E0 = some (L1, EA')) (h2 : randomIsogeny true S.c.fA2 drawsA2 EA' = some (L2, EA))
    {P' Q' : MPoint EA'.A} {PA QA : MPoint EA.A}
    (hb' : IsBasis S.d2 P' Q') (ht' : Finds true fuel EA' S.c.f2 S.c.lPower.toNat P' Q')
    (hbA : IsBasis S.d2 PA QA) (ht : Finds true fuel EA S.c.f2 S.c.lPower.toNat PA QA)
    (ht634 : Finds true fuel EA S.c.f2 634 PA QA)
    (hax : ∀ φ : MPoint EA'.A →+ MPoint EA.A, IsChain EA' L2 EA φ →
      ∀ X ∈ [PA, QA], AxisFree S.d2 (φ P') X ∧ AxisFree S.d2 (φ Q') X) :
    ∃ (R T x1 y1 x2 y2 : Pt K) (φA1 : MPoint S.E0.A →+ MPoint EA'.A) (φA2 : MPoint EA'.A →+ MPoint EA.A),
      S.keygen true fuel r11 r22 drawsA1 drawsA2 = some (⟨EA, R, T⟩, ⟨EA', x1, y1, x2, y2, r11 ||| 1, r22 ||| 1⟩) ∧
      KeyRel S ⟨EA, R, T⟩ ⟨EA', x1, y1, x2, y2, r11 ||| 1, r22 ||| 1⟩ φA1 φA2 Pb Qb Pd1 Qd1 PA QA ∧
      (2 ≤ S.d2) ∧
      ∀ s1 s2, ∃ (E1 E2 : Crv K) (φ1 : MPoint S.E0.A →+ MPoint E1.A) (φ2 : MPoint EA.A →+ MPoint E2.A), ∀ b b',
        ∃ R1 S1 R2 S2, S.trapdoorEval true fuel ⟨EA, R, T⟩ ⟨s1, s2, b, b'⟩ = some ⟨E1, R1, S1, E2, R2, S2⟩ ∧
          OutRel S ⟨EA, R, T⟩ ⟨s1, s2, b, b'⟩ ⟨E1, R1, S1, E2, R2, S2⟩ φ1 φ2 Pb Qb Pd1 Qd1 ((r11 ||| 1) • φA2 (φA1 Pb))
            ((r22 ||| 1) • φA2 (φA1 Qb)) PA QA := by
  obtain ⟨p', q', ht', hp', hq'⟩ := ht'
  obtain ⟨pA, qA, ht, hpA, hqA⟩ := ht
  obtain ⟨p1, q1, ht0, hp1, hq1⟩ := ht0
  obtain ⟨p2, q2, ht2, hp2, hq2⟩ := ht634
  obtain ⟨φA1, φ2, -, i1, c2, -, h⟩ := C54_keygen_partial fuel S hS hN hE r11 r22 drawsA1 drawsA2 hPb hQb hb hPd hQd hb1
    hf1 hf2 hn1 hn2 hd1 hd2 hl1 hl2 h1 h2 ht' hp' hq' hb' ht hpA hqA hbA
  obtain ⟨R, T, x1, y1, x2, y2, φA2, -, hk, hkey, hbk⟩ := h (hax φ2 c2)
  have d22 : 2 ≤ S.d2 := by
    by_contra h
    have : S.d2 = 1 := by have := hS.odd2; omega
    have h0 := hbA.nsmul_left
    rw [this, one_nsmul] at h0
    exact (hax φ2 c2 PA (by simp)).1.ne_zero h0
  refine ⟨R, T, x1, y1, x2, y2, _, φA2, hk, hkey, d22, fun s1 s2 => ?_⟩
  rw [hS.l_eq] at hb hbk
  obtain ⟨L1, E1, φ1, r1, t1, e1, e2, g1, i1, k1, hr1, hs1, j1⟩ := eval_half true fuel hE hp1 hq1 hPb hQb S.c.f1
    hS.ok1 hN.ne1 hS.d1_eq hS.odd1 ht0 hb1 s1 hS.l_big hb
  obtain ⟨L2, E2, φ2, r2, t2, e3, e4, g2, i2, k2, hr2, hs2, j2⟩ := eval_half true fuel c2.good.2 hp2 hq2 hkey.ra hkey.sa S.c.f2
    hS.ok2 hN.ne2 hS.d2_eq hS.odd2 ht2 hbA s2 hS.l_big hbk
  refine ⟨E1, E2, φ1, φ2, fun b b' => ?_⟩
  obtain ⟨R1, f1, h1⟩ := C27_mul_big g1 hr1 b
  obtain ⟨S1, f2, h2⟩ := C27_mul_big g1 hs1 b'
  obtain ⟨R2, f3, h3⟩ := C27_mul_big g2 hr2 b
  obtain ⟨S2, f4, h4⟩ := C27_mul_big g2 hs2 b'
  refine ⟨R1, S1, R2, S2, ?_, ⟨i1, i2, k1, k2, h1, h2, h3, h4⟩⟩
  unfold Crypto.trapdoorEval
  simp only [Option.bind_eq_bind, e1, Option.bind_some, hS.l_eq, e2, e3, e4, f1, f2, f3, f4]

variable [Codec K] [LawfulCodec K]

/-- C88, for any parameters, with the hypotheses of `C73_scheme_partial`.  For all numbers `k`, `k'` inverse to each other modulo
the order `l`, the value of an input, with its points multiplied by them, is written out as the value of the input with the matrix
multiplied by them; it inverts to that input, in normal form, which is another input than the first one unless `k` is 1 or -1.
The value with the signs on the first curve changed is not written out as the value of any proper input, and inverts to the input
it was made from.  The statements on inversion are for values that meet no exceptional case there. -/
theorem C88_malleable (p : Nat) [Fact p.Prime] [CharP K p] [Fintype K] (hcard : Fintype.card K = p ^ 2) (hp : p % 4 = 3)
    (fuel : Nat) (S : Crypto K) (hS : S.Sound true) (hN : S.Norm) (hE : S.E0.Good) (h0 : S.E0.A = 6)
    (dv1 : S.d1 ∣ p + 1) (dv2 : S.d2 ∣ p + 1) (hB : p + 1 ∣ ofSlice BASIS_ORDER) (h3 : 3 ≤ S.c.thetaLen) (hst : IsStrategy S.c.thetaLen S.c.strategy)
    (hf1 : S.c.fA1.Ok true) (hf2 : S.c.fA2.Ok true) (hn1 : S.c.fA1 ≠ []) (hn2 : S.c.fA2 ≠ [])
    (drawsA1 drawsA2 : List (List (List (K × Bool))))
    (hd1 : S.c.dA1 = (S.c.fA1.map fun q => q.1.toNat ^ q.2.toNat).prod ^ drawsA1.length)
    (hd2 : S.c.dA2 = (S.c.fA2.map fun q => q.1.toNat ^ q.2.toNat).prod ^ drawsA2.length)
    (hl1 : drawsA1 ≠ []) (hl2 : drawsA2 ≠ [])
    {Pb Qb Pd1 Qd1 : MPoint S.E0.A} (hPb : PRep S.Pb Pb) (hQb : PRep S.Qb Qb) (hb : IsBasis S.l Pb Qb)
    (hx : xc ((S.l / 2) • Pb) ≠ 0)
    (hPd : PRep S.Pd1 Pd1) (hQd : PRep S.Qd1 Qd1) (hb1 : IsBasis S.d1 Pd1 Qd1)
    (ht0 : Finds true fuel S.E0 S.c.f1 634 Pd1 Qd1)
    -- key generation
    (r11 r22 : Nat) {L1 L2 : List (KIso K)} {EA' EA : Crv K}
    (h1 : randomIsogeny true S.c.fA1 drawsA1 S.E0 = some (L1, EA')) (h2 : randomIsogeny true S.c.fA2 drawsA2 EA' = some (L2, EA))
    {P' Q' : MPoint EA'.A} {PA QA : MPoint EA.A}
    (n' : P' ≠ 0) (f' : AxisFree S.d2 P' Q') (ht' : Finds true fuel EA' S.c.f2 S.c.lPower.toNat P' Q')
    (nA : PA ≠ 0) (fA : AxisFree S.d2 PA QA) (ht : Finds true fuel EA S.c.f2 S.c.lPower.toNat PA QA)
    (ht634 : Finds true fuel EA S.c.f2 634 PA QA)
    (hax : ∀ φ : MPoint EA'.A →+ MPoint EA.A, IsChain EA' L2 EA φ →
      ∀ X ∈ [PA, QA], AxisFree S.d2 (φ P') X ∧ AxisFree S.d2 (φ Q') X)
    (a0 : EA'.A ≠ 0) (a3 : EA'.A * EA'.A ≠ 3) (a9 : 2 * (EA'.A * EA'.A) ≠ 9) :
    ∃ pk sk, S.keygen true fuel r11 r22 drawsA1 drawsA2 = some (pk, sk) ∧
      ∀ m : TrapdoorInput, m.s1 < S.d1 → m.s2 < S.d2 → m.b11 % 2 = 1 → m.b11 < S.l / 2 → m.b22 < S.l → m.b11 * m.b22 % S.l = 1 →
        ∃ c, S.trapdoorEval true fuel pk m = some c ∧
          (∀ k k', k * k' % S.l = 1 → ∃ d c', c.scale k k' = some d ∧
            S.trapdoorEval true fuel pk ⟨m.s1, m.s2, m.b11 * k % S.l, m.b22 * k' % S.l⟩ = some c' ∧ d.encode = c'.encode ∧
            (S.CleanOut true fuel sk d → S.trapdoorInverse true fuel d sk = some (m.scale S.l k k')) ∧
            (k % S.l ≠ 1 → k % S.l ≠ S.l - 1 → m.scale S.l k k' ≠ m)) ∧
          (S.CleanOut true fuel sk c.negFirst → S.trapdoorInverse true fuel c.negFirst sk = some m ∧
            ∀ m' c', m'.s1 < S.d1 → m'.s2 < S.d2 → m'.b11 % 2 = 1 → m'.b11 < S.l / 2 → m'.b22 < S.l → m'.b11 * m'.b22 % S.l = 1 →
              S.trapdoorEval true fuel pk m' = some c' → c'.encode ≠ c.negFirst.encode) := by
  obtain ⟨hb', hbA⟩ := key_bases p hcard hp hB S hS hN hE h0 dv2 hf1 hf2 hn1 hn2 drawsA1 drawsA2 hd1 hd2 hl1 hl2 hb h1 h2 n' f' ht'
    nA fA ht
  obtain ⟨R, T, x1, y1, x2, y2, φA1, φA2, hk, hkey, d22, h⟩ := scheme_family fuel S hS hN hE hf1 hf2 hn1 hn2 drawsA1 drawsA2
    hd1 hd2 hl1 hl2 hPb hQb hb hPd hQd hb1 ht0 r11 r22 h1 h2 hb' ht' hbA ht ht634 hax
  have le : 3 ≤ S.c.lPower.toNat := by have := hN.len; omega
  have l8 : 8 ≤ S.l := by
    rw [hS.l_eq]
    calc 8 = 2 ^ 3 := rfl
      _ ≤ _ := Nat.pow_le_pow_right (by norm_num) le
  refine ⟨_, _, hk, ?_⟩
  intro m ms1 ms2 mo mlt mb22 minv
  obtain ⟨E1, E2, φ1, φ2, hf⟩ := h m.s1 m.s2
  obtain ⟨R1, S1, R2, S2, hev, hout⟩ := hf m.b11 m.b22
  have good : E1.Good ∧ E2.Good := ⟨hout.isog1.good.2, hout.isog2.good.2⟩
  have z : ∀ (n : Nat) (X : MPoint S.E0.A), S.l • X = 0 → S.l • (n • φA2 (φA1 X)) = 0 := by
    intro n X h
    rw [smul_comm, ← map_nsmul φA2, ← map_nsmul φA1, h, map_zero, map_zero, smul_zero]
  have zR := z (r11 ||| 1) Pb hb.nsmul_left
  have zS := z (r22 ||| 1) Qb hb.nsmul_right
  refine ⟨_, hev, fun k k' hkk => ?_, fun hcl => ?_⟩
  · obtain ⟨R1', S1', R2', S2', hev', hout'⟩ := hf (m.b11 * k % S.l) (m.b22 * k' % S.l)
    obtain ⟨r1, e1, -⟩ := C27_mul_big good.1 hout.r1 k
    obtain ⟨s1, e2, -⟩ := C27_mul_big good.1 hout.s1 k'
    obtain ⟨r2, e3, -⟩ := C27_mul_big good.2 hout.r2 k
    obtain ⟨s2, e4, -⟩ := C27_mul_big good.2 hout.s2 k'
    have hd : TrapdoorOutput.scale ⟨E1, R1, S1, E2, R2, S2⟩ k k' = some ⟨E1, r1, s1, E2, r2, s2⟩ := by
      unfold TrapdoorOutput.scale
      simp only at e1 e2 e3 e4
      simp only [e1, e2, e3, e4, Option.bind_eq_bind, Option.bind_some]
    obtain ⟨⟨ψ1, ψ2, hrel⟩, -, -, q1, q2, q3, q4⟩ := hout.scale (by omega) hb zR zS good hd
    refine ⟨_, _, hd, hev', ?_, fun hcl => ?_, fun t1 t2 => scale_ne (by omega) minv t1 t2⟩
    · have w1 := toXY_of_prep q1 hout'.r1
      have w2 := toXY_of_prep q2 hout'.s1
      have w3 := toXY_of_prep q3 hout'.r2
      have w4 := toXY_of_prep q4 hout'.s2
      simp only at w1 w2 w3 w4
      simp only [TrapdoorOutput.encode, w1, w2, w3, w4]
    · have hv := scale_valid le (m := m) (k := k) (k' := k') (by rw [← hS.l_eq]; exact minv) (by rw [← hS.l_eq]; exact hkk)
      rw [← hS.l_eq] at hv
      obtain ⟨v1, v2, v3, v4⟩ := hv
      have u : (m.scale S.l k k').s1 = m.s1 ∧ (m.scale S.l k k').s2 = m.s2 := by
        unfold TrapdoorInput.scale
        simp only
        split <;> exact ⟨rfl, rfl⟩
      exact invert_clean p hcard hp fuel S hS hN h0 dv1 dv2 hB h3 hst _ _ _ _ hb hx hb1 hbA hkey hrel (by rw [u.1]; exact ms1)
        (by rw [u.2]; exact ms2) v1 v2 v3 v4 a0 a3 a9 hcl
  · have hneg := hout.negFirst
    refine ⟨invert_clean p hcard hp fuel S hS hN h0 dv1 dv2 hB h3 hst _ _ m _ hb hx hb1 hbA hkey hneg ms1 ms2 mo mlt mb22 minv a0 a3 a9
      hcl, ?_⟩
    intro m' c' ms1' ms2' mo' mlt' mb22' minv' hev' henc
    obtain ⟨E1', E2', φ1', φ2', hf'⟩ := h m'.s1 m'.s2
    obtain ⟨R1', S1', R2', S2', hev₂, hout'⟩ := hf' m'.b11 m'.b22
    obtain rfl := Option.some.inj (hev₂.symm.trans hev')
    obtain ⟨k1, k2, k3⟩ := norm_rel fuel S hS hN _ _ m _ hb hb1 hbA d22 hkey hneg mo minv
    obtain ⟨-, k2', -⟩ := norm_rel fuel S hS hN _ _ m' _ hb hb1 hbA d22 hkey hout' mo' minv'
    have e1 := (C52_roundtrip _ hneg.isog1.good.2 hneg.isog2.good.2 true).2
    have e2 := (C52_roundtrip _ hout'.isog1.good.2 hout'.isog2.good.2 true).2
    rw [henc] at e2
    have e1 := Option.some.inj (e2.symm.trans e1)
    replace e1 : TrapdoorOutput.norm ⟨E1', R1', S1', E2', R2', S2'⟩ = (TrapdoorOutput.negFirst ⟨E1, R1, S1, E2, R2, S2⟩).norm := e1
    have i1 := invert_clean p hcard hp fuel S hS hN h0 dv1 dv2 hB h3 hst _ _ m _ hb hx hb1 hbA k1 k2 ms1 ms2 mo mlt mb22 minv a0 a3 a9
      (k3 hcl)
    have i2 := invert_clean p hcard hp fuel S hS hN h0 dv1 dv2 hB h3 hst _ _ m' _ hb hx hb1 hbA k1 k2' ms1' ms2' mo' mlt' mb22' minv'
      a0 a3 a9 (by rw [e1]; exact k3 hcl)
    obtain rfl : m = m' :=
      Option.some.inj (i1.symm.trans ((congrArg (fun c => S.trapdoorInverse true fuel c _) e1).symm.trans i2))
    have ec := Option.some.inj (hev.symm.trans hev₂)
    simp only [TrapdoorOutput.mk.injEq] at ec
    obtain ⟨rfl, rfl, rfl, rfl, rfl, rfl⟩ := ec
    -- the first point is its own negative
    have e3 : Pt.newXY R1.toXY.1 R1.toXY.2 = Pt.newXY R1.neg.toXY.1 R1.neg.toXY.2 := congrArg TrapdoorOutput.R1 e1
    obtain ⟨-, kk, -⟩ := norm_rel fuel S hS hN _ _ m _ hb hb1 hbA d22 hkey hout mo minv
    have t1 : PRep (Pt.newXY R1.toXY.1 R1.toXY.2) (m.b11 • φ1 Pb) := kk.r1
    have t2 : PRep (Pt.newXY R1.neg.toXY.1 R1.neg.toXY.2) (m.b11 • (-φ1 Pb)) := k2.r1
    rw [← e3] at t2
    have t3 := prep_unique t1 t2
    rw [smul_neg] at t3
    have cop : ∀ {d : Nat}, d % 2 = 1 → d.Coprime S.l := fun h => by rw [hS.l_eq]; exact two_pow_coprime h
    have bas := (hb.map (hout.isog1.inj (by omega) hS.odd1 (cop hS.odd1).symm)).smul_unit (cop mo)
    have := bas.eq_iff 2 0 0 0
    have z2 : 2 • (m.b11 • φ1 Pb) = 0 := by rw [two_smul]; nth_rewrite 1 [t3]; exact neg_add_cancel _
    have := this.mp (by rw [z2]; simp)
    have := this.1
    rw [Nat.ModEq, Nat.mod_eq_of_lt (by omega)] at this
    simp at this
end

/-- C88, for the parameters of the code, with the hypotheses of `C73_bench_partial`. -/
theorem C88_festa (fuel : Nat) (S : Crypto Fq) (hnew : Crypto.new (F := Fr) true fuel festaConsts = some S)
    (hf : 4 ≤ fuel)
    -- key generation
    (r11 r22 : Nat)
    (drawsA1 drawsA2 : List (List (List (Fq × Bool)))) (hl1 : drawsA1.length = 2) (hl2 : drawsA2.length = 2)
    {L1 L2 : List (KIso Fq)} {EA' EA : Crv Fq}
    (h1 : randomIsogeny true S.c.fA1 drawsA1 S.E0 = some (L1, EA')) (h2 : randomIsogeny true S.c.fA2 drawsA2 EA' = some (L2, EA))
    {P' Q' : MPoint EA'.A} {PA QA : MPoint EA.A}
    (n' : P' ≠ 0) (f' : AxisFree S.d2 P' Q') (ht' : Finds true fuel EA' S.c.f2 S.c.lPower.toNat P' Q')
    (nA : PA ≠ 0) (fA : AxisFree S.d2 PA QA) (ht : Finds true fuel EA S.c.f2 S.c.lPower.toNat PA QA)
    (hax : ∀ φ : MPoint EA'.A →+ MPoint EA.A, IsChain EA' L2 EA φ →
      ∀ X ∈ [PA, QA], AxisFree S.d2 (φ P') X ∧ AxisFree S.d2 (φ Q') X)
    (a0 : EA'.A ≠ 0) (a3 : EA'.A * EA'.A ≠ 3) (a9 : 2 * (EA'.A * EA'.A) ≠ 9) :
    ∃ pk sk, S.keygen true fuel r11 r22 drawsA1 drawsA2 = some (pk, sk) ∧
      ∀ m : TrapdoorInput, m.s1 < S.d1 → m.s2 < S.d2 → m.b11 % 2 = 1 → m.b11 < S.l / 2 → m.b22 < S.l → m.b11 * m.b22 % S.l = 1 →
        ∃ c, S.trapdoorEval true fuel pk m = some c ∧
          (∀ k k', k * k' % S.l = 1 → ∃ d c', c.scale k k' = some d ∧
            S.trapdoorEval true fuel pk ⟨m.s1, m.s2, m.b11 * k % S.l, m.b22 * k' % S.l⟩ = some c' ∧ d.encode = c'.encode ∧
            (S.CleanOut true fuel sk d → S.trapdoorInverse true fuel d sk = some (m.scale S.l k k')) ∧
            (k % S.l ≠ 1 → k % S.l ≠ S.l - 1 → m.scale S.l k k' ≠ m)) ∧
          (S.CleanOut true fuel sk c.negFirst → S.trapdoorInverse true fuel c.negFirst sk = some m ∧
            ∀ m' c', m'.s1 < S.d1 → m'.s2 < S.d2 → m'.b11 % 2 = 1 → m'.b11 < S.l / 2 → m'.b22 < S.l → m'.b11 * m'.b22 % S.l = 1 →
              S.trapdoorEval true fuel pk m' = some c' → c'.encode ≠ c.negFirst.encode) := by
  obtain ⟨hS, hc, hA, hE⟩ := C54_setup true fuel S hnew
  have hN := C54_norm true fuel S hnew
  obtain ⟨⟨Pb, Qb, hPb, hQb, hb⟩, -⟩ := C69_setup true fuel S hnew
  obtain ⟨Pd1, Qd1, hPd, hQd, hb1⟩ := setup_basis true fuel S hf hnew
  have e1 : S.d1 = S.c.d1 := by rw [hS.d1_eq, hc]; decide +kernel
  have e2 : S.d2 = S.c.d2 := by rw [hS.d2_eq, hc]; decide +kernel
  have el : S.c.lPower.toNat = 634 := by rw [hc]; decide +kernel
  have et := setup_torsion true fuel S hnew
  exact C88_malleable festaFp.p fq_card festa_mod_four fuel S hS hN hE hA
    (by rw [e1, hc]; decide +kernel) (by rw [e2, hc]; decide +kernel) (by decide +kernel) (by rw [hc]; decide +kernel)
    (by rw [hc]; exact C47_shipped_strategy) (hc ▸ festa_okA.1) (hc ▸ festa_okA.2)
    (by rw [hc]; decide +kernel) (by rw [hc]; decide +kernel) drawsA1 drawsA2 (by rw [hc, hl1]; decide +kernel)
    (by rw [hc, hl2]; decide +kernel) (by rintro rfl; simp at hl1) (by rintro rfl; simp at hl2) hPb hQb hb
    (C85_setup true fuel S hnew hPb hQb).2.2.1 hPd hQd hb1 ⟨_, _, el ▸ et, hPd, hQd⟩ r11 r22 h1 h2 n' f' ht' nA fA ht (el ▸ ht) hax
    a0 a3 a9

end Festa
