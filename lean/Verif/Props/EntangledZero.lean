import Verif.Lemmas.ZeroPoint
import Verif.Props.StartCurve
/-!
Property C85: the position of the point `(0, 0)` in the bases of `entangled_torsion_basis`.  On the curves of the scheme it is
the sum of the two points of order two below the basis, never one of them.  The end of `trapdoor_inverse` depends on this: the
isomorphism of the code is wrong between curves with opposite coefficients (C31), and such a curve could be met if `(0, 0)`
were a multiple of `Pb` (C84).
-/
namespace Festa
open WeierstrassCurve.Affine RootOps CoeffOps

section
variable {F K : Type*} [Field F] [DecidableEq F] [Field K] [DecidableEq K] [RootOps K] [CoeffOps F K]

omit [RootOps K] in
/-- A point with non-square abscissa, and the cofactor cleared. -/
theorem FrobNeg.half_ne {p : Nat} [Fact p.Prime] [CharP K p] [Fintype K] (hc : Fintype.card K = p ^ 2) {E : Crv K} (hE : E.Good)
    (hF : FrobNeg p E.A) {k m : Nat} (e : 2 ^ (k + 1) * m = p + 1) {Q : MPoint E.A} (hq : ¬ IsSquare (xc Q)) (h0 : 2 ^ k • m • Q ≠ 0) :
    xc (2 ^ k • m • Q) ≠ 0 := by
  rw [← mul_nsmul'] at h0 ⊢
  exact fun h => hq (hF.square hc hE.two hE.disc (by rw [← e]; ring) h0 h)

/-- C85, in general: `E` is a curve reached from the starting curve by isogenies of odd degree over the field with `p²` elements,
and `p + 1 = 2^k · cofactor` with odd cofactor.  Then the points returned by `entangled_torsion_basis` are a basis `P'`, `Q'` of
order `2^k` with `2^(k-1) P' + 2^(k-1) Q' = (0, 0)` (when the run is not exceptional, see `C42_basis_partial`). -/
theorem C85_reached (p : Nat) [Fact p.Prime] [CharP K p] [Fintype K] (hc : Fintype.card K = p ^ 2) (hp : p % 4 = 3)
    {E0 E : Crv K} (h0 : E0.A = 6) {φ : MPoint E0.A →+ MPoint E.A} {d : Nat} (hφ : IsIsog φ d) (hd : d % 2 = 1)
    {S1 S2 : Pt K} (h : entangledPoints (F := F) E.A = some (S1, S2)) (hne : NotExceptional F E.A S1.X) (hx2 : S2.X ≠ 0)
    {k cofactor : Nat} (hk : 2 ≤ k) (hodd : cofactor % 2 = 1) (e : 2 ^ k * cofactor = p + 1) :
    ∃ P Q, entangledBasis (F := F) E cofactor = some (P, Q) ∧
      ∃ P' Q' : MPoint E.A, PRep P P' ∧ PRep Q Q' ∧ IsBasis (2 ^ k) P' Q' ∧
        2 ^ (k - 1) • P' + 2 ^ (k - 1) • Q' ≠ 0 ∧ xc (2 ^ (k - 1) • P' + 2 ^ (k - 1) • Q') = 0 ∧
        yc (2 ^ (k - 1) • P' + 2 ^ (k - 1) • Q') = 0 ∧ xc (2 ^ (k - 1) • P') ≠ 0 ∧ xc (2 ^ (k - 1) • Q') ≠ 0 := by
  have hE := hφ.good.2
  obtain ⟨kill, full⟩ := C69_reached p hc hp h0 hφ hd
  have hF : FrobNeg p E.A := by
    obtain ⟨L, ψ, hch, rfl, -⟩ := hφ
    exact hch.frobNeg hc hp hd (h0 ▸ frobNeg_six hc hp)
  obtain ⟨P, Q, hb, P', Q', rP, rQ, bas⟩ := C42_basis_partial hE h hne hx2 hk hodd (e ▸ kill) (full k (Dvd.intro _ e))
  refine ⟨P, Q, hb, P', Q', rP, rQ, bas, ?_⟩
  obtain ⟨r, Q1, Q2, a1, a2, p1, p2, e1, e2, e3, hmul⟩ := C42_points_partial hE h hne
  obtain ⟨P2, Q2', hb2, rP2, rQ2⟩ := hmul cofactor
  rw [hb, Option.some.injEq, Prod.mk.injEq] at hb2
  obtain ⟨rfl, rfl⟩ := hb2
  obtain rfl := prep_unique rP rP2
  obtain rfl := prep_unique rQ rQ2
  obtain ⟨m, c, d', s, b1, b2, z1, z2, y1, x2, y2, hs, x0, nsq, une, -⟩ := entangledPoints_spec h
  obtain ⟨k, rfl⟩ : ∃ j, k = j + 1 := ⟨k - 1, by omega⟩
  rw [Nat.add_sub_cancel]
  have hX : ∀ {S : Pt K} {Q : MPoint E.A}, PRep S Q → S.Z = 1 → xc Q = S.X := by
    rintro S (_ | ⟨u, v, n⟩) p z
    · exact absurd (show S.Z = 0 from p) (by rw [z]; exact one_ne_zero)
    · have := p.2.1; rw [z, mul_one] at this; exact this.symm
  have nsq2 : ¬ IsSquare S2.X := by
    have hz := zeta_sq (K := K)
    have hone : (1 + zeta : K) ≠ 0 := by
      intro h1
      have : (2 : K) = 0 := by linear_combination (1 - zeta (K := K)) * h1 + hz
      exact hE.two this
    have hm0 : (m : K) ≠ 0 := by
      rintro hm; rw [hm, mul_zero, mul_zero, zero_mul] at x2; exact hx2 x2
    rintro ⟨q, hq⟩
    apply nsq
    refine ⟨q / ((1 + zeta) * m), ?_⟩
    rw [div_mul_div_comm, eq_div_iff (mul_ne_zero (mul_ne_zero hone hm0) (mul_ne_zero hone hm0)), ← hq, x2]
    linear_combination (S1.X * m * m) * hz
  obtain ⟨t1, t2, n1, n2, n12⟩ := bas.two_parts
  have m1 := hF.half_ne hc hE e (by rwa [hX p1 z1]) n1
  have m2 := hF.half_ne hc hE e (by rwa [hX p2 z2]) n2
  obtain ⟨T, hT, hTx⟩ := exists_zero E hE
  have hT2 : T + T = 0 := by rw [← two_nsmul]; exact zero_two hE.two hTx
  have : T = 2 ^ k • cofactor • Q1 + 2 ^ k • cofactor • Q2 := by
    rcases two_torsion_mem hE.two t1 t2 n1 n2 n12 hT2 with h | h | h | h
    · exact absurd h hT
    · exact absurd (h ▸ hTx) m1
    · exact absurd (h ▸ hTx) m2
    · exact h
  rw [← this]
  exact ⟨hT, hTx, zero_y hTx, m1, m2⟩

end

/-- The second abscissa does not vanish. -/
theorem entangled_second_ne {A : Fq} {S1 S2 : Pt Fq} (h : entangledPoints A = some (S1, S2)) : S2.X ≠ 0 := by
  obtain ⟨m, c, d, s, b1, b2, z1, z2, y1, x2, y2, hs, x0, nsq, une, -⟩ := entangledPoints_spec h
  rw [x2]
  have hm : (m : Fq) ≠ 0 := by
    rw [← new_natCast (F := Fr) m]
    intro hh
    refine Fr.natCast_ne m (by omega) ?_ (new_inj (hh.trans (new_zero (F := Fr)).symm)).1
    have : (31 : Nat) < festaFp.p := by decide +kernel
    omega
  have hz : (zeta : Fq) ≠ 0 := by
    intro hz
    have := zeta_sq (K := Fq)
    rw [hz, mul_zero] at this
    exact one_ne_zero (neg_eq_zero.mp this.symm)
  exact mul_ne_zero (mul_ne_zero (mul_ne_zero hz two_ne) (mul_ne_zero hm hm)) x0

/-- C85, for the code: the bases of order `2^634` of `entangled_torsion_basis` on the curves of the scheme. -/
theorem C85_code {E0 E : Crv Fq} (h0 : E0.A = 6) {φ : MPoint E0.A →+ MPoint E.A} {d : Nat} (hφ : IsIsog φ d) (hd : d % 2 = 1)
    {S1 S2 : Pt Fq} (h : entangledPoints E.A = some (S1, S2)) (hne : NotExceptional Fr E.A S1.X) :
    ∃ P Q, entangledBasis E (ofSlice BASIS_ORDER / 2 ^ L_POWER) = some (P, Q) ∧
      ∃ P' Q' : MPoint E.A, PRep P P' ∧ PRep Q Q' ∧ IsBasis (2 ^ L_POWER) P' Q' ∧
        2 ^ (L_POWER - 1) • P' + 2 ^ (L_POWER - 1) • Q' ≠ 0 ∧ xc (2 ^ (L_POWER - 1) • P' + 2 ^ (L_POWER - 1) • Q') = 0 ∧
        yc (2 ^ (L_POWER - 1) • P' + 2 ^ (L_POWER - 1) • Q') = 0 ∧
        xc (2 ^ (L_POWER - 1) • P') ≠ 0 ∧ xc (2 ^ (L_POWER - 1) • Q') ≠ 0 :=
  C85_reached festaFp.p fq_card festa_mod_four h0 hφ hd h hne (entangled_second_ne h) (by decide) (by decide +kernel)
    (by rw [← basis_order_eq]; decide +kernel)

/-- C85, for the setup of the scheme: of the points stored by `FESTACrypto::new`, neither `(l/2) Pb` nor `(l/2) Qb` is `(0, 0)`;
without any condition. -/
theorem C85_setup (chk : Bool) (fuel : Nat) (S : Crypto Fq) (h : Crypto.new (F := Fr) chk fuel festaConsts = some S)
    {Pb Qb : MPoint S.E0.A} (hPb : PRep S.Pb Pb) (hQb : PRep S.Qb Qb) :
    (S.l / 2) • Pb + (S.l / 2) • Qb ≠ 0 ∧ xc ((S.l / 2) • Pb + (S.l / 2) • Qb) = 0 ∧
      xc ((S.l / 2) • Pb) ≠ 0 ∧ xc ((S.l / 2) • Qb) ≠ 0 := by
  obtain ⟨hS, hc, hA, hE⟩ := C54_setup chk fuel S h
  have eb : festaConsts.basisOrder / 2 ^ festaConsts.lPower.toNat = ofSlice BASIS_ORDER / 2 ^ L_POWER := by decide +kernel
  have el : S.l / 2 = 2 ^ (L_POWER - 1) := by rw [hS.l_eq, hc]; decide +kernel
  have hb : entangledBasis (F := Fr) S.E0 (S.c.basisOrder / 2 ^ S.c.lPower.toNat) = some (S.Pb, S.Qb) := by
    unfold Crypto.new at h
    simp only [Option.bind_eq_bind, Option.bind_eq_some_iff] at h
    obtain ⟨E0, e0, x1, hx1, x2, hx2, x3, hx3, ⟨Pb, Qb⟩, eb, ⟨Pd1, Qd1⟩, ed, x4, hx4, x5, hx5, h⟩ := h
    rw [Option.some.injEq] at h
    subst h
    exact eb
  obtain ⟨⟨S1, S2⟩, hp⟩ := start_points
  rw [← hA] at hp
  obtain ⟨P, Q, e, P', Q', hP, hQ, -, k1, k2, -, k3, k4⟩ := C85_code hA (isIsog_id hE) (by norm_num) hp
    (by rw [hA] at hp ⊢; exact C42_start_curve hp)
  rw [hc, eb, e, Option.some.injEq, Prod.mk.injEq] at hb
  obtain ⟨b1, b2⟩ := hb
  subst b1 b2
  obtain rfl := prep_unique hP hPb
  obtain rfl := prep_unique hQ hQb
  rw [el]
  exact ⟨k1, k2, k3, k4⟩

/-- The starting curve of the code satisfies the conditions. -/
example : ∃ E : Crv Fq, Crv.new (6 : Fq) = some E ∧ ∃ P Q, entangledBasis E (ofSlice BASIS_ORDER / 2 ^ L_POWER) = some (P, Q) ∧
    ∃ P' Q' : MPoint E.A, PRep P P' ∧ PRep Q Q' ∧ xc (2 ^ (L_POWER - 1) • P') ≠ 0 ∧ xc (2 ^ (L_POWER - 1) • Q') ≠ 0 := by
  obtain ⟨E, e, hA, hE⟩ := start_curve_exists
  obtain ⟨⟨S1, S2⟩, hp⟩ := start_points
  rw [← hA] at hp
  obtain ⟨P, Q, h, P', Q', hP, hQ, -, -, -, -, h1, h2⟩ := C85_code hA (isIsog_id hE) (by norm_num) hp
    (by rw [hA] at hp ⊢; exact C42_start_curve hp)
  exact ⟨E, e, P, Q, h, P', Q', hP, hQ, h1, h2⟩

end Festa
