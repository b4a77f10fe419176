import Verif.Lemmas.SetupRun
import Verif.Props.StartCurve
import Verif.Props.Trapdoor
/-!
Property C78: `FESTACrypto::new` with the shipped constants.
-/
namespace Festa
open RootOps WeierstrassCurve.Affine

theorem f1_distinct : Factored.Distinct festaConsts.f1 := by
  refine ⟨?_, by decide +kernel⟩
  have : ∀ l ∈ N2.kPrimes, Nat.Prime l := by
    intro l hl
    simp only [N2.kPrimes, List.mem_cons, List.not_mem_nil, or_false] at hl
    rcases hl with rfl | rfl | rfl | rfl | rfl | rfl | rfl | rfl | rfl | rfl | rfl | rfl | rfl | rfl | rfl | rfl <;> norm_num
  exact fun q hq => this _ (f1_primes q hq)

/-- C78: the body of the loop of `torsion_basis` on a candidate `X` that becomes `Q` when the cofactor is cleared, for `P` of order
`D` and `Q` killed by `D`: never a panic, accepted if `P`, `Q` are a basis, rejected if not, unless `Q` is a multiple of `P`
other than `P` (see `C41_independent_fails`). -/
theorem C78_candidate {K : Type*} [Field K] [DecidableEq K] {E : Crv K} (hE : E.Good) (chk : Bool) {p x : Pt K} {P X : MPoint E.A}
    (hp : PRep p P) (hx : PRep x X) (fs : Factored) (hne : fs ≠ []) (hpr : ∀ q ∈ fs, Nat.Prime q.1.toNat) (hd : (fs.map Prod.fst).Nodup)
    (he : ∀ q ∈ fs, q.2 ≠ 0) (D : Nat) (hD : D = (fs.map fun q => q.1.toNat ^ q.2.toNat).prod) (k ep : Nat)
    (oP : addOrderOf P = D) (tQ : D • ((2 ^ ep * (k / 2 ^ ep)) • X) = 0)
    (hm : (2 ^ ep * (k / 2 ^ ep)) • X ∈ AddSubgroup.zmultiples P → (2 ^ ep * (k / 2 ^ ep)) • X = P) :
    ∃ r, basisCandidate chk E p x k fs ep = some r ∧
      (IsBasis D P ((2 ^ ep * (k / 2 ^ ep)) • X) → ∃ T, r = some T ∧ PRep T ((2 ^ ep * (k / 2 ^ ep)) • X)) ∧
      (¬IsBasis D P ((2 ^ ep * (k / 2 ^ ep)) • X) → r = none) := by
  rw [← value_eq] at hD
  subst hD
  rw [← Nat.shiftRight_eq_div_pow] at *
  obtain ⟨q0, hq0⟩ := List.exists_mem_of_ne_nil _ hne
  have h2 : 2 ≤ fs.value := by
    rw [value_eq]
    refine (hpr q0 hq0).two_le.trans (Nat.le_of_dvd ?_ ((dvd_pow_self _ ?_).trans (List.dvd_prod (List.mem_map.mpr ⟨q0, hq0, rfl⟩))))
    · rw [← value_eq]
      exact value_pos (fun p hp' => (hpr p hp').ne_zero)
    · have := he q0 hq0
      rw [Ne, ← UInt32.toNat_inj] at this
      exact this
  obtain ⟨c1, c2, c3⟩ := basisCandidate_spec hE chk hp hx fs hne ⟨hpr, hd⟩ he h2 k ep rfl oP tQ
  by_cases hb : IsBasis fs.value P ((2 ^ ep * (k >>> ep)) • X)
  · obtain ⟨T, hT, e⟩ := c3 hb
    exact ⟨_, e, fun _ => ⟨T, rfl, hT⟩, fun h => absurd hb h⟩
  · refine ⟨none, ?_, fun h => absurd h hb, fun _ => rfl⟩
    by_cases h : (2 ^ ep * (k >>> ep)) • X ∈ AddSubgroup.zmultiples P
    · exact c1 (Or.inl (hm h))
    · exact c2 h hb

/-- C78: on the starting curve `torsion_basis` returns a basis of order `d1`, at the fourth number tried at the latest. -/
theorem C78_torsion {E : Crv Fq} (hE : E.Good) (hA : E.A = 6) (chk : Bool) (fuel : Nat) (hf : 4 ≤ fuel) :
    ∃ T S, torsionBasis chk fuel E festaConsts.f1 634 = some (T, S) ∧
      ∃ P Q : MPoint E.A, PRep T P ∧ PRep S Q ∧ IsBasis festaConsts.f1.value P Q := by
  obtain ⟨n, rfl⟩ : ∃ n, fuel = n + 1 + 1 + 1 + 1 := ⟨fuel - 4, by omega⟩
  have hd := f1_distinct
  have hne : festaConsts.f1 ≠ [] := by decide +kernel
  have he : ∀ p ∈ festaConsts.f1, p.2 ≠ 0 := by decide +kernel
  have h2 : 2 ≤ festaConsts.f1.value := by decide +kernel
  have hl : ∀ p ∈ festaConsts.f1, p.1 ≠ 0 := by decide +kernel
  have hN : ∀ X : MPoint E.A, N2.kN • X = 0 := by
    have e : ofSlice BASIS_ORDER = N2.kN := by decide +kernel
    have := (C69_code hA (isIsog_id hE) (by norm_num)).1
    rwa [e] at this
  have q0 : ¬IsSquare (curveRhs E.A (1 + zeta)) := by rw [hA]; exact start_nonsquare
  have q1 : IsSquare (curveRhs E.A (1 + zeta + 1)) := by rw [hA]; exact start_square1
  have q3 : IsSquare (curveRhs E.A (1 + zeta + 1 + 1 + 1)) := by rw [hA]; exact start_square3
  refine torsionBasis_run hE chk n festaConsts.f1 hd hne he h2 _ 634 kCof rfl rfl ?_ q0 q1 q3
    fun X1 X3 k1 k3 => start_points_d1 hE hA hd hN k1 k3
  intro Y
  rw [← mul_nsmul', mul_comm, f1_cofactor]
  exact hN Y

theorem basis_not_mem {H : Type*} [AddCommGroup H] {D : Nat} (hD : D ≠ 1) {P Q : H} (hb : IsBasis D P Q) :
    Q ∉ AddSubgroup.zmultiples P := fun h => by
  obtain ⟨a, ha⟩ := AddSubgroup.mem_zmultiples_iff.mp h
  obtain ⟨-, h1⟩ := (hb a (-1)).mp (by rw [ha, neg_smul, one_smul, add_neg_cancel])
  exact hD (Int.natCast_dvd_natCast.mp (by simpa using h1 : ((D : Nat) : Int) ∣ ((1 : Nat) : Int)) |> Nat.dvd_one.mp)

/-- A case of `C78_candidate`: the fourth number tried on the starting curve, and the order of the code. -/
example : ∃ (E : Crv Fq) (p x : Pt Fq) (P X : MPoint E.A), E.Good ∧ PRep p P ∧ PRep x X ∧ addOrderOf P = festaConsts.f1.value ∧
    festaConsts.f1.value • (kCof • X) = 0 ∧ (kCof • X ∈ AddSubgroup.zmultiples P → kCof • X = P) ∧
    IsBasis festaConsts.f1.value P (kCof • X) := by
  obtain ⟨E, -, hA, hE⟩ := start_curve_exists
  have hN : ∀ X : MPoint E.A, N2.kN • X = 0 := by
    have e : ofSlice BASIS_ORDER = N2.kN := by decide +kernel
    have := (C69_code hA (isIsog_id hE) (by norm_num)).1
    rwa [e] at this
  obtain ⟨X1, -, k1⟩ := next_point hE (x := 1 + zeta + 1) (by rw [hA]; exact start_square1)
  obtain ⟨X3, p3, k3⟩ := next_point hE (x := 1 + zeta + 1 + 1 + 1) (by rw [hA]; exact start_square3)
  obtain ⟨hb, -⟩ := start_points_d1 hE hA f1_distinct hN k1 k3
  have h2 : festaConsts.f1.value ≠ 1 := by decide +kernel
  clear k1 k3 hN
  generalize kCof = c at *
  generalize festaConsts.f1.value = D at *
  obtain ⟨p, hp⟩ := exists_prep (c • X1)
  refine ⟨E, p, _, _, X3, hE, hp, p3, hb.order_left, ?_, fun h => ?_, hb⟩
  · exact hb.nsmul_right
  · exact absurd h (basis_not_mem h2 hb)

/-- `FESTACrypto::new` from its parts. -/
theorem new_some {F K : Type} [Field F] [DecidableEq F] [Field K] [DecidableEq K] [RootOps K] [CoeffOps F K] (chk : Bool)
    (fuel : Nat) (c : Consts) {E0 : Crv K} {Pb Qb Pd Qd : Pt K} (h0 : Crv.new (2 + 4 : K) = some E0)
    (x1 : (xgcdBig c.d1 (2 ^ c.lPower.toNat)).isSome = true) (x2 : (xgcdBig c.d2 (2 ^ c.lPower.toNat)).isSome = true)
    (x3 : (xgcdBig (2 ^ c.lPower.toNat) c.d2).isSome = true)
    (x4 : (xgcdBig (c.d1 * (c.d1 * c.d2) * c.m1) (2 ^ c.lPower.toNat)).isSome = true)
    (x5 : (xgcdBig (c.m2 * c.dA2 * c.d2) (2 ^ c.lPower.toNat)).isSome = true)
    (hb : entangledBasis (F := F) E0 (c.basisOrder / 2 ^ c.lPower.toNat) = some (Pb, Qb))
    (ht : torsionBasis chk fuel E0 c.f1 c.lPower.toNat = some (Pd, Qd)) :
    ∃ S : Crypto K, Crypto.new (F := F) chk fuel c = some S ∧ S.E0 = E0 ∧ S.Pb = Pb ∧ S.Qb = Qb ∧ S.Pd1 = Pd ∧ S.Qd1 = Qd := by
  rw [Option.isSome_iff_exists] at x1 x2 x3 x4 x5
  obtain ⟨y1, x1⟩ := x1
  obtain ⟨y2, x2⟩ := x2
  obtain ⟨y3, x3⟩ := x3
  obtain ⟨y4, x4⟩ := x4
  obtain ⟨y5, x5⟩ := x5
  unfold Crypto.new
  simp only [Option.bind_eq_bind, Option.bind_some, h0, x1, x2, x3, x4, x5, hb, ht]
  exact ⟨_, rfl, rfl, rfl, rfl, rfl, rfl⟩

/-- C78: `FESTACrypto::new` does not panic with the shipped constants, and the two pairs of points made are bases of order `2^634`
and `d1` of the starting curve. -/
theorem C78_setup (chk : Bool) (fuel : Nat) (hf : 4 ≤ fuel) : ∃ S : Crypto Fq, Crypto.new (F := Fr) chk fuel festaConsts = some S ∧
    (∃ Pb Qb : MPoint S.E0.A, PRep S.Pb Pb ∧ PRep S.Qb Qb ∧ IsBasis (2 ^ 634) Pb Qb) ∧
    ∃ Pd Qd : MPoint S.E0.A, PRep S.Pd1 Pd ∧ PRep S.Qd1 Qd ∧ IsBasis (festaConsts.f1.map fun q => q.1.toNat ^ q.2.toNat).prod Pd Qd := by
  obtain ⟨E0, e0, hA, hE⟩ := start_curve_exists
  have eb : festaConsts.basisOrder / 2 ^ festaConsts.lPower.toNat = ofSlice BASIS_ORDER / 2 ^ L_POWER := by decide +kernel
  obtain ⟨Pb, Qb, eP, Pb', Qb', hPb, hQb, hb⟩ := C69_start_basis hE hA
  obtain ⟨Pd, Qd, eT, Pd', Qd', hPd, hQd, hd⟩ := C78_torsion hE hA chk fuel hf
  have x1 : (xgcdBig festaConsts.d1 (2 ^ festaConsts.lPower.toNat)).isSome = true := by decide +kernel
  have x2 : (xgcdBig festaConsts.d2 (2 ^ festaConsts.lPower.toNat)).isSome = true := by decide +kernel
  have x3 : (xgcdBig (2 ^ festaConsts.lPower.toNat) festaConsts.d2).isSome = true := by decide +kernel
  have x4 : (xgcdBig (festaConsts.d1 * (festaConsts.d1 * festaConsts.d2) * festaConsts.m1)
    (2 ^ festaConsts.lPower.toNat)).isSome = true := by decide +kernel
  have x5 : (xgcdBig (festaConsts.m2 * festaConsts.dA2 * festaConsts.d2) (2 ^ festaConsts.lPower.toNat)).isSome = true := by
    decide +kernel
  have el : festaConsts.lPower.toNat = 634 := by decide +kernel
  have h6 : (2 + 4 : Fq) = 6 := by norm_num
  rw [← h6] at e0
  have eP' : entangledBasis (F := Fr) E0 (festaConsts.basisOrder / 2 ^ festaConsts.lPower.toNat) = some (Pb, Qb) := by
    rw [eb]; exact eP
  have eT' : torsionBasis chk fuel E0 festaConsts.f1 festaConsts.lPower.toNat = some (Pd, Qd) := by rw [el]; exact eT
  obtain ⟨S, hS, rfl, rfl, rfl, rfl, rfl⟩ := new_some chk fuel festaConsts e0 x1 x2 x3 x4 x5 eP' eT'
  refine ⟨S, hS, ⟨Pb', Qb', hPb, hQb, hb⟩, ⟨Pd', Qd', hPd, hQd, ?_⟩⟩
  rw [← value_eq]
  exact hd

/-- The same for the object made by a successful call. -/
theorem setup_basis (chk : Bool) (fuel : Nat) (S : Crypto Fq) (hf : 4 ≤ fuel)
    (h : Crypto.new (F := Fr) chk fuel festaConsts = some S) :
    ∃ Pd1 Qd1 : MPoint S.E0.A, PRep S.Pd1 Pd1 ∧ PRep S.Qd1 Qd1 ∧ IsBasis S.d1 Pd1 Qd1 := by
  obtain ⟨S', h', -, hd⟩ := C78_setup chk fuel hf
  obtain rfl := Option.some.inj (h'.symm.trans h)
  obtain ⟨hS, hc, -⟩ := C54_setup chk fuel _ h
  have e : S'.d1 = (festaConsts.f1.map fun q => q.1.toNat ^ q.2.toNat).prod := by rw [hS.d1_eq, hc]
  rw [e]
  exact hd

end Festa
