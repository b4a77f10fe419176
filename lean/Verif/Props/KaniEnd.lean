import Verif.Props.KaniCase
/-!
Property C83: for the kernels of Kani's lemma the chain of (2,2)-isogenies ends in a product, and the denominators in its
formulas do not vanish, so that `product_isogeny` returns.
-/
namespace Festa
open WeierstrassCurve.Affine

section
variable {K : Type} [Field K] [DecidableEq K] [RootOps K]

/-- C83.  The kernel is as in C72: the images of a basis of order `2^(n+2)` under `(φ1, g γ φA)`, with
`m1² dA d1 + m2² e = 2^n`.  If the null points the chain meets before its end are those of Jacobians, with the kernel points in
the position the formulas expect, then

* the null point at the end has exactly one vanishing even constant, so it is the one of a product, and no denominator in
  the formulas of the steps vanishes (this is `ProdChain`);
* the vanishing constant is always the one with index `(3, 0)`, so that `identify_even_index` finds it and
  `compute_splitting_matrix` uses the same matrix of its table in every run;
* `product_isogeny` returns, for every strategy, and it applies one map to all the points given. -/
theorem C83_ends_in_product (p : Nat) [Fact p.Prime] [CharP K p] [Fintype K] (hcard : Fintype.card K = p ^ 2) (hp : p % 4 = 3)
    {E0 EA : Crv K} {E : EProd K} (h0 : E0.A = 6) {φ1 : MPoint E0.A →+ MPoint E.E1.A} {φA : MPoint E0.A →+ MPoint EA.A}
    {γ : MPoint EA.A →+ MPoint E.E2.A} {d1 dA e : Nat} (i1 : IsIsog φ1 d1) (iA : IsIsog φA dA) (iγ : IsIsog γ e)
    (od1 : d1 % 2 = 1) (odA : dA % 2 = 1) (oe : e % 2 = 1) {m1 m2 n g : Nat} (om1 : m1 % 2 = 1) (om2 : m2 % 2 = 1) (h3 : 3 ≤ n)
    (norm : m1 ^ 2 * dA * d1 + m2 ^ 2 * e = 2 ^ n) (hg : g * (m2 * e) ≡ m1 * d1 [MOD 2 ^ n])
    {p0 q0 : MPoint E0.A} (hb : IsBasis (2 ^ (n + 2)) p0 q0) {P Q : CPt K}
    (rp1 : PRep P.P1 (φ1 p0)) (rp2 : PRep P.P2 (g • γ (φA p0))) (rq1 : PRep Q.P1 (φ1 q0)) (rq2 : PRep Q.P2 (g • γ (φA q0)))
    {O T1 T2 : ThPt K}
    (hgl : gluingIsogeny E (E.doubleIter P (n - 1)) (E.doubleIter Q (n - 1)) [P, Q] = (ThStr.new O, [T1, T2]))
    (hc : JacChain (n - 1) O T1 T2) :
    ProdChain (n - 1) O T1 T2 ∧
    (∃ O' : ThPt K,
      (∀ I : List (ThPt K), ∃ J, naiveLoop n I.length (n - 1) (ThStr.new O) (I ++ [T1, T2]) = some (ThStr.new O', J)) ∧
      (∀ c i, Even (parity c i) → (evenConst O' c i = 0 ↔ (c, i) = (3, 0))) ∧ identifyEvenIndex O' = (3, 0) ∧
      splittingMatrix O' = some ⟨⟨1, 1, 1, 1⟩, ⟨1, -1, 1, -1⟩, ⟨1, 1, -1, -1⟩, ⟨-1, 1, 1, -1⟩⟩) ∧
    ∃ (E3 E4 : Crv K) (F : CPt K → CPt K), E3.Good ∧ E4.Good ∧
      ∀ (S : List Nat) (images : List (CPt K)), IsStrategy n S → productIsogeny E P Q images n S = some (⟨E3, E4⟩, images.map F) := by
  have hF0 : FrobNeg p E0.A := h0 ▸ frobNeg_six hcard hp
  obtain ⟨gE0, g1⟩ := i1.good
  obtain ⟨-, gEA⟩ := iA.good
  obtain ⟨-, g2⟩ := iγ.good
  obtain ⟨-, β', cβ, sβ, -⟩ := i1.lift_dual hcard hp od1 hF0
  obtain ⟨hFA, α', cα, sα, -⟩ := iA.lift_dual hcard hp odA hF0
  obtain ⟨-, γ', cγ, sγ, -⟩ := iγ.lift_dual hcard hp oe hFA
  have cop : ∀ {d : Nat}, d % 2 = 1 → d.Coprime (2 ^ (n + 2)) := fun h => two_pow_coprime h
  have pos : 1 ≤ 2 ^ (n + 2) := Nat.one_le_two_pow
  have bA := hb.map (iA.inj pos odA (cop odA).symm)
  have o12 : ∀ {a b : Nat}, a % 2 = 1 → b % 2 = 1 → a * b % 2 = 1 := fun ha hb => by rw [Nat.mul_mod, ha, hb]
  have og : g % 2 = 1 := by
    have h := hg.of_dvd (dvd_pow_self 2 (show n ≠ 0 by omega))
    by_contra hg0
    have : g % 2 = 0 := by omega
    rw [Nat.ModEq, o12 om1 od1, Nat.mul_mod, this, zero_mul, Nat.zero_mod] at h
    exact absurd h (by norm_num)
  have b1 := hb.map (i1.inj pos od1 (cop od1).symm)
  have b2 := (bA.map (iγ.inj pos oe (cop oe).symm)).smul_unit (cop og)
  obtain ⟨hpc, O', hloop, hone⟩ : ProdChain (n - 1) O T1 T2 ∧ ∃ O' : ThPt K,
      (∀ I : List (ThPt K), ∃ J, naiveLoop n I.length (n - 1) (ThStr.new O) (I ++ [T1, T2]) = some (ThStr.new O', J)) ∧
      ∀ c i, Even (parity c i) → (evenConst O' c i = 0 ↔ (c, i) = (3, 0)) := by
    classical
    generalize hσ : algebraMap K (AlgebraicClosure K) = σ at *
    have hb4 : IsBasis (2 ^ n) (4 • mapHom σ p0) (4 • mapHom σ q0) := by
      have := IsBasis.nsmul (m := 4) (n := 2 ^ n) (by rw [show 4 * 2 ^ n = 2 ^ (n + 2) by rw [pow_add]; ring]; exact hb) (by norm_num)
      rw [← map_nsmul, ← map_nsmul]
      exact this.map fun S _ h0 => mapPt_inj σ h0
    have dia : Diamond β' α' γ' d1 dA e m1 m2 n g (4 • mapHom σ p0) (4 • mapHom σ q0) :=
      ⟨(gE0.up σ).disc, (gEA.up σ).disc, sβ, sα, sγ, norm, by omega, o12 (o12 om1 odA) od1, o12 om2 oe, hg, hb4⟩
    have kβ : ∀ p, 2 • mapHom σ (φ1 p) = β' (2 • mapHom σ p) := fun p => by rw [map_nsmul, cβ]
    have kγ : ∀ p, 2 • mapHom σ (g • γ (φA p)) = g • γ' (α' (2 • mapHom σ p)) := fun p => by
      rw [map_nsmul α', map_nsmul γ', cα, cγ, map_nsmul, smul_comm]
    obtain ⟨a, b⟩ := jac_prod σ g1 g2 rp1 rp2 rq1 rq2 b1 b2 h3 hgl hc dia (mul_nsmul' _ 2 2).symm (mul_nsmul' _ 2 2).symm (kβ p0) (kγ p0) (kβ q0) (kγ q0)
    exact ⟨a, _, b⟩
  have hid : identifyEvenIndex O' = (3, 0) := identify_eq (by decide) hone
  refine ⟨hpc, ⟨O', hloop, hone, hid, by rw [splittingMatrix, hid]; rfl⟩, ?_⟩
  obtain ⟨E3, E4, F, o, o', U, V, h, -, hF⟩ := prodNet g1 g2 rp1 rp2 rq1 rq2 b1 b2 h3 hgl hpc
  refine ⟨E3, E4, F, h.good3, h.good4, fun S images hS => ?_⟩
  rw [C47_strategy_equals_naive g1 g2 rp1 rp2 rq1 rq2 b1 b2 hgl (RegChain.ok _ (ProdChain.reg _ hpc)) hS images, hF]

end

/-- A case of C83: the small version of the scheme. -/
example : ∃ (E3 E4 : Crv Toy) (F : CPt Toy → CPt Toy), E3.Good ∧ E4.Good ∧ ∀ (S : List Nat) (images : List (CPt Toy)), IsStrategy 23 S →
    productIsogeny ⟨toyE1, toyE2⟩ ⟨toyR1, toygP⟩ ⟨toyS1, toygQ⟩ images 23 S = some (⟨E3, E4⟩, images.map F) := by
  obtain ⟨φA1, φA2, L2, -, -, hkey, hb⟩ := toy_key
  obtain ⟨φ1, φ2, hout, -, -⟩ := toy_value hkey hb
  obtain ⟨kP, kQ⟩ := kernel_second toyS toy_sound toyPk toySk toyM toyOut toy_b hkey hout toy_glue.1 toy_glue.2.1 toy_glue.2.2.1
    toy_glue.2.2.2.1 toy_glue.2.2.2.2.1 toy_glue.2.2.2.2.2
  have kR : PRep toyR1 (φ1 (toyM.b11 • tPb)) := by rw [map_nsmul]; exact hout.r1
  have kS : PRep toyS1 (φ1 (toyM.b22 • tQb)) := by rw [map_nsmul]; exact hout.s1
  exact (C83_ends_in_product toyP toy_card (by norm_num) (E0 := toyS.E0) (EA := toySk.EA')
    (E := ⟨toyOut.E1, toyOut.E2⟩) rfl hout.isog1 hkey.isog1 (hkey.isog2.comp hout.isog2) (by decide +kernel) (by decide +kernel)
    (by decide +kernel) (m1 := 1) (m2 := 5) (n := 23) (g := toyS.g2) (by norm_num) (by norm_num) (by norm_num) (by decide +kernel)
    (by decide +kernel) (p0 := toyM.b11 • tPb) (q0 := toyM.b22 • tQb)
    (IsBasis.smul_units (n := 2 ^ (23 + 2)) toy_b (by decide +kernel) (by decide +kernel))
    (P := ⟨toyR1, toygP⟩) (Q := ⟨toyS1, toygQ⟩) kR kP kS kQ toy_glue_eq toyChain21.jac).2.2

end Festa
