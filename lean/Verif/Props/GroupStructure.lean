import Verif.Lemmas.FullTorsion
import Verif.Props.StartCurve
import Mathlib.Algebra.BigOperators.Field
import Mathlib.Algebra.Order.Field.Rat
/-!
Property C71: the group of points of the curves of the scheme.  Over the field with `p²` elements it is the product of two
cyclic groups of order `p + 1`.  So there are bases of all orders the scheme uses, and few points are rejected in the search
for points of a given order.
-/
namespace Festa
open WeierstrassCurve.Affine

section
variable {K : Type*} [Field K] [DecidableEq K] [RootOps K]

/-- C71, in general: `p` a prime congruent to 3 modulo 4, `K` the field with `p²` elements, and `E` a curve that is reached
from the curve with `A = 6` by isogenies of odd degree.  For every `n` dividing `p + 1` it has a basis of order `n` and `n²`
points killed by `n`; it has `(p + 1)²` points, all of them combinations of two points of order `p + 1`. -/
theorem C71_group (p : Nat) [Fact p.Prime] [CharP K p] [Fintype K] (hc : Fintype.card K = p ^ 2) (hp : p % 4 = 3)
    {E0 E : Crv K} (h0 : E0.A = 6) {φ : MPoint E0.A →+ MPoint E.A} {d : Nat} (hφ : IsIsog φ d) (hd : d % 2 = 1) :
    (∀ n, n ∣ p + 1 → (∃ P Q : MPoint E.A, IsBasis n P Q) ∧ Nat.card {X : MPoint E.A // n • X = 0} = n ^ 2) ∧
    Nat.card (MPoint E.A) = (p + 1) ^ 2 ∧
    ∃ P Q : MPoint E.A, IsBasis (p + 1) P Q ∧ ∀ X, ∃ a b : Int, X = a • P + b • Q := by
  obtain ⟨hE0, hE⟩ := hφ.good
  have hF : FrobNeg p E.A := by
    obtain ⟨L, ψ, h, rfl, -⟩ := hφ
    exact h.frobNeg hc hp hd (h0 ▸ frobNeg_six hc hp)
  have hT : FullTors p E.A :=
    (hφ.lift hd).fullTors hE0.two hE0.disc hE.disc (by omega) (h0 ▸ fullTors_six hp)
  have bas : ∀ n, n ∣ p + 1 → ∃ P Q : MPoint E.A, IsBasis n P Q := fun n hn => hT.basis hc hE.two hE.disc hF hn
  obtain ⟨P, Q, hb⟩ := bas _ dvd_rfl
  refine ⟨fun n hn => ⟨bas n hn, ?_⟩, ?_, P, Q, hb, fun X => ?_⟩
  · obtain ⟨P, Q, hb⟩ := bas n hn
    exact card_of_basis hE.two hE.disc (fun h => by rw [h, zero_dvd_iff] at hn; omega) hb
  · rw [← card_of_basis hE.two hE.disc (Nat.succ_ne_zero p) hb]
    exact (Nat.card_congr (Equiv.subtypeUnivEquiv (hF.kill hc))).symm
  · exact span_basis hE.two hE.disc (by omega) hb (hF.kill hc X)

end

/-- C71, for the code: every curve reached from the starting curve by isogenies of odd degree has `BASIS_ORDER²` points
over the field of the code, a basis of order `BASIS_ORDER` and of every divisor `n` of it, and `n²` points killed by `n`. -/
theorem C71_code {E0 E : Crv Fq} (h0 : E0.A = 6) {φ : MPoint E0.A →+ MPoint E.A} {d : Nat} (hφ : IsIsog φ d)
    (hd : d % 2 = 1) :
    (∀ n, n ∣ ofSlice BASIS_ORDER →
      (∃ P Q : MPoint E.A, IsBasis n P Q) ∧ Nat.card {X : MPoint E.A // n • X = 0} = n ^ 2) ∧
    Nat.card (MPoint E.A) = ofSlice BASIS_ORDER ^ 2 ∧
    ∃ P Q : MPoint E.A, IsBasis (ofSlice BASIS_ORDER) P Q ∧ ∀ X, ∃ a b : Int, X = a • P + b • Q := by
  rw [basis_order_eq]
  exact C71_group festaFp.p fq_card festa_mod_four h0 hφ hd

theorem sum_inv_odd_sq (N : Nat) :
    ∑ k ∈ Finset.range N, (1 : ℚ) / (((2 * k + 3 : Nat) : ℚ) ^ 2) ≤ 1 / 4 - 1 / (4 * (N + 1)) := by
  induction N with
  | zero => norm_num
  | succ N ih =>
    rw [Finset.sum_range_succ]
    have h1 : (0 : ℚ) ≤ N := Nat.cast_nonneg N
    have h3 : (1 : ℚ) / (((2 * N + 3 : Nat) : ℚ) ^ 2) ≤ 1 / (4 * (N + 1)) - 1 / (4 * ((N + 1 : Nat) + 1)) := by
      push_cast
      rw [div_sub_div _ _ (by positivity) (by positivity), div_le_div_iff₀ (by positivity) (by positivity)]
      nlinarith
    linarith

/-- The sum of `1/l²` over odd numbers from 3 on is at most a quarter. -/
theorem sum_inv_sq (S : Finset Nat) (h : ∀ l ∈ S, l % 2 = 1 ∧ 3 ≤ l) : ∑ l ∈ S, (1 : ℚ) / (l : ℚ) ^ 2 ≤ 1 / 4 := by
  obtain ⟨N, hN⟩ : ∃ N, ∀ l ∈ S, l < N := ⟨S.sup id + 1, fun l hl => Nat.lt_succ_of_le (Finset.le_sup (f := id) hl)⟩
  have hsub : S ⊆ (Finset.range N).image (fun k => 2 * k + 3) := by
    intro l hl
    obtain ⟨h1, h2⟩ := h l hl
    refine Finset.mem_image.mpr ⟨(l - 3) / 2, Finset.mem_range.mpr ?_, by omega⟩
    have := hN l hl
    omega
  have s1 := Finset.sum_le_sum_of_subset_of_nonneg (f := fun l : Nat => (1 : ℚ) / (l : ℚ) ^ 2) hsub
    fun _ _ _ => by positivity
  have s2 := Finset.sum_image (s := Finset.range N) (g := fun k => 2 * k + 3) (f := fun l : Nat => (1 : ℚ) / (l : ℚ) ^ 2)
    (fun a _ b _ e => by dsimp only at e; omega)
  have s3 := sum_inv_odd_sq N
  have s4 : (0 : ℚ) ≤ 1 / (4 * (N + 1)) := by positivity
  rw [s2] at s1
  linarith

/-- C71, search for points: on every curve reached from the starting curve, the test in
`generate_point_order_factored_D`, for an odd order, rejects at most a quarter of the points of the curve. -/
theorem C71_search {E0 E : Crv Fq} (h0 : E0.A = 6) {φ : MPoint E0.A →+ MPoint E.A} {d : Nat} (hφ : IsIsog φ d)
    (hd : d % 2 = 1) (fs : Factored) (hne : fs ≠ []) (hp : ∀ p ∈ fs, Nat.Prime p.1.toNat ∧ p.1.toNat % 2 = 1)
    (hn : (fs.map Prod.fst).Nodup) (he : ∀ p ∈ fs, p.2 ≠ 0) (ep : Nat)
    (hdvd : 2 ^ ep * (fs.map (fun q => q.1.toNat ^ q.2.toNat)).prod ∣ ofSlice BASIS_ORDER) :
    4 * Nat.card {X : MPoint E.A // ∃ x, PRep x X ∧ ¬ ∃ T, torsionCandidate E x
      (ofSlice BASIS_ORDER / (fs.map (fun q => q.1.toNat ^ q.2.toNat)).prod) fs ep = some (some T)} ≤
    Nat.card (MPoint E.A) := by
  classical
  obtain ⟨h1, h2, -⟩ := C71_code h0 hφ hd
  have hE := hφ.good.2
  obtain ⟨c, hc⟩ := hdvd
  generalize hB : ofSlice BASIS_ORDER = B at *
  generalize hD : (fs.map (fun q => q.1.toNat ^ q.2.toNat)).prod = D at *
  have B0 : B ≠ 0 := by rw [← hB]; decide +kernel
  have D0 : 0 < D := Nat.pos_of_ne_zero (by rintro rfl; simp at hc; exact B0 hc)
  have e1 : 2 ^ ep * ((B / D) >>> ep) = B / D := by
    rw [hc, show 2 ^ ep * D * c = D * (2 ^ ep * c) by ring, Nat.mul_div_cancel_left _ D0, Nat.shiftRight_eq_div_pow,
      Nat.mul_div_cancel_left _ (by positivity)]
  have DB : D ∣ B := ⟨2 ^ ep * c, by rw [hc]; ring⟩
  have lD : ∀ q ∈ fs, q.1.toNat ∣ D := by
    intro q hq
    rw [← hD]
    refine dvd_trans (dvd_pow_self _ fun h => he q hq (UInt32.toNat_inj.mp h)) (List.dvd_prod (List.mem_map_of_mem hq))
  -- the rejected points
  have rej : ∀ X : MPoint E.A, (∃ x, PRep x X ∧ ¬ ∃ T, torsionCandidate E x (B / D) fs ep = some (some T)) →
      ∃ q ∈ fs, (B / q.1.toNat) • X = 0 := by
    rintro X ⟨x, hx, hno⟩
    obtain ⟨T, r, -, h3, h4⟩ := C41_candidate hE hx fs hne he (fun q hq h => (hp q hq).1.ne_zero (by rw [h]; rfl)) (B / D) ep
    rw [hD, e1] at h4
    rcases h4 with ⟨rfl, -⟩ | ⟨-, h4⟩
    · exact absurd ⟨T, h3⟩ hno
    · push Not at h4
      obtain ⟨q, hq, h5⟩ := h4
      refine ⟨q, hq, ?_⟩
      rw [← h5, ← mul_nsmul']
      congr 1
      obtain ⟨u, hu⟩ := lD q hq
      obtain ⟨v, hv⟩ := DB
      have q0 := (hp q hq).1.pos
      rw [hv, Nat.mul_div_cancel_left _ D0, hu, mul_assoc, Nat.mul_div_cancel_left _ q0, Nat.mul_div_cancel_left _ q0]
  have fin : Finite (MPoint E.A) := Nat.finite_of_card_ne_zero (by rw [h2]; exact pow_ne_zero 2 B0)
  have : Fintype (MPoint E.A) := Fintype.ofFinite _
  let S : Finset Nat := (fs.map fun q => q.1.toNat).toFinset
  have hS : ∀ l ∈ S, l.Prime ∧ l % 2 = 1 ∧ l ∣ B := by
    intro l hl
    obtain ⟨q, hq, rfl⟩ := List.mem_map.mp (List.mem_toFinset.mp hl)
    exact ⟨(hp q hq).1, (hp q hq).2, (lD q hq).trans DB⟩
  have c1 : Nat.card {X : MPoint E.A // ∃ x, PRep x X ∧ ¬ ∃ T, torsionCandidate E x (B / D) fs ep = some (some T)} ≤
      ∑ l ∈ S, (B / l) ^ 2 := by
    rw [Nat.card_eq_fintype_card, Fintype.card_subtype]
    refine (Finset.card_le_card (t := S.biUnion fun l => Finset.univ.filter fun X => (B / l) • X = 0) ?_).trans ?_
    · intro X hX
      obtain ⟨q, hq, h⟩ := rej X (Finset.mem_filter.mp hX).2
      exact Finset.mem_biUnion.mpr ⟨q.1.toNat, List.mem_toFinset.mpr (List.mem_map_of_mem hq),
        Finset.mem_filter.mpr ⟨Finset.mem_univ _, h⟩⟩
    · refine Finset.card_biUnion_le.trans (Finset.sum_le_sum fun l hl => ?_)
      rw [← Fintype.card_subtype, ← Nat.card_eq_fintype_card, (h1 _ (Nat.div_dvd_of_dvd (hS l hl).2.2)).2]
  rw [h2]
  refine (Nat.mul_le_mul_left 4 c1).trans ?_
  have c2 : ((∑ l ∈ S, (B / l) ^ 2 : Nat) : ℚ) = (B : ℚ) ^ 2 * ∑ l ∈ S, (1 : ℚ) / (l : ℚ) ^ 2 := by
    rw [Nat.cast_sum, Finset.mul_sum]
    refine Finset.sum_congr rfl fun l hl => ?_
    have l0 : (l : ℚ) ≠ 0 := by exact_mod_cast (hS l hl).1.ne_zero
    rw [Nat.cast_pow, Nat.cast_div (hS l hl).2.2 l0, div_pow, mul_one_div]
  have c3 := sum_inv_sq S fun l hl => ⟨(hS l hl).2.1, by
    have := (hS l hl).1.two_le
    have := (hS l hl).2.1
    omega⟩
  have c4 : (4 : ℚ) * ((∑ l ∈ S, (B / l) ^ 2 : Nat) : ℚ) ≤ (B : ℚ) ^ 2 := by
    rw [c2]
    have : (0 : ℚ) ≤ (B : ℚ) ^ 2 := by positivity
    nlinarith
  exact_mod_cast c4

/-! ### Concrete cases -/

/-- The curve of a value of the trapdoor function of the small scheme. -/
example : Nat.card (MPoint toyE2.A) = (toyP + 1) ^ 2 ∧ (∃ P Q : MPoint toyE2.A, IsBasis toyS.d1 P Q) ∧
    Nat.card {X : MPoint toyE2.A // 169 • X = 0} = 169 ^ 2 := by
  obtain ⟨φA1, φA2, L2, -, -, hkey, hb⟩ := toy_key
  obtain ⟨φ1, φ2, hout, -, -⟩ := toy_value hkey hb
  obtain ⟨h1, h2, -⟩ := C71_group toyP toy_card (by norm_num) (E0 := toyS.E0) rfl
    ((hkey.isog1.comp hkey.isog2).comp hout.isog2) (by decide +kernel)
  exact ⟨h2, (h1 _ (by decide +kernel)).1, (h1 _ (by decide +kernel)).2⟩

/-- The starting curve of the code: a basis of order `BASIS_ORDER`, and the search for points of order `d1`. -/
example : ∃ E : Crv Fq, Crv.new (6 : Fq) = some E ∧ Nat.card (MPoint E.A) = ofSlice BASIS_ORDER ^ 2 ∧
    (∃ P Q : MPoint E.A, IsBasis (festaConsts.f1.map (fun q => q.1.toNat ^ q.2.toNat)).prod P Q) ∧
    4 * Nat.card {X : MPoint E.A // ∃ x, PRep x X ∧ ¬ ∃ T, torsionCandidate E x
      (ofSlice BASIS_ORDER / (festaConsts.f1.map (fun q => q.1.toNat ^ q.2.toNat)).prod) festaConsts.f1
      festaConsts.lPower.toNat = some (some T)} ≤ Nat.card (MPoint E.A) := by
  obtain ⟨E, e, hA, hE⟩ := start_curve_exists
  obtain ⟨h1, h2, -⟩ := C71_code hA (isIsog_id hE) (by norm_num)
  have ok := festa_ok1 true
  exact ⟨E, e, h2, (h1 _ (by decide +kernel)).1, C71_search hA (isIsog_id hE) (by norm_num) festaConsts.f1 (by decide +kernel)
    (fun q hq => ⟨ok.1.1 q hq, (by decide +kernel : ∀ q ∈ festaConsts.f1, q.1.toNat % 2 = 1) q hq⟩) ok.1.2 ok.2.1
    festaConsts.lPower.toNat (by decide +kernel)⟩

end Festa
