import Verif.Lemmas.PairingTest
import Verif.Lemmas.AxisFree
import Verif.Lemmas.WeilNondeg
import Verif.Lemmas.TorsionSpan
import Verif.Spec.TestField127
/-!
Properties C39 and C66 (`bidlp`), C44 and C65 (`weil_pairing`).
-/
namespace Festa
open WeierstrassCurve.Affine
variable {K : Type*} [Field K] [DecidableEq K]

/-! ### C44 -/

/-- C44: whatever the inputs, exchanging the points inverts the pairing, and its value is not zero. -/
theorem C44_antisymmetric (chk : Bool) (E : Crv K) (P Q : Pt K) (n : Nat) (w : K)
    (h : weilPairing chk E P Q n = some w) :
    w ≠ 0 ∧ weilPairing chk E Q P n = some w⁻¹ := by
  unfold weilPairing at h ⊢
  rcases h1 : tatePairing chk E P Q n with _ | x
  · rw [h1] at h; simp at h
  rcases h2 : tatePairing chk E Q P n with _ | y
  · rw [h1, h2] at h; simp at h
  have x0 := tate_ne_zero h1
  have y0 := tate_ne_zero h2
  rw [h1, h2] at h
  dsimp only at h ⊢
  by_cases hb : n.testBit 0 = true
  · rw [if_pos hb, Option.some.injEq] at h ⊢
    subst h
    exact ⟨div_ne_zero (neg_ne_zero.mpr x0) y0, by field_simp⟩
  · rw [if_neg hb, Option.some.injEq] at h ⊢
    subst h
    exact ⟨div_ne_zero x0 y0, by rw [inv_div]⟩

/-- The Miller value itself is never zero either: a vanishing value is replaced by one. -/
theorem C44_tate_nonzero (chk : Bool) (E : Crv K) (P Q : Pt K) (n : Nat) (f : K)
    (h : tatePairing chk E P Q n = some f) : f ≠ 0 := tate_ne_zero h

/-- Without debug assertions the pairing is defined for every pair of points and every order but
zero, where the length of the order underflows. -/
theorem C44_total (E : Crv K) (P Q : Pt K) (n : Nat) :
    weilPairing false E P Q n = none ↔ n = 0 := by
  constructor
  · intro h
    by_contra hn
    obtain ⟨x, hx⟩ := tate_release E P Q n hn
    obtain ⟨y, hy⟩ := tate_release E Q P n hn
    unfold weilPairing at h
    rw [hx, hy] at h
    dsimp only at h
    split at h <;> cases h
  · rintro rfl
    unfold weilPairing tatePairing
    simp

/-- The pairing of a point with itself is `(-1)^n`. -/
theorem C44_self (chk : Bool) (E : Crv K) (P : Pt K) (n : Nat) (w : K)
    (h : weilPairing chk E P P n = some w) : w = (-1) ^ n := weil_self h

/-- So the pairing is not alternating for odd orders: every point, and every odd order, has
self-pairing `-1` instead of `1`. -/
theorem C44_alternating_fails (E : Crv K) (h2 : (2 : K) ≠ 0) (P : Pt K) (n : Nat) (hn : n % 2 = 1) :
    weilPairing false E P P n = some (-1) ∧ (-1 : K) ≠ 1 := by
  refine ⟨?_, fun h => h2 (by linear_combination -h)⟩
  rcases h : weilPairing false E P P n with _ | w
  · have := (C44_total E P P n).mp h
    omega
  · rw [weil_self h, (Nat.odd_iff.mpr hn).neg_one_pow]

/-- Additivity in the second argument, for independent points of `E[n]` whose multiples do not meet
infinity before the end of the double-and-add chain. -/
theorem C44_additive {E : Crv K} (hE : E.Good) (chk : Bool) {p x y s : Pt K} {P X Y : MPoint E.A}
    (n : Nat) (hn : 1 ≤ n) (hp : PRep p P) (hx : PRep x X) (hy : PRep y Y) (hs : PRep s (X + Y))
    (tP : n • P = 0) (tX : n • X = 0) (tY : n • Y = 0) (cP : ChainFree n P) (cX : ChainFree n X)
    (cY : ChainFree n Y) (cS : ChainFree n (X + Y)) (dX : ND P X) (dY : ND P Y) (dS : ND P (X + Y)) :
    ∃ u v, weilPairing chk E p x n = some u ∧ weilPairing chk E p y n = some v ∧
      weilPairing chk E p s n = some (u * v) := by
  refine ⟨_, _, weilPairing_spec hE chk hp hx n hn tP tX cP cX dX,
    weilPairing_spec hE chk hp hy n hn tP tY cP cY dY, ?_⟩
  rw [weilPairing_spec hE chk hp hs n hn tP (by rw [nsmul_add, tX, tY, add_zero]) cP cS dS,
    we_add hn dX dY dS tP tX tY]

/-- On a basis of order `n`: the value is an `n`-th root of unity, and pairing `aP + bQ` with `Q` and
with `-P` gives the powers `a` and `b` of `e(P,Q)`. -/
theorem C44_on_basis {E : Crv K} (hE : E.Good) (chk : Bool) {p q r : Pt K} {P Q : MPoint E.A}
    {n a b : Nat} (hn : 2 ≤ n) (hb : IsBasis n P Q) (hp : PRep p P) (hq : PRep q Q)
    (hr : PRep r (a • P + b • Q)) (hP : AxisFree n P (a • P + b • Q)) (hQ : AxisFree n Q (a • P + b • Q))
    (hc : ChainFree n (a • P + b • Q)) :
    ∃ w, weilPairing chk E p q n = some w ∧ w ^ n = 1 ∧
      weilPairing chk E r q n = some (w ^ a) ∧ weilPairing chk E r p.neg n = some (w ^ b) :=
  ⟨_, bidlp_pairings_free hE chk hn hb hp hq hr hP hQ hc⟩

/-- The last hypothesis holds for all points of order `n`. -/
theorem C44_chain {H : Type*} [AddCommGroup H] {n : Nat} {P : H} (hn : 1 ≤ n)
    (h : addOrderOf P = n) : ChainFree n P := chainFree_of_order hn h

/-- A point of order `n` and a point of `E[n]` outside the group it generates that are not a basis of
`E[n]` have a pairing of order smaller than `n`. -/
theorem C44_degenerate {E : Crv K} (hE : E.Good) (chk : Bool) {p q : Pt K} {P Q : MPoint E.A} {n : Nat}
    (hn : 1 ≤ n) (hp : PRep p P) (hq : PRep q Q) (tP : n • P = 0) (cP : ChainFree n P)
    (oQ : addOrderOf Q = n) (hPQ : ND P Q) (hb : ¬IsBasis n P Q) :
    ∃ w m, weilPairing chk E p q n = some w ∧ m ∣ n ∧ m ≠ n ∧ w ^ m = 1 := by
  obtain ⟨m, h1, h2, h3⟩ := we_of_not_basis hE.two hE.disc hn tP oQ hPQ.1 hb
  refine ⟨_, m, weilPairing_spec hE chk hp hq n hn tP (by rw [← oQ]; exact addOrderOf_nsmul_eq_zero Q)
    cP (chainFree_of_order hn oQ) hPQ, h1, h2, ?_⟩
  have := we_symm (n := n) hn hPQ
  rw [eq_inv_of_mul_eq_one_left this, inv_pow, h3, inv_one]

/-! ### C65 -/

/-- C65: the pairing of a basis of order `n` has the exact order `n`. -/
theorem C65_order {E : Crv K} (hE : E.Good) (chk : Bool) {p q : Pt K} {P Q : MPoint E.A} {n : Nat}
    (hn : 2 ≤ n) (hp : PRep p P) (hq : PRep q Q) (hb : IsBasis n P Q) :
    ∃ w, weilPairing chk E p q n = some w ∧ orderOf w = n :=
  ⟨_, weilPairing_spec hE chk hp hq n (by omega) hb.nsmul_left hb.nsmul_right
    (chainFree_of_order (by omega) hb.order_left) (chainFree_of_order (by omega) hb.order_right)
    (hb.nd hn), hb.we_orderOf hE.two hE.disc hn⟩

/-- C65, the test: of two points of order `n`, none in the group of the other, the order of the pairing
decides whether they are a basis. -/
theorem C65_test {E : Crv K} (hE : E.Good) (chk : Bool) {p q : Pt K} {P Q : MPoint E.A} {n : Nat}
    (hn : 2 ≤ n) (hp : PRep p P) (hq : PRep q Q) (oP : addOrderOf P = n) (oQ : addOrderOf Q = n)
    (hPQ : ND P Q) :
    ∃ w, weilPairing chk E p q n = some w ∧ w ^ n = 1 ∧ (orderOf w = n ↔ IsBasis n P Q) := by
  by_cases hb : IsBasis n P Q
  · obtain ⟨w, h1, h2⟩ := C65_order hE chk hn hp hq hb
    exact ⟨w, h1, by rw [← h2]; exact pow_orderOf_eq_one w, iff_of_true h2 hb⟩
  · obtain ⟨w, m, h1, h2, h3, h4⟩ := C44_degenerate hE chk (by omega) hp hq
      (by rw [← oP]; exact addOrderOf_nsmul_eq_zero P) (chainFree_of_order (by omega) oP) oQ hPQ hb
    refine ⟨w, h1, ?_, iff_of_false (fun h => h3 ?_) hb⟩
    · obtain ⟨c, rfl⟩ := h2
      rw [pow_mul, h4, one_pow]
    · exact Nat.dvd_antisymm h2 (by rw [← h]; exact orderOf_dvd_of_pow_eq_one h4)

/-! ### C39 -/

/-- C39, for points for which the Miller loops meet neither infinity nor a zero: `bidlp` returns the coordinates of
`R = aP + bQ` in the basis `P`, `Q`.  Points with two non-zero coordinates meet no zero; for a point on one of the axes see
also `C39_bidlp_axis`, `C39_bidlp_axis_two` and `C39_axis_fails`. -/
theorem C39_bidlp_partial {E : Crv K} (hE : E.Good) (chk : Bool) {p q r : Pt K} {P Q : MPoint E.A}
    (fs : Factored) (hf : fs.Ok chk) (a b : Nat) (hb : IsBasis fs.value P Q) (hp : PRep p P)
    (hq : PRep q Q) (hr : PRep r (a • P + b • Q)) (hP : AxisFree fs.value P (a • P + b • Q))
    (hQ : AxisFree fs.value Q (a • P + b • Q)) (hc : ChainFree fs.value (a • P + b • Q))
    (ePQ : Option K) (he : ePQ = none ∨ ePQ = weilPairing chk E p q fs.value) :
    bidlp chk E r p q fs ePQ = some (a % fs.value, b % fs.value) := by
  have hpos := value_pos (fs := fs) (fun p hp => (hf.1.1 p hp).ne_zero)
  have hn := hb.two_le_of_free hpos.ne' (hb.tors_nat a b) hP
  obtain ⟨h1, h2, h3, h4⟩ := bidlp_pairings_free hE chk hn hb hp hq hr hP hQ hc
  have ho := hb.we_orderOf hE.two hE.disc hn
  rw [h1] at he
  unfold bidlp
  dsimp only
  rw [h3, h4]
  rcases he with rfl | rfl
  · rw [h1]
    dsimp only
    rw [phDlp_spec hf _ ho, phDlp_spec hf _ ho]
  · dsimp only
    rw [phDlp_spec hf _ ho, phDlp_spec hf _ ho]

/-- The same with the pairing value of another basis passed in, as `festa.rs:359-361` does: the
coordinates come out multiplied by the logarithm of the one value in the other. -/
theorem C39_bidlp_scaled {E : Crv K} (hE : E.Good) (chk : Bool) {p q r : Pt K} {P Q : MPoint E.A}
    (fs : Factored) (hf : fs.Ok chk) (a b c : Nat) (hb : IsBasis fs.value P Q) (hp : PRep p P)
    (hq : PRep q Q) (hr : PRep r (a • P + b • Q)) (hP : AxisFree fs.value P (a • P + b • Q))
    (hQ : AxisFree fs.value Q (a • P + b • Q)) (hc : ChainFree fs.value (a • P + b • Q)) (v : K) (hv : orderOf v = fs.value)
    (hw : weilPairing chk E p q fs.value = some (v ^ c)) :
    bidlp chk E r p q fs (some v) = some (c * a % fs.value, c * b % fs.value) := by
  have hpos := value_pos (fs := fs) (fun p hp => (hf.1.1 p hp).ne_zero)
  have hn := hb.two_le_of_free hpos.ne' (hb.tors_nat a b) hP
  obtain ⟨h1, h2, h3, h4⟩ := bidlp_pairings_free hE chk hn hb hp hq hr hP hQ hc
  rw [h1, Option.some.injEq] at hw
  unfold bidlp
  dsimp only
  rw [h3, h4, hw, ← pow_mul, ← pow_mul]
  dsimp only
  rw [phDlp_spec hf _ hv, phDlp_spec hf _ hv]

/-- C39 on the first axis: the coordinates of `R = aP` are found if the double-and-add chains of `P`
and of `R` do not run into `±R` and `±P`. -/
theorem C39_bidlp_axis {E : Crv K} (hE : E.Good) (chk : Bool) {p q r : Pt K} {P Q : MPoint E.A}
    (fs : Factored) (hf : fs.Ok chk) (a : Nat) (hb : IsBasis fs.value P Q) (hp : PRep p P)
    (hq : PRep q Q) (hr : PRep r (a • P)) (hc : ChainFree fs.value (a • P))
    (h1 : OffChain fs.value P (a • P)) (h2 : OffChain fs.value (a • P) P)
    (ePQ : Option K) (he : ePQ = none ∨ ePQ = weilPairing chk E p q fs.value) :
    bidlp chk E r p q fs ePQ = some (a % fs.value, 0) := by
  have a0 := (h1 _ (InChain.self _)).1
  have ha : ¬fs.value ∣ a := by
    rintro ⟨c, rfl⟩
    apply a0
    rw [mul_comm, mul_nsmul', hb.nsmul_left, nsmul_zero]
  have hn := two_le_value hf ha
  obtain ⟨w1, -, w3⟩ := bidlp_pairing_a (b := 0) hE chk hn hb hp hq
    (by rwa [zero_nsmul, add_zero]) ha (by rwa [zero_nsmul, add_zero])
  exact bidlp_of_pairings hf w1 (hb.we_orderOf hE.two hE.disc hn) he w3
    (b := 0)
    (by rw [pow_zero]; exact weil_axis_neg hE chk hn hb hp hr hc h1 h2) (by rw [Nat.zero_mod])

/-- C39 on the second axis. -/
theorem C39_bidlp_axis' {E : Crv K} (hE : E.Good) (chk : Bool) {p q r : Pt K} {P Q : MPoint E.A}
    (fs : Factored) (hf : fs.Ok chk) (b : Nat) (hb : IsBasis fs.value P Q) (hp : PRep p P)
    (hq : PRep q Q) (hr : PRep r (b • Q)) (hc : ChainFree fs.value (b • Q))
    (h1 : OffChain fs.value Q (b • Q)) (h2 : OffChain fs.value (b • Q) Q)
    (ePQ : Option K) (he : ePQ = none ∨ ePQ = weilPairing chk E p q fs.value) :
    bidlp chk E r p q fs ePQ = some (0, b % fs.value) := by
  have b0 := (h1 _ (InChain.self _)).1
  have hb0 : ¬fs.value ∣ b := by
    rintro ⟨c, rfl⟩
    apply b0
    rw [mul_comm, mul_nsmul', hb.nsmul_right, nsmul_zero]
  have hn := two_le_value hf hb0
  have h1' : ¬(fs.value : Int) ∣ 1 := by exact_mod_cast not_dvd_lt (a := 1) le_rfl (by omega)
  have w1 := weilPairing_spec hE chk hp hq fs.value (by omega) hb.nsmul_left hb.nsmul_right
    (chainFree_of_order (by omega) hb.order_left) (chainFree_of_order (by omega) hb.order_right)
    (by have := hb.symm.indep.nd1 (a := 1) (b := 0) h1'; simpa using this)
  refine bidlp_of_pairings (a := 0) hf w1 (hb.we_orderOf hE.two hE.disc hn) he
    (by rw [pow_zero]; exact weil_axis hE chk hn hb.symm hq hr hc h1 h2)
    (bidlp_pairing_b (a := 0) hE chk hn hb hp (by rwa [zero_nsmul, zero_add]) hb0
      (by rwa [zero_nsmul, zero_add])) ?_
  rw [Nat.zero_mod]

/-- C39 as `recover_diagB` uses it (festa.rs:429-436): for the order `2^e` every odd multiple of `P` is
found on the axis, `P` and `-P` included. -/
theorem C39_bidlp_axis_two {E : Crv K} (hE : E.Good) (chk : Bool) {p q r : Pt K} {P Q : MPoint E.A}
    (e : UInt32) (he0 : e ≠ 0) (a : Nat) (ha : a % 2 = 1) (hb : IsBasis (2 ^ e.toNat) P Q)
    (hp : PRep p P) (hq : PRep q Q) (hr : PRep r (a • P))
    (ePQ : Option K) (he : ePQ = none ∨ ePQ = weilPairing chk E p q (2 ^ e.toNat)) :
    bidlp chk E r p q [(2, e)] ePQ = some (a % 2 ^ e.toNat, 0) := by
  have hv : Factored.value [(2, e)] = 2 ^ e.toNat := by simp [Factored.value]
  have hf : Factored.Ok chk [(2, e)] := by
    refine ⟨⟨?_, by simp⟩, ?_, ?_⟩
    · intro p hp; rw [List.mem_singleton] at hp; subst hp; exact Nat.prime_two
    · intro p hp; rw [List.mem_singleton] at hp; subst hp; exact he0
    · intro h p hp; rw [List.mem_singleton] at hp; subst hp; show (2 : UInt32).toNat ≤ _; decide
  have e1 : 1 ≤ e.toNat := Nat.one_le_iff_ne_zero.mpr (fun h => he0 (UInt32.toNat_inj.mp h))
  rw [← hv] at he
  have ha' : ¬Factored.value [(2, e)] ∣ a := by
    rw [hv]
    intro h
    have : 2 ∣ a := dvd_trans (dvd_pow_self 2 (by omega)) h
    omega
  have hn := two_le_value hf ha'
  have oR : addOrderOf (a • P) = 2 ^ e.toNat := by
    rw [addOrderOf_nsmul' _ (by omega), hb.order_left]
    have : Nat.gcd (2 ^ e.toNat) a = 1 := by
      rw [← Nat.coprime_iff_gcd_eq_one]
      exact Nat.Coprime.pow_left _ (Nat.coprime_two_left.mpr (Nat.odd_iff.mpr ha))
    rw [this, Nat.div_one]
  obtain ⟨w1, -, w3⟩ := bidlp_pairing_a (n := Factored.value [(2, e)]) (b := 0) hE chk hn
    (by rw [hv]; exact hb) hp hq (by rwa [zero_nsmul, add_zero]) ha'
    (by rw [zero_nsmul, add_zero, hv]; exact chainFree_of_order (Nat.one_le_two_pow) oR)
  have := bidlp_of_pairings (b := 0) hf w1 (by
      rw [hv] at hn ⊢; exact hb.we_orderOf hE.two hE.disc hn) he w3
    (by rw [pow_zero, hv]; exact weil_axis_two hE chk e1 hb ha hp hr) rfl
  rw [this, hv, Nat.zero_mod]

/-- On the axes the claim fails for every odd order: `bidlp` of `R = Q` itself panics (`bsgs` finds no
solution), since the self-pairing comes out as `-1`. -/
theorem C39_axis_fails (chk : Bool) (E : Crv K) (h2 : (2 : K) ≠ 0) (p q : Pt K) (fs : Factored)
    (hf : fs.Ok chk) (hne : fs ≠ []) (hodd : ∀ p ∈ fs, p.1.toNat % 2 = 1) (v : K)
    (hv : v ^ fs.value = 1) : bidlp chk E q p q fs (some v) = none := by
  have ho : Odd fs.value := by
    rw [value_eq]
    refine List.prod_induction Odd (fun a b => Odd.mul) odd_one ?_
    intro x hx
    obtain ⟨p, hp, rfl⟩ := List.mem_map.mp hx
    exact (Nat.odd_iff.mpr (hodd p hp)).pow
  unfold bidlp
  dsimp only
  rcases h1 : weilPairing chk E q q fs.value with _ | w
  · rfl
  · have := weil_self h1
    rw [ho.neg_one_pow] at this
    subst this
    rcases weilPairing chk E q p.neg fs.value with _ | w'
    · rfl
    · dsimp only
      rw [phDlp_neg_one hf hne hodd h2 v hv]

/-! ### C66 -/

/-- C66: the points killed by `n` are the combinations of a basis of order `n`. -/
theorem C66_span {E : Crv K} (hE : E.Good) {n : Nat} (hn : 1 ≤ n) {P Q : MPoint E.A} (hb : IsBasis n P Q)
    (X : MPoint E.A) : n • X = 0 ↔ ∃ a b : Nat, a < n ∧ b < n ∧ X = a • P + b • Q := by
  constructor
  · intro h
    obtain ⟨a, b, rfl⟩ := span_basis hE.two hE.disc hn hb h
    have hn' : (n : Int) ≠ 0 := by omega
    have red : ∀ (c : Int) (Y : MPoint E.A), n • Y = 0 → c • Y = (c % n).toNat • Y := by
      intro c Y hY
      rw [← natCast_zsmul, Int.toNat_of_nonneg (Int.emod_nonneg _ hn')]
      conv_lhs => rw [← Int.emod_add_mul_ediv c n, add_zsmul, mul_comm, mul_zsmul, natCast_zsmul, hY,
        zsmul_zero, add_zero]
    have lt : ∀ c : Int, (c % n).toNat < n := fun c => by
      have := Int.emod_lt_of_pos c (show (0 : Int) < n by omega)
      have := Int.emod_nonneg c hn'
      omega
    exact ⟨_, _, lt a, lt b, by rw [red a P hb.nsmul_left, red b Q hb.nsmul_right]⟩
  · rintro ⟨a, b, -, -, rfl⟩
    exact hb.indep.tors a b

/-- C66: `bidlp` finds coordinates of every point that is killed by the order and for which the Miller loops meet neither
infinity nor, for a point on an axis, a zero; nothing is assumed about how the point arose. -/
theorem C66_bidlp_partial {E : Crv K} (hE : E.Good) (chk : Bool) {p q r : Pt K} {P Q R : MPoint E.A}
    (fs : Factored) (hf : fs.Ok chk) (hb : IsBasis fs.value P Q) (hp : PRep p P) (hq : PRep q Q)
    (hr : PRep r R) (tR : fs.value • R = 0) (h1 : AxisFree fs.value P R)
    (h2 : AxisFree fs.value Q R) (hc : ChainFree fs.value R)
    (ePQ : Option K) (he : ePQ = none ∨ ePQ = weilPairing chk E p q fs.value) :
    ∃ a b, bidlp chk E r p q fs ePQ = some (a, b) ∧ a < fs.value ∧ b < fs.value ∧ R = a • P + b • Q := by
  have hpos := value_pos (fs := fs) (fun p hp => (hf.1.1 p hp).ne_zero)
  obtain ⟨a, b, ha, hb', rfl⟩ := (C66_span hE hpos hb R).mp tR
  refine ⟨a, b, ?_, ha, hb', rfl⟩
  have := C39_bidlp_partial hE chk fs hf a b hb hp hq hr h1 h2 hc ePQ he
  rwa [Nat.mod_eq_of_lt ha, Nat.mod_eq_of_lt hb'] at this

/-! ### Concrete cases -/

theorem ok59 : Factored.Ok true [(59, 1)] := ⟨⟨by decide +kernel, by decide⟩, by decide, by decide⟩

example : ∃ r, bidlp true e59 r p59 q59 [(59, 1)] none = some (17, 30) := by
  obtain ⟨P, hp⟩ := p59_ex
  obtain ⟨Q, hq⟩ := q59_ex
  have hb := basis59 hp hq
  have hv : Factored.value [(59, 1)] = 59 := by decide
  obtain ⟨r, hr⟩ := exists_prep (17 • P + 30 • Q)
  have ho : addOrderOf (17 • P + 30 • Q) = 59 := by
    refine addOrderOf_eq_prime (hp := ⟨by norm_num⟩) ?_ ?_
    · have := hb.indep.tors 17 30
      exact this
    · intro h
      have := ((hb 17 30).mp h).1
      norm_num at this
  have := C39_bidlp_partial e59_good true [(59, 1)] ok59 17 30 (by rw [hv]; exact hb) hp hq hr
    (by rw [hv]; exact hb.off_left (by decide)) (by rw [hv]; exact hb.off_right (by decide))
    (by rw [hv]; exact C44_chain (by decide) ho)
    none (Or.inl rfl)
  rw [hv] at this
  exact ⟨r, this⟩

example : bidlp true e59 q59 p59 q59 [(59, 1)] (some 7616) = none :=
  C39_axis_fails true e59 (by decide +kernel) p59 q59 [(59, 1)] ok59 (by decide) (by decide) 7616
    (by decide +kernel)

example : weilPairing true e59 q59 p59 59 = some 7616⁻¹ :=
  (C44_antisymmetric true e59 p59 q59 59 7616 weil59).2

/-- On the first axis, with the multiples of `P` and `5 P` that the chain of 59 meets excluded. -/
example : ∃ r, bidlp true e59 r p59 q59 [(59, 1)] none = some (5, 0) := by
  obtain ⟨P, hp⟩ := p59_ex
  obtain ⟨Q, hq⟩ := q59_ex
  have hb := basis59 hp hq
  have hv : Factored.value [(59, 1)] = 59 := by decide
  obtain ⟨r, hr⟩ := exists_prep (5 • P)
  have ho : addOrderOf (5 • P) = 59 := by
    rw [addOrderOf_nsmul' _ (by norm_num), hb.order_left]; rfl
  have off : ∀ a b : Int, ¬(59 : Int) ∣ a →
      (∀ m ∈ [59, 29, 14, 7, 3, 1, 0, 58, 28, 6, 2], ¬(59 : Int) ∣ a - m * b ∧ ¬(59 : Int) ∣ a + m * b) →
      OffChain 59 (b • P) (a • P) := by
    intro a b ha hab m hm
    have z : ∀ c : Int, c • P = 0 → (59 : Int) ∣ c := fun c h => by
      have := ((hb c 0).mp (by rw [h, zero_zsmul, add_zero])).1
      exact_mod_cast this
    have hmem : (m : Int) ∈ ([59, 29, 14, 7, 3, 1, 0, 58, 28, 6, 2] : List Int) := by
      obtain ⟨t, ht⟩ := hm
      rcases Nat.lt_or_ge t 6 with h | h
      · interval_cases t <;> rcases ht with rfl | rfl <;> decide
      · have h0 : 59 >>> t = 0 := by
          rw [Nat.shiftRight_eq_div_pow]
          exact Nat.div_eq_of_lt (lt_of_lt_of_le (by norm_num) (Nat.pow_le_pow_right (by norm_num) h))
        have h1 : 59 >>> (t + 1) = 0 := by
          rw [Nat.shiftRight_eq_div_pow]
          exact Nat.div_eq_of_lt (lt_of_lt_of_le (by norm_num)
            (Nat.pow_le_pow_right (by norm_num) (Nat.le_succ_of_le h)))
        rw [h0, h1] at ht
        rcases ht with rfl | rfl <;> decide
    refine ⟨fun h => ha (z a h), fun h => (hab _ hmem).1 (z _ ?_), fun h => (hab _ hmem).2 (z _ ?_)⟩
    · rw [sub_zsmul, h, mul_zsmul, natCast_zsmul, add_neg_cancel]
    · rw [add_zsmul, h, mul_zsmul, natCast_zsmul, neg_add_cancel]
  have := C39_bidlp_axis e59_good true [(59, 1)] ok59 5 (by rw [hv]; exact hb) hp hq hr
    (by rw [hv]; exact C44_chain (by decide) ho)
    (by rw [hv]; have := off 5 1 (by decide) (by decide); rwa [one_zsmul] at this)
    (by rw [hv]; have := off 1 5 (by decide) (by decide); rwa [one_zsmul] at this)
    none (Or.inl rfl)
  rw [hv] at this
  exact ⟨r, this⟩

theorem e127_good : e127.E1.Good := ⟨by decide +kernel, by decide +kernel, by decide +kernel⟩

/-- The field with `127^2` elements: a basis of order 64. -/
theorem basis127 : ∃ P Q : MPoint e127.E1.A, PRep p127.P1 P ∧ PRep q127.P1 Q ∧ IsBasis 64 P Q := by
  have hE := e127_good
  obtain ⟨P, hp⟩ := ((C28_on_curve hE p127.P1).1).mp (by decide +kernel)
  obtain ⟨Q, hq⟩ := ((C28_on_curve hE q127.P1).1).mp (by decide +kernel)
  have nz : ∀ {p : Pt F127} {X : MPoint e127.E1.A}, PRep p X → ∀ n : Nat,
      (e127.E1.mulBig p n).map Pt.isInf = some false → n • X ≠ 0 := by
    intro p X h n hn h0
    obtain ⟨R, h1, h2⟩ := C27_mul_big hE h n
    rw [h1, Option.map_some, Option.some.injEq] at hn
    have := (isInf_false h2).mpr h0
    rw [hn] at this
    exact absurd this (by decide)
  have hb : IsBasis (2 ^ (5 + 1)) P Q := by
    refine isBasis_two_pow (nsmul_eq_zero_of hE hp (by decide +kernel))
      (nsmul_eq_zero_of hE hq (by decide +kernel))
      (nz hp _ (by decide +kernel)) (nz hq _ (by decide +kernel)) ?_
    intro h
    obtain ⟨R, h1, h2⟩ := C27_mul_big hE hp (2 ^ 5)
    obtain ⟨S, h3, h4⟩ := C27_mul_big hE hq (2 ^ 5)
    have : (e127.E1.mulBig p127.P1 (2 ^ 5)).bind (fun R => (e127.E1.mulBig q127.P1 (2 ^ 5)).map
      fun S => R.equals S) = some false := by decide +kernel
    rw [h1, h3] at this
    simp only [Option.bind_some, Option.map_some, Option.some.injEq] at this
    rw [h] at h2
    have h5 := (prep_equals h2 h4).mpr rfl
    rw [this] at h5
    exact absurd h5 (by decide)
  exact ⟨P, Q, hp, hq, hb⟩

/-- Its pairing has order 64, as the computation shows as well. -/
example : ∃ w, weilPairing true e127.E1 p127.P1 q127.P1 64 = some w ∧ orderOf w = 64 := by
  obtain ⟨P, Q, hp, hq, hb⟩ := basis127
  exact C65_order e127_good true (by norm_num) hp hq hb

example : weilPairing true e127.E1 p127.P1 q127.P1 64 = some ⟨98, 7⟩ ∧ orderOf (⟨98, 7⟩ : F127) = 64 :=
  ⟨by decide +kernel, orderOf_eq_prime_pow (n := 5) (p := 2) (by decide +kernel) (by decide +kernel)⟩

/-- An odd order: a basis of order 59. -/
example : ∃ w, weilPairing true e59 p59 q59 59 = some w ∧ orderOf w = 59 := by
  obtain ⟨P, hp⟩ := p59_ex
  obtain ⟨Q, hq⟩ := q59_ex
  exact C65_order e59_good true (by norm_num) hp hq (basis59 hp hq)

/-- Points `P` and `2P + Q` are a basis, and the test finds this. -/
example : ∃ r w, weilPairing true e59 p59 r 59 = some w ∧ orderOf w = 59 := by
  obtain ⟨P, hp⟩ := p59_ex
  obtain ⟨Q, hq⟩ := q59_ex
  have hb := basis59 hp hq
  have hb' : IsBasis 59 P (2 • P + Q) := by
    intro a b
    have := hb (a + 2 * b) b
    rw [show a • P + b • (2 • P + Q) = (a + 2 * b) • P + b • Q by module, this]
    constructor
    · rintro ⟨h1, h2⟩; exact ⟨by omega, h2⟩
    · rintro ⟨h1, h2⟩; exact ⟨by omega, h2⟩
  obtain ⟨r, hr⟩ := exists_prep (2 • P + Q)
  obtain ⟨w, h1, -, h2⟩ := C65_test e59_good true (by norm_num) hp hr hb'.order_left hb'.order_right
    (hb'.nd (by norm_num))
  exact ⟨r, w, h1, h2.mpr hb'⟩

/-- The order `2^6`: `-P` is found as 63 times `P`. -/
example : bidlp true e127.E1 p127.P1.neg p127.P1 q127.P1 [(2, 6)] none = some (63, 0) := by
  obtain ⟨P, Q, hp, hq, hb⟩ := basis127
  exact C39_bidlp_axis_two e127_good true 6 (by decide) 63 (by decide) hb hp hq
    (by
      have h : 63 • P = -P := by
        rw [eq_neg_iff_add_eq_zero, ← succ_nsmul]; exact hb.nsmul_left
      rw [h]; exact prep_neg hp) none (Or.inl rfl)

/-- Every point of order 59 off the axes, over the field with 55697 elements, has coordinates that
`bidlp` finds. -/
example (r : Pt F557) (R : MPoint e59.A) (hr : PRep r R) (h0 : addOrderOf R = 59) :
    ∃ P Q : MPoint e59.A, PRep p59 P ∧ PRep q59 Q ∧ (R ∉ AddSubgroup.zmultiples P →
      R ∉ AddSubgroup.zmultiples Q → ∃ a b, bidlp true e59 r p59 q59 [(59, 1)] none = some (a, b) ∧
        R = a • P + b • Q) := by
  obtain ⟨P, hp⟩ := p59_ex
  obtain ⟨Q, hq⟩ := q59_ex
  have hv : Factored.value [(59, 1)] = 59 := by decide
  refine ⟨P, Q, hp, hq, fun h1 h2 => ?_⟩
  obtain ⟨a, b, h, -, -, e⟩ := C66_bidlp_partial e59_good true [(59, 1)] ok59
    (by rw [hv]; exact basis59 hp hq) hp hq hr (by rw [hv, ← h0]; exact addOrderOf_nsmul_eq_zero R)
    (.of_not_mem h1) (.of_not_mem h2)
    (by rw [hv]; exact C44_chain (by decide) h0) none (Or.inl rfl)
  exact ⟨a, b, h, e⟩

end Festa
