import Verif.Lemmas.Torsion
import Verif.Props.Pairing
/-!
What the loop of `torsion_basis` does with a candidate.
-/
namespace Festa
open WeierstrassCurve.Affine
variable {K : Type*} [Field K] [DecidableEq K]

/-- Two points of order `D` that are no basis: if one is no multiple of the other, then the test of the pairing fails. -/
theorem pairing_test_fails {E : Crv K} (hE : E.Good) (chk : Bool) {p q : Pt K} {P Q : MPoint E.A} (hp : PRep p P) (hq : PRep q Q)
    (fs : Factored) (hne : fs ≠ []) (hd : fs.Distinct) (he : ∀ p ∈ fs, p.2 ≠ 0) (oP : addOrderOf P = fs.value)
    (oQ : addOrderOf Q = fs.value) (hPQ : Q ∉ AddSubgroup.zmultiples P) (hb : ¬IsBasis fs.value P Q) :
    ∃ w, weilPairing chk E p q fs.value = some w ∧ hasFactoredOrder w fs = some false := by
  have hl : ∀ p ∈ fs, p.1 ≠ 0 := fun p hp h => (hd.1 p hp).ne_zero (by rw [h]; rfl)
  have hpos := value_pos (fs := fs) (fun p hp' => (hd.1 p hp').ne_zero)
  have c3 : P ∉ AddSubgroup.zmultiples Q := by
    intro hm
    have hle : AddSubgroup.zmultiples P ≤ AddSubgroup.zmultiples Q :=
      AddSubgroup.zmultiples_le_of_mem hm
    have hfin : Finite (AddSubgroup.zmultiples Q) := Set.Finite.to_subtype (by
      rw [finite_zmultiples, ← addOrderOf_pos_iff, oQ]; exact hpos)
    have heq := AddSubgroup.eq_of_le_of_card_ge hle (by
      rw [Nat.card_zmultiples, Nat.card_zmultiples, oP, oQ])
    apply hPQ
    rw [heq]
    exact AddSubgroup.mem_zmultiples Q
  obtain ⟨w, m, e1, ⟨r, hr⟩, e3, e4⟩ := C44_degenerate hE chk hpos hp hq
    (by rw [← oP]; exact addOrderOf_nsmul_eq_zero P) (chainFree_of_order hpos oP) oQ ⟨c3, hPQ⟩ hb
  obtain ⟨b, t1, t2⟩ := C40_field_test w fs hne he hl
  rw [← value_eq] at t2
  refine ⟨w, e1, ?_⟩
  rw [t1]
  congr 1
  by_contra hb'
  have h6 := t2.mp (Bool.eq_true_of_not_eq_false hb')
  have hr1 : r ≠ 1 := by rintro rfl; exact e3 (by rw [hr, mul_one])
  obtain ⟨l, hl1, hl2⟩ := Nat.exists_prime_and_dvd hr1
  have hlv : l ∣ fs.value := hl2.trans ⟨m, by rw [hr, mul_comm]⟩
  rw [value_eq] at hlv
  obtain ⟨y, hy1, hy2⟩ := (hl1.prime.dvd_prod_iff).mp hlv
  obtain ⟨p, hp1, rfl⟩ := List.mem_map.mp hy1
  have hlp : l = p.1.toNat := (Nat.prime_dvd_prime_iff_eq hl1 (hd.1 p hp1)).mp (hl1.dvd_of_dvd_pow hy2)
  subst hlp
  apply h6 p hp1
  obtain ⟨r', hr'⟩ := hl2
  rw [hr, hr', show m * (p.1.toNat * r') = p.1.toNat * (m * r') by ring,
    Nat.mul_div_cancel_left _ hl1.pos, pow_mul, e4, one_pow]

/-- A basis passes the test of the pairing. -/
theorem pairing_test_basis {E : Crv K} (hE : E.Good) (chk : Bool) {p q : Pt K} {P Q : MPoint E.A} (hp : PRep p P) (hq : PRep q Q)
    (fs : Factored) (hne : fs ≠ []) (hd : fs.Distinct) (he : ∀ p ∈ fs, p.2 ≠ 0) (h2 : 2 ≤ fs.value)
    (hb : IsBasis fs.value P Q) :
    ∃ w, weilPairing chk E p q fs.value = some w ∧ hasFactoredOrder w fs = some true := by
  have hl : ∀ p ∈ fs, p.1 ≠ 0 := fun p hp h => (hd.1 p hp).ne_zero (by rw [h]; rfl)
  obtain ⟨w, h1, ho⟩ := C65_order hE chk h2 hp hq hb
  obtain ⟨b, t1, t2⟩ := C40_field_test w fs hne he hl
  rw [← value_eq] at t2
  refine ⟨w, h1, ?_⟩
  rw [t1, t2.mpr]
  intro p hp h
  have hdv : p.1.toNat ∣ fs.value := by
    rw [value_eq]
    exact (dvd_pow_self _ (by have := he p hp; rw [Ne, ← UInt32.toNat_inj] at this; exact this)).trans
      (List.dvd_prod (List.mem_map.mpr ⟨p, hp, rfl⟩))
  have := Nat.le_of_dvd (Nat.div_pos (Nat.le_of_dvd (by omega) hdv) (hd.1 p hp).pos) (orderOf_dvd_of_pow_eq_one h)
  rw [ho] at this
  exact absurd this (not_le.mpr (Nat.div_lt_self (by omega) (hd.1 p hp).one_lt))

/-- The body of the loop of `torsion_basis` on a candidate that becomes `Q` after the cofactor is cleared, for `P` of order
`D` and `Q` killed by `D`. -/
theorem basisCandidate_spec {E : Crv K} (hE : E.Good) (chk : Bool) {p x : Pt K} {P X Q : MPoint E.A} (hp : PRep p P) (hx : PRep x X)
    (fs : Factored) (hne : fs ≠ []) (hd : fs.Distinct) (he : ∀ p ∈ fs, p.2 ≠ 0) (h2 : 2 ≤ fs.value) (k ep : Nat)
    (hQ : Q = (2 ^ ep * (k >>> ep)) • X) (oP : addOrderOf P = fs.value) (tQ : fs.value • Q = 0) :
    (Q = P ∨ addOrderOf Q ≠ fs.value → basisCandidate chk E p x k fs ep = some none) ∧
    (Q ∉ AddSubgroup.zmultiples P → ¬IsBasis fs.value P Q → basisCandidate chk E p x k fs ep = some none) ∧
    (IsBasis fs.value P Q → ∃ T, PRep T Q ∧ basisCandidate chk E p x k fs ep = some (some T)) := by
  obtain ⟨T, h1, hT⟩ := clearCofactor_spec hE hx k ep
  rw [← hQ] at hT
  obtain ⟨T2, e1, e2⟩ := C27_mul_big hE hT fs.value
  have ht := C40_point_order_partial hE hT fs hne hd.1 hd.2 he (by rw [← value_eq]; exact tQ)
  rw [← value_eq] at ht
  have hz : ¬(!T2.isInf) = true := by
    rw [tQ] at e2
    have : T2.isInf = true := (C24_isinfinity e2).mpr rfl
    simp [this]
  have key : (Q = P ∨ addOrderOf Q ≠ fs.value → basisCandidate chk E p x k fs ep = some none) := by
    intro h
    unfold basisCandidate
    rw [h1]
    dsimp only
    by_cases hq : (p.equals T || T.isInf) = true
    · rw [if_pos hq]
    · rw [if_neg hq, e1]
      dsimp only
      rw [if_neg hz, ht]
      have : addOrderOf Q ≠ fs.value := by
        rcases h with h | h
        · exfalso
          apply hq
          rw [(prep_equals hp hT).mpr h.symm, Bool.true_or]
        · exact h
      simp only [this, decide_false]
  have gen : Q ≠ P → addOrderOf Q = fs.value → ∀ w b, weilPairing chk E p T fs.value = some w → hasFactoredOrder w fs = some b →
      basisCandidate chk E p x k fs ep = some (if b then some T else none) := by
    intro hne' ho w b hw hb
    unfold basisCandidate
    rw [h1]
    dsimp only
    have hq : ¬(p.equals T || T.isInf) = true := by
      rw [Bool.or_eq_true, not_or]
      refine ⟨fun h => hne' ((prep_equals hp hT).mp h).symm, fun h => ?_⟩
      have := (C24_isinfinity hT).mp h
      rw [this, addOrderOf_zero] at ho
      omega
    rw [if_neg hq, e1]
    dsimp only
    rw [if_neg hz, ht]
    simp only [ho, decide_true, hw, hb]
    cases b <;> rfl
  refine ⟨key, fun hm hb => ?_, fun hb => ?_⟩
  · by_cases ho : addOrderOf Q = fs.value
    · obtain ⟨w, w1, w2⟩ := pairing_test_fails hE chk hp hT fs hne hd he oP ho hm hb
      exact gen (fun h => hm (h ▸ AddSubgroup.mem_zmultiples _)) ho w false w1 w2
    · exact key (Or.inr ho)
  · obtain ⟨w, w1, w2⟩ := pairing_test_basis hE chk hp hT fs hne hd he h2 hb
    refine ⟨T, hT, gen ?_ ?_ w true w1 w2⟩
    · rintro rfl
      have := ((hb 1 (-1)).mp (by simp)).1
      have := Int.le_of_dvd (by norm_num) this
      omega
    · apply Nat.dvd_antisymm (addOrderOf_dvd_of_nsmul_eq_zero tQ)
      have := ((hb 0 (addOrderOf Q)).mp (by simp [addOrderOf_nsmul_eq_zero])).2
      exact_mod_cast this

section
variable [RootOps K]
open RootOps

/-- The iterator at an abscissa of a point. -/
theorem next_square (A x : K) (h : IsSquare (curveRhs A x)) :
    CrvIter.next ⟨A, x⟩ = (some ⟨x, (RootOps.sqrt (curveRhs A x)).1, 1⟩, ⟨A, x + 1⟩) := by
  have e : CrvIter.search A 1000 x = some (x, (RootOps.sqrt (curveRhs A x)).1) := by
    rw [CrvIter.search, ← rhsOf_eq, if_pos ((legendre_nonneg _).mpr (by rw [rhsOf_eq]; exact h))]
  unfold CrvIter.next
  rw [e]

/-- The iterator at a number that is no abscissa of a point, followed by one that is. -/
theorem next_skip (A x : K) (h : ¬IsSquare (curveRhs A x)) (h' : IsSquare (curveRhs A (x + 1))) :
    CrvIter.next ⟨A, x⟩ = (some ⟨x + 1, (RootOps.sqrt (curveRhs A (x + 1))).1, 1⟩, ⟨A, x + 1 + 1⟩) := by
  have e : CrvIter.search A 1000 x = some (x + 1, (RootOps.sqrt (curveRhs A (x + 1))).1) := by
    rw [CrvIter.search, if_neg (fun h0 => h (by rw [← rhsOf_eq]; exact (legendre_nonneg _).mp h0)), CrvIter.search, ← rhsOf_eq,
      if_pos ((legendre_nonneg _).mpr (by rw [rhsOf_eq]; exact h'))]
  unfold CrvIter.next
  rw [e]

/-- The point made by the iterator at an abscissa of a point. -/
theorem next_point {E : Crv K} (hE : E.Good) {x : K} (h : IsSquare (curveRhs E.A x)) :
    ∃ X : MPoint E.A, PRep ⟨x, (sqrt (curveRhs E.A x)).1, 1⟩ X ∧ KRep x 1 X := by
  obtain ⟨X, hX⟩ := (next_prep hE (next_square E.A x h)).1
  refine ⟨X, hX, ?_⟩
  rcases X with _ | ⟨a, b, hab⟩
  · exact absurd hX one_ne_zero
  · exact ⟨hX.1, hX.2.1⟩

/-- The run of `torsion_basis` when the first number tried is no abscissa, the second one gives a point of order `D`, the third
one, if it is an abscissa, no multiple of it, and the fourth one a basis. -/
theorem torsionBasis_run {E : Crv K} (hE : E.Good) (chk : Bool) (n : Nat) (fs : Factored) (hd : fs.Distinct) (hne : fs ≠ [])
    (he : ∀ p ∈ fs, p.2 ≠ 0) (h2 : 2 ≤ fs.value) (k ep c : Nat) (hk : k = ofSlice BASIS_ORDER / fs.value)
    (hkc : c = 2 ^ ep * (k >>> ep)) (kill : ∀ Y : MPoint E.A, fs.value • (c • Y) = 0)
    (q0 : ¬IsSquare (curveRhs E.A (1 + zeta))) (q1 : IsSquare (curveRhs E.A (1 + zeta + 1)))
    (q3 : IsSquare (curveRhs E.A (1 + zeta + 1 + 1 + 1)))
    (hbas : ∀ X1 X3 : MPoint E.A, KRep (1 + zeta + 1) 1 X1 → KRep (1 + zeta + 1 + 1 + 1) 1 X3 →
      IsBasis fs.value (c • X1) (c • X3) ∧
        ∀ X2 : MPoint E.A, KRep (1 + zeta + 1 + 1) 1 X2 → c • X2 ∉ AddSubgroup.zmultiples (c • X1)) :
    ∃ T S, torsionBasis chk (n + 1 + 1 + 1 + 1) E fs ep = some (T, S) ∧
      ∃ P Q : MPoint E.A, PRep T P ∧ PRep S Q ∧ IsBasis fs.value P Q := by
  have hl : ∀ p ∈ fs, p.1 ≠ 0 := fun p hp h => (hd.1 p hp).ne_zero (by rw [h]; rfl)
  obtain ⟨X1, p1, k1⟩ := next_point hE q1
  obtain ⟨X3, p3, k3⟩ := next_point hE q3
  obtain ⟨hb, hX2⟩ := hbas X1 X3 k1 k3
  have oP : addOrderOf (c • X1) = fs.value := by
    apply Nat.dvd_antisymm (addOrderOf_dvd_of_nsmul_eq_zero (kill X1))
    have := ((hb (addOrderOf (c • X1)) 0).mp (by simp [addOrderOf_nsmul_eq_zero])).1
    exact_mod_cast this
  -- the first point
  obtain ⟨T, r, hT, hr, hcase⟩ := torsionCandidate_spec hE p1 fs hne he hl k ep
  rw [← hkc] at hT hcase
  have hT1 : r = some T := by
    rcases hcase with h | h
    · exact h.1
    · refine absurd (fun p hp h0 => ?_) h.2
      have hdv := addOrderOf_dvd_of_nsmul_eq_zero h0
      rw [oP] at hdv
      have hdp : p.1.toNat ∣ fs.value := by
        rw [value_eq]
        exact (dvd_pow_self _ (by have := he p hp; rw [Ne, ← UInt32.toNat_inj] at this; exact this)).trans
          (List.dvd_prod (List.mem_map.mpr ⟨p, hp, rfl⟩))
      have := Nat.le_of_dvd (Nat.div_pos (Nat.le_of_dvd (by omega) hdp) (hd.1 p hp).pos) hdv
      exact absurd this (not_le.mpr (Nat.div_lt_self (by omega) (hd.1 p hp).one_lt))
  subst hT1
  have hpo : pointOrder (n + 1 + 1 + 1 + 1) E fs ep = some T := by
    unfold pointOrder
    rw [if_neg (by omega), ← hk]
    unfold CrvIter.new pointOrderLoop
    rw [next_skip _ _ q0 q1]
    dsimp only
    rw [hr]
  -- the second point
  have s1 : basisCandidate chk E T _ k fs ep = some none :=
    (basisCandidate_spec (Q := c • X1) hE chk hT p1 fs hne hd he h2 k ep (by rw [hkc]) oP (kill X1)).1 (Or.inl rfl)
  obtain ⟨S, hS, s3⟩ := (basisCandidate_spec (Q := c • X3) hE chk hT p3 fs hne hd he h2 k ep (by rw [hkc]) oP (kill X3)).2.2 hb
  unfold torsionBasis
  rw [hpo, ← hk]
  dsimp only
  unfold CrvIter.new basisLoop
  rw [next_skip _ _ q0 q1]
  dsimp only
  rw [s1]
  dsimp only
  unfold basisLoop
  by_cases q2 : IsSquare (curveRhs E.A (1 + zeta + 1 + 1))
  · obtain ⟨X2, p2, k2⟩ := next_point hE q2
    obtain ⟨-, c1, c2⟩ := basisCandidate_spec (Q := c • X2) hE chk hT p2 fs hne hd he h2 k ep (by rw [hkc]) oP (kill X2)
    rw [next_square _ _ q2]
    dsimp only
    by_cases hb2 : IsBasis fs.value (c • X1) (c • X2)
    · obtain ⟨S', hS', e⟩ := c2 hb2
      rw [e]
      exact ⟨T, S', rfl, _, _, hT, hS', hb2⟩
    · rw [c1 (hX2 X2 k2) hb2]
      dsimp only
      unfold basisLoop
      rw [next_square _ _ q3]
      dsimp only
      rw [s3]
      exact ⟨T, S, rfl, _, _, hT, hS, hb⟩
  · rw [next_skip _ _ q2 q3]
    dsimp only
    rw [s3]
    exact ⟨T, S, rfl, _, _, hT, hS, hb⟩

end
end Festa
