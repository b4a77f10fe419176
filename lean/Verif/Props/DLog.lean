import Verif.Lemmas.DLog
import Verif.Spec.TestField
/-!
Properties C34–C38: extended gcd, Chinese remaindering, integer square root, discrete logarithms.
-/
namespace Festa

/-! ### C34: `xgcd_big` -/

/-- C34: for `b > 0` the result is the reduced solution of `a·r ≡ gcd(a,b) (mod b)`. -/
theorem C34_xgcd (a b : Nat) (hb : b ≠ 0) :
    ∃ r, xgcdBig a b = some r ∧ r < b ∧ a * r % b = Nat.gcd a b % b :=
  xgcdBig_spec a b hb

/-- C34: for coprime arguments the result is the modular inverse, the only one below `b`. -/
theorem C34_inverse (a b : Nat) (hb : 1 < b) (hc : Nat.Coprime a b) :
    ∃ r, xgcdBig a b = some r ∧ r < b ∧ a * r % b = 1 ∧
      ∀ s, s < b → a * s % b = 1 → s = r := by
  obtain ⟨r, h1, h2, h3⟩ := xgcdBig_spec a b (by omega)
  rw [hc] at h3
  have h3' : a * r % b = 1 := by rw [h3, Nat.mod_eq_of_lt hb]
  refine ⟨r, h1, h2, h3', fun s hs hs1 => ?_⟩
  have : a * s ≡ a * r [MOD b] := hs1.trans h3'.symm
  exact Nat.ModEq.eq_of_lt_of_lt (Nat.ModEq.cancel_left_of_coprime hc.symm this) hs h2

/-- C34: the function panics exactly for `b = 0`. -/
theorem C34_panic (a b : Nat) : xgcdBig a b = none ↔ b = 0 := by
  constructor
  · intro h
    by_contra hb
    obtain ⟨r, hr, -⟩ := xgcdBig_spec a b hb
    rw [h] at hr; cases hr
  · rintro rfl
    unfold xgcdBig
    simp

example : xgcdBig 512 1241 ≠ none := fun h => absurd ((C34_panic _ _).mp h) (by decide)
example : ∃ r, xgcdBig 512 1241 = some r ∧ r < 1241 ∧ 512 * r % 1241 = 1 ∧
    ∀ s, s < 1241 → 512 * s % 1241 = 1 → s = r := C34_inverse _ _ (by decide) (by decide)

/-! ### C35: `compute_crt` -/

/-- C35: for pairwise distinct primes the result is the only residue modulo the product that has the
given residues (any natural numbers, not necessarily reduced) modulo the prime powers. -/
theorem C35_crt (fs : Factored) (rs : List Nat) (hp : ∀ p ∈ fs, Nat.Prime p.1.toNat)
    (hd : (fs.map Prod.fst).Nodup) (hlen : fs.length ≤ rs.length) :
    ∃ x, computeCrt rs fs = some x ∧
      x < (fs.map (fun p => p.1.toNat ^ p.2.toNat)).prod ∧
      (∀ qr ∈ fs.zip rs, x % qr.1.1.toNat ^ qr.1.2.toNat = qr.2 % qr.1.1.toNat ^ qr.1.2.toNat) ∧
      ∀ y, y < (fs.map (fun p => p.1.toNat ^ p.2.toNat)).prod →
        (∀ qr ∈ fs.zip rs, y % qr.1.1.toNat ^ qr.1.2.toNat = qr.2 % qr.1.1.toNat ^ qr.1.2.toNat) →
        y = x := by
  obtain ⟨x, h1, h2, h3⟩ := computeCrt_spec ⟨hp, hd⟩ rs hlen
  refine ⟨x, h1, by rw [← value_eq]; exact h2, h3, fun y hy h4 => ?_⟩
  rw [← value_eq] at hy
  refine Nat.ModEq.eq_of_lt_of_lt (modEq_value ⟨hp, hd⟩ (fun q hq => ?_)) hy h2
  obtain ⟨i, hi, rfl⟩ := List.mem_iff_getElem.mp hq
  have hm : (fs[i], rs[i]'(by omega)) ∈ fs.zip rs := by
    rw [List.mem_iff_getElem]
    exact ⟨i, by rw [List.length_zip]; omega, by rw [List.getElem_zip]⟩
  exact (h4 _ hm).trans (h3 _ hm).symm

/-- C35: too few residues make the function panic. -/
theorem C35_crt_short (fs : Factored) (rs : List Nat) (hlen : rs.length < fs.length) :
    computeCrt rs fs = none := by
  unfold computeCrt
  generalize 0 = acc
  have key : ∀ (s : Factored) (rs : List Nat) (acc : Nat), rs.length < s.length →
      crtLoop fs fs.value s rs acc = none := by
    intro s
    induction s with
    | nil => intro rs acc h; simp at h
    | cons p s ih =>
      obtain ⟨l, e⟩ := p
      intro rs acc h
      unfold crtLoop
      dsimp only
      split
      · split
        · rfl
        · exact ih _ _ (by simpa using h)
      · rfl
  exact key fs rs acc hlen

example : ∃ x, computeCrt [5, 3, 23] [(3, 2), (5, 1), (7, 3)] = some x ∧ x < 15435 := by
  obtain ⟨x, h1, h2, -⟩ := C35_crt [(3, 2), (5, 1), (7, 3)] [5, 3, 23]
    (by decide +kernel) (by decide) (by decide)
  exact ⟨x, h1, by simpa using h2⟩

/-! ### C36: `sqrt_floor` -/

/-- C36: without overflow checks `sqrt_floor` is the integer square root for every 32-bit input. -/
theorem C36_sqrt (n : UInt32) :
    ∃ s, sqrtFloor false n = some s ∧ s.toNat * s.toNat ≤ n.toNat ∧
      n.toNat < (s.toNat + 1) * (s.toNat + 1) := by
  have h := sqrtFloor_spec false n
  simp only [Bool.false_eq_true, false_and, if_false] at h
  refine ⟨_, h, ?_⟩
  have hs : (UInt32.ofNat (Nat.sqrt n.toNat)).toNat = Nat.sqrt n.toNat := by
    rw [UInt32.toNat_ofNat', Nat.mod_eq_of_lt ((Nat.sqrt_le_self _).trans_lt n.toNat_lt)]
  rw [hs]
  exact ⟨Nat.sqrt_le _, Nat.lt_succ_sqrt _⟩

/-- C36: with overflow checks the same up to `65535²`; above, the last comparison `b * b == n`
overflows and the function panics (so C36 fails for these inputs in a debug build). -/
theorem C36_sqrt_checked (n : UInt32) :
    sqrtFloor true n = if n.toNat ≤ 65535 * 65535 then sqrtFloor false n else none := by
  rw [sqrtFloor_spec, sqrtFloor_spec]
  by_cases h : n.toNat ≤ 65535 * 65535
  · simp [h, Nat.not_lt.mpr h]
  · simp [h, Nat.lt_of_not_le h]

example : sqrtFloor true 4294836226 = none := by
  rw [C36_sqrt_checked, if_neg (by decide)]
example : ∃ s, sqrtFloor true 4294836225 = some s ∧ s.toNat * s.toNat ≤ 4294836225 := by
  rw [C36_sqrt_checked, if_pos (by decide)]
  obtain ⟨s, h1, h2, -⟩ := C36_sqrt 4294836225
  exact ⟨s, h1, h2⟩

/-! ### C37: `bsgs` -/

section
variable {K : Type*} [Field K] [DecidableEq K]

/-- C37: if `alpha^order = 1` and `beta` is a power of `alpha`, `bsgs` finds an exponent below
`order`. -/
theorem C37_bsgs_finds (chk : Bool) (alpha : K) (order : UInt32) (ho : order ≠ 0)
    (hchk : chk = true → order.toNat ≤ 65535 * 65535) (hord : alpha ^ order.toNat = 1) (k : Nat) :
    ∃ d, bsgs chk (alpha ^ k) alpha order = some d ∧ d.toNat < order.toNat ∧
      alpha ^ d.toNat = alpha ^ k :=
  (bsgs_spec chk _ alpha order ho hchk hord).1 k rfl

/-- C37: if the order of `alpha` is exactly `order`, the result is the exponent modulo `order`. -/
theorem C37_bsgs_exact (chk : Bool) (alpha : K) (order : UInt32)
    (hchk : chk = true → order.toNat ≤ 65535 * 65535) (ho : order ≠ 0)
    (hord : orderOf alpha = order.toNat) (k : Nat) :
    ∃ d, bsgs chk (alpha ^ k) alpha order = some d ∧ d.toNat = k % order.toNat := by
  have h1 : alpha ^ order.toNat = 1 := by rw [← hord]; exact pow_orderOf_eq_one alpha
  obtain ⟨d, hd1, hd2, hd3⟩ := C37_bsgs_finds chk alpha order ho hchk h1 k
  refine ⟨d, hd1, ?_⟩
  have ha : alpha ≠ 0 := by
    rintro rfl
    rw [zero_pow (fun e => ho (UInt32.toNat_inj.mp e))] at h1
    exact zero_ne_one h1
  have := (pow_inj_mod (x := Units.mk0 _ ha) (n := d.toNat) (m := k)).mp (by ext; push_cast; exact hd3)
  rw [← orderOf_units, Units.val_mk0, hord, Nat.mod_eq_of_lt hd2] at this
  exact this

/-- C37: if `beta` is not a power of `alpha`, `bsgs` reports failure (panics). -/
theorem C37_bsgs_fails (chk : Bool) (beta alpha : K) (order : UInt32) (ho : order ≠ 0)
    (hchk : chk = true → order.toNat ≤ 65535 * 65535) (hord : alpha ^ order.toNat = 1)
    (h : ∀ k : Nat, beta ≠ alpha ^ k) : bsgs chk beta alpha order = none :=
  (bsgs_spec chk beta alpha order ho hchk hord).2 h

/-! ### C38: Pohlig–Hellman -/

/-- C38: `ph_dlp_power` returns the exponent modulo `l^e` for every power of an element of order
`l^e`. -/
theorem C38_ph_power (chk : Bool) (alpha : K) (l e : UInt32) (hl : l ≠ 0) (hl1 : l ≠ 1) (he : e ≠ 0)
    (hchk : chk = true → l.toNat ≤ 65535 * 65535) (hord : orderOf alpha = l.toNat ^ e.toNat)
    (k : Nat) : phDlpPower chk (alpha ^ k) alpha l e = some (k % l.toNat ^ e.toNat) :=
  phDlpPower_spec chk alpha l e hl hl1 hchk he hord k

/-- C38: `ph_dlp` returns the exponent modulo the order for every power of an element whose order is
the product of the given powers of pairwise distinct primes. -/
theorem C38_ph (chk : Bool) (alpha : K) (fs : Factored) (hp : ∀ p ∈ fs, Nat.Prime p.1.toNat)
    (hd : (fs.map Prod.fst).Nodup) (he : ∀ p ∈ fs, p.2 ≠ 0)
    (hchk : chk = true → ∀ p ∈ fs, p.1.toNat ≤ 65535 * 65535)
    (hord : orderOf alpha = (fs.map (fun p => p.1.toNat ^ p.2.toNat)).prod) (k : Nat) :
    phDlp chk (alpha ^ k) alpha fs =
      some (k % (fs.map (fun p => p.1.toNat ^ p.2.toNat)).prod) := by
  rw [← value_eq] at hord ⊢
  exact phDlp_spec ⟨⟨hp, hd⟩, he, hchk⟩ alpha hord k

end

/-! Concrete case: `2` has order `28 = 2²·7` in the field with 29 elements, `-1 = 2^14` has order 2. -/

theorem order_two_F29 : orderOf (2 : F29) = 28 := by
  refine orderOf_eq_of_pow_and_pow_div_prime (by decide) (by decide +kernel) ?_
  intro p hp hd
  have : p ∈ Nat.primeFactors 28 := by
    rw [Nat.mem_primeFactors]; exact ⟨hp, hd, by decide⟩
  have h28 : Nat.primeFactors 28 = {2, 7} := by decide +kernel
  rw [h28] at this
  simp only [Finset.mem_insert, Finset.mem_singleton] at this
  rcases this with rfl | rfl <;> decide +kernel

example (k : Nat) : phDlp true ((2 : F29) ^ k) 2 [(2, 2), (7, 1)] = some (k % 28) :=
  C38_ph true 2 [(2, 2), (7, 1)] (by decide +kernel) (by decide) (by decide)
    (by decide) (by rw [order_two_F29]; rfl) k

example (k : Nat) : ∃ d, bsgs true ((2 : F29) ^ k) 2 28 = some d ∧ d.toNat = k % 28 :=
  C37_bsgs_exact true 2 28 (by decide) (by decide) order_two_F29 k

example : bsgs true (2 : F29) (-1) 2 = none := by
  refine C37_bsgs_fails true _ _ 2 (by decide) (by decide) (by decide +kernel) (fun k => ?_)
  rcases neg_one_pow_eq_or F29 k with h | h <;> rw [h] <;> decide +kernel

example (k : Nat) : phDlpPower true (((2 : F29) ^ 7) ^ k) (2 ^ 7) 2 2 = some (k % 4) :=
  C38_ph_power true _ 2 2 (by decide) (by decide) (by decide) (by decide) (by
    rw [orderOf_pow_of_dvd (by decide) (by rw [order_two_F29]; decide), order_two_F29]; rfl) k

end Festa
