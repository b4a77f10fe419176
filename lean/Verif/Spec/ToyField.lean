import Verif.Spec.TestField127
import Mathlib.NumberTheory.LucasPrimality
import Mathlib.NumberTheory.LegendreSymbol.Basic
import Mathlib.FieldTheory.Finite.Basic
/-!
A field for a small version of the whole scheme: the field with `p^2` elements for
`p = 2^25 * 7^3 * 13^2 * 41^2 * 43^2 * 3^2 * 37 - 1`, with operations on pairs of natural numbers.
-/
namespace Festa

/-- The prime. -/
abbrev toyP : Nat := 2013165941109018329087

/-- Powers modulo the prime, by squaring. -/
def toyPow : Nat → Nat → Nat → Nat → Nat
  | 0, _, _, acc => acc
  | fuel + 1, a, n, acc =>
    if n = 0 then acc
    else toyPow fuel (a * a % toyP) (n / 2) (if n % 2 = 0 then acc else acc * a % toyP)

theorem toyPow_eq (fuel a n acc : Nat) (h : n < 2 ^ fuel) :
    (toyPow fuel a n acc : ZMod toyP) = acc * a ^ n := by
  induction fuel generalizing a n acc with
  | zero =>
    have : n = 0 := by simpa using h
    subst this
    simp [toyPow]
  | succ fuel ih =>
    rw [toyPow]
    split_ifs with h0 h1
    · subst h0; simp
    · rw [ih _ _ _ (by omega)]
      conv_rhs => rw [show n = 2 * (n / 2) by omega, pow_mul]
      rw [ZMod.natCast_mod, Nat.cast_mul, sq]
    · rw [ih _ _ _ (by omega)]
      conv_rhs => rw [show n = 2 * (n / 2) + 1 by omega, pow_succ, pow_mul]
      rw [ZMod.natCast_mod, ZMod.natCast_mod, Nat.cast_mul, Nat.cast_mul, sq]
      ring

theorem toyPow_lt (fuel a n acc : Nat) (h : acc < toyP) : toyPow fuel a n acc < toyP := by
  induction fuel generalizing a n acc with
  | zero => exact h
  | succ fuel ih =>
    rw [toyPow]
    split_ifs
    · exact h
    · exact ih _ _ _ h
    · exact ih _ _ _ (Nat.mod_lt _ (by norm_num))

theorem toyPow_five (n k : Nat) (h : n < 2 ^ 72) (hk : toyPow 72 5 n 1 = k) : (5 : ZMod toyP) ^ n = k := by
  have := toyPow_eq 72 5 n 1 h
  rw [hk] at this
  rw [this]; push_cast; ring

theorem toyP_prime : Nat.Prime toyP := by
  refine lucas_primality toyP 5 (by rw [toyPow_five _ 1 (by norm_num) (by decide +kernel)]; simp) ?_
  intro q hq hd
  have hd : q ∣ 2 * (23 * (53 * (137 * (28433 * (47717 * 4442521))))) := hd
  have pr : ∀ {a : Nat}, Nat.Prime a → q ∣ a → q = a := fun ha h => (Nat.prime_dvd_prime_iff_eq hq ha).mp h
  have ne : ∀ k : Nat, 1 < k → k < toyP → ((k : ZMod toyP) ≠ 1) := by
    intro k h1 h2 h
    have := congrArg ZMod.val h
    rw [ZMod.val_natCast, Nat.mod_eq_of_lt h2, ZMod.val_one'' (by norm_num)] at this
    omega
  have fin : ∀ n k : Nat, n < 2 ^ 72 → toyPow 72 5 n 1 = k → 1 < k → k < toyP → (5 : ZMod toyP) ^ n ≠ 1 := by
    intro n k h1 h2 h3 h4
    rw [toyPow_five n k h1 h2]; exact ne k h3 h4
  rcases hq.dvd_mul.mp hd with h | hd
  · rw [pr (by norm_num) h]; exact fin _ _ (by norm_num) rfl (by decide +kernel) (by decide +kernel)
  rcases hq.dvd_mul.mp hd with h | hd
  · rw [pr (by norm_num) h]; exact fin _ _ (by norm_num) rfl (by decide +kernel) (by decide +kernel)
  rcases hq.dvd_mul.mp hd with h | hd
  · rw [pr (by norm_num) h]; exact fin _ _ (by norm_num) rfl (by decide +kernel) (by decide +kernel)
  rcases hq.dvd_mul.mp hd with h | hd
  · rw [pr (by norm_num) h]; exact fin _ _ (by norm_num) rfl (by decide +kernel) (by decide +kernel)
  rcases hq.dvd_mul.mp hd with h | hd
  · rw [pr (by norm_num) h]; exact fin _ _ (by norm_num) rfl (by decide +kernel) (by decide +kernel)
  rcases hq.dvd_mul.mp hd with h | hd
  · rw [pr (by norm_num) h]; exact fin _ _ (by norm_num) rfl (by decide +kernel) (by decide +kernel)
  · rw [pr (by norm_num) hd]; exact fin _ _ (by norm_num) rfl (by decide +kernel) (by decide +kernel)

instance factToyP : Fact (Nat.Prime toyP) := ⟨toyP_prime⟩

instance factToySq : Fact (∀ r : ZMod toyP, r ^ 2 ≠ -1 + 0 * r) :=
  ⟨fun r h => ZMod.mod_four_ne_three_of_sq_eq_neg_one (p := toyP) (y := r) (by simpa using h) (by norm_num)⟩

/-- The field as Mathlib has it. -/
abbrev ToyRef := QuadraticAlgebra (ZMod toyP) (-1) 0

/-- The elements `re + im i`. -/
structure Toy where
  re : Nat
  im : Nat
  hre : re < toyP
  him : im < toyP

namespace Toy

/-- An element from any two numbers. -/
def mk' (a b : Nat) : Toy :=
  ⟨a % toyP, b % toyP, Nat.mod_lt _ (by norm_num), Nat.mod_lt _ (by norm_num)⟩

/-- The element of Mathlib's field. -/
def ref (x : Toy) : ToyRef := ⟨x.re, x.im⟩

theorem ref_mk' (a b : Nat) : (mk' a b).ref = ⟨a, b⟩ := by
  simp [ref, mk']

theorem ref_inj {x y : Toy} (h : x.ref = y.ref) : x = y := by
  obtain ⟨a, b, ha, hb⟩ := x
  obtain ⟨c, d, hc, hd⟩ := y
  simp only [ref, QuadraticAlgebra.mk.injEq] at h
  have h1 := (ZMod.natCast_eq_natCast_iff' _ _ _).mp h.1
  have h2 := (ZMod.natCast_eq_natCast_iff' _ _ _).mp h.2
  rw [Nat.mod_eq_of_lt ha, Nat.mod_eq_of_lt hc] at h1
  rw [Nat.mod_eq_of_lt hb, Nat.mod_eq_of_lt hd] at h2
  subst h1 h2
  rfl

def add (x y : Toy) : Toy := mk' (x.re + y.re) (x.im + y.im)
def neg (x : Toy) : Toy := mk' (toyP - x.re) (toyP - x.im)
def sub (x y : Toy) : Toy := mk' (x.re + (toyP - y.re)) (x.im + (toyP - y.im))
def mul (x y : Toy) : Toy := mk' (x.re * y.re + (toyP * toyP - x.im * y.im)) (x.re * y.im + x.im * y.re)
def norm (x : Toy) : Nat := (x.re * x.re + x.im * x.im) % toyP
def inv (x : Toy) : Toy :=
  let n := toyPow 72 x.norm (toyP - 2) 1
  mk' (x.re * n) ((toyP - x.im) * n)
def powAux : Nat → Toy → Nat → Toy → Toy
  | 0, _, _, acc => acc
  | fuel + 1, a, n, acc =>
    if n = 0 then acc else powAux fuel (a.mul a) (n / 2) (if n % 2 = 0 then acc else acc.mul a)
def pow (x : Toy) (n : Nat) : Toy := powAux (n.log2 + 1) x n (mk' 1 0)

theorem neg_cast {a : Nat} (h : a < toyP) : ((toyP - a : Nat) : ZMod toyP) = -a := by
  rw [Nat.cast_sub h.le, CharP.cast_eq_zero, zero_sub]

theorem ref_add (x y : Toy) : (x.add y).ref = x.ref + y.ref := by
  rw [add, ref_mk']; ext <;> simp [ref]

theorem ref_neg (x : Toy) : x.neg.ref = -x.ref := by
  rw [neg, ref_mk']; ext <;> simp [ref, neg_cast, x.hre, x.him]

theorem ref_sub (x y : Toy) : (x.sub y).ref = x.ref - y.ref := by
  rw [sub, ref_mk']; ext <;> simp [ref, neg_cast, y.hre, y.him, sub_eq_add_neg]

theorem ref_mul (x y : Toy) : (x.mul y).ref = x.ref * y.ref := by
  have h : x.im * y.im ≤ toyP * toyP := Nat.mul_le_mul x.him.le y.him.le
  have h0 : ((toyP * toyP : Nat) : ZMod toyP) = 0 := by rw [Nat.cast_mul, CharP.cast_eq_zero, zero_mul]
  rw [mul, ref_mk', Nat.cast_add, Nat.cast_sub h, h0]
  ext <;> simp [ref]

theorem norm_cast (x : Toy) : (x.norm : ZMod toyP) = x.re * x.re + x.im * x.im := by
  rw [norm, ZMod.natCast_mod]; push_cast; ring

theorem norm_ne {x : Toy} (h : x.ref ≠ 0) : (x.norm : ZMod toyP) ≠ 0 := by
  rw [norm_cast]
  intro h0
  by_cases hi : (x.im : ZMod toyP) = 0
  · rw [hi] at h0
    have : (x.re : ZMod toyP) = 0 := by simpa using h0
    exact h (by rw [ref, this, hi]; rfl)
  · refine factToySq.out ((x.re : ZMod toyP) / x.im) ?_
    field_simp
    linear_combination h0

theorem ref_inv (x : Toy) : x.inv.ref = x.ref⁻¹ := by
  by_cases h : x.ref = 0
  · have hx : x = mk' 0 0 := ref_inj (by rw [h, ref_mk']; ext <;> simp)
    subst hx
    rw [h, inv_zero, inv, ref_mk']
    generalize toyPow _ _ _ _ = k
    ext
    · change (((0 % toyP) * k : Nat) : ZMod toyP) = 0
      rw [Nat.zero_mod, zero_mul, Nat.cast_zero]
    · change (((toyP - 0 % toyP) * k : Nat) : ZMod toyP) = 0
      rw [Nat.zero_mod, Nat.sub_zero, Nat.cast_mul, CharP.cast_eq_zero, zero_mul]
  · refine eq_inv_of_mul_eq_one_left ?_
    have hn := norm_ne h
    have hp : ((toyPow 72 x.norm (toyP - 2) 1 : Nat) : ZMod toyP) * x.norm = 1 := by
      rw [toyPow_eq _ _ _ _ (by norm_num), Nat.cast_one, one_mul, ← pow_succ]
      exact ZMod.pow_card_sub_one_eq_one hn
    rw [norm_cast] at hp
    rw [inv, ref_mk', ref]
    generalize toyPow _ _ _ _ = k at hp ⊢
    have r1 : (1 : ToyRef).re = 1 := rfl
    have i1 : (1 : ToyRef).im = 0 := rfl
    ext
    · simp [neg_cast x.him]
      rw [r1]
      linear_combination hp
    · simp [neg_cast x.him]
      rw [i1]
      ring

theorem ref_powAux (fuel : Nat) (a : Toy) (n : Nat) (acc : Toy) (h : n < 2 ^ fuel) :
    (powAux fuel a n acc).ref = acc.ref * a.ref ^ n := by
  induction fuel generalizing a n acc with
  | zero =>
    have : n = 0 := by simpa using h
    subst this
    simp [powAux]
  | succ fuel ih =>
    rw [powAux]
    split_ifs with h0 h1
    · subst h0; simp
    · rw [ih _ _ _ (by omega), ref_mul]
      conv_rhs => rw [show n = 2 * (n / 2) by omega, pow_mul]
      rw [sq]
    · rw [ih _ _ _ (by omega), ref_mul, ref_mul]
      conv_rhs => rw [show n = 2 * (n / 2) + 1 by omega, pow_succ, pow_mul]
      rw [sq]
      ring

theorem ref_pow (x : Toy) (n : Nat) : (x.pow n).ref = x.ref ^ n := by
  rw [pow, ref_powAux _ _ _ _ Nat.lt_log2_self, ref_mk']
  have : (⟨((1 : Nat) : ZMod toyP), ((0 : Nat) : ZMod toyP)⟩ : ToyRef) = 1 := by
    ext
    · exact Nat.cast_one
    · exact Nat.cast_zero
  rw [this, one_mul]

/-- The image of an integer. -/
def ofInt : Int → Toy
  | .ofNat n => mk' n 0
  | .negSucc n => (mk' (n + 1) 0).neg

theorem ref_zero : (mk' 0 0).ref = 0 := by rw [ref_mk']; ext <;> simp
theorem ref_one : (mk' 1 0).ref = 1 := by
  rw [ref_mk']
  ext
  · exact Nat.cast_one
  · exact Nat.cast_zero
theorem ref_nat (n : Nat) : (mk' n 0).ref = n := by rw [ref_mk']; ext <;> simp
theorem ref_ofInt (n : Int) : (ofInt n).ref = n := by
  cases n with
  | ofNat n => rw [ofInt, ref_nat]; simp
  | negSucc n => rw [ofInt, ref_neg, ref_nat, Int.cast_negSucc]

/-- The field. -/
instance : Field Toy where
  add := add
  zero := mk' 0 0
  neg := neg
  sub := sub
  mul := mul
  one := mk' 1 0
  inv := inv
  natCast n := mk' n 0
  intCast := ofInt
  npow n x := x.pow n
  nsmul n x := (mk' n 0).mul x
  zsmul n x := (ofInt n).mul x
  nnqsmul := _
  nnqsmul_def := fun _ _ => rfl
  qsmul := _
  qsmul_def := fun _ _ => rfl
  add_assoc x y z := ref_inj (by change ((x.add y).add z).ref = (x.add (y.add z)).ref; simp only [ref_add]; ring)
  zero_add x := ref_inj (by change ((mk' 0 0).add x).ref = x.ref; simp only [ref_add, ref_zero]; ring)
  add_zero x := ref_inj (by change (x.add (mk' 0 0)).ref = x.ref; simp only [ref_add, ref_zero]; ring)
  add_comm x y := ref_inj (by change (x.add y).ref = (y.add x).ref; simp only [ref_add]; ring)
  left_distrib x y z := ref_inj (by
    change (x.mul (y.add z)).ref = ((x.mul y).add (x.mul z)).ref; simp only [ref_add, ref_mul]; ring)
  right_distrib x y z := ref_inj (by
    change ((x.add y).mul z).ref = ((x.mul z).add (y.mul z)).ref; simp only [ref_add, ref_mul]; ring)
  zero_mul x := ref_inj (by change ((mk' 0 0).mul x).ref = (mk' 0 0).ref; simp only [ref_mul, ref_zero]; ring)
  mul_zero x := ref_inj (by change (x.mul (mk' 0 0)).ref = (mk' 0 0).ref; simp only [ref_mul, ref_zero]; ring)
  mul_assoc x y z := ref_inj (by change ((x.mul y).mul z).ref = (x.mul (y.mul z)).ref; simp only [ref_mul]; ring)
  one_mul x := ref_inj (by change ((mk' 1 0).mul x).ref = x.ref; simp only [ref_mul, ref_one]; ring)
  mul_one x := ref_inj (by change (x.mul (mk' 1 0)).ref = x.ref; simp only [ref_mul, ref_one]; ring)
  neg_add_cancel x := ref_inj (by change (x.neg.add x).ref = (mk' 0 0).ref; simp only [ref_add, ref_neg, ref_zero]; ring)
  mul_comm x y := ref_inj (by change (x.mul y).ref = (y.mul x).ref; simp only [ref_mul]; ring)
  exists_pair_ne := ⟨mk' 0 0, mk' 1 0, fun h => zero_ne_one (by rw [← ref_zero, ← ref_one, h])⟩
  mul_inv_cancel x hx := ref_inj (by
    change (x.mul x.inv).ref = (mk' 1 0).ref
    rw [ref_mul, ref_inv, ref_one]
    exact mul_inv_cancel₀ (fun h => hx (ref_inj (by rw [h]; exact ref_zero.symm))))
  inv_zero := ref_inj (by change (mk' 0 0).inv.ref = (mk' 0 0).ref; rw [ref_inv, ref_zero, inv_zero])
  npow_zero x := ref_inj (by change (x.pow 0).ref = (mk' 1 0).ref; rw [ref_pow, ref_one, pow_zero])
  npow_succ n x := ref_inj (by change (x.pow (n + 1)).ref = ((x.pow n).mul x).ref; rw [ref_mul, ref_pow, ref_pow, pow_succ])
  nsmul_zero x := ref_inj (by change ((mk' 0 0).mul x).ref = (mk' 0 0).ref; simp only [ref_mul, ref_zero]; ring)
  nsmul_succ n x := ref_inj (by
    change ((mk' (n + 1) 0).mul x).ref = (((mk' n 0).mul x).add x).ref
    simp only [ref_mul, ref_add, ref_nat]; push_cast; ring)
  zsmul_zero' x := ref_inj (by change ((mk' 0 0).mul x).ref = (mk' 0 0).ref; simp only [ref_mul, ref_zero]; ring)
  zsmul_succ' n x := ref_inj (by
    change ((mk' (n + 1) 0).mul x).ref = (((mk' n 0).mul x).add x).ref
    simp only [ref_mul, ref_add, ref_nat]; push_cast; ring)
  zsmul_neg' n x := ref_inj (by
    change ((mk' (n + 1) 0).neg.mul x).ref = ((mk' (n + 1) 0).mul x).neg.ref
    simp only [ref_mul, ref_neg, ref_nat]; ring)
  sub_eq_add_neg x y := ref_inj (by
    change (x.sub y).ref = (x.add y.neg).ref; simp only [ref_sub, ref_add, ref_neg]; ring)
  natCast_zero := rfl
  natCast_succ n := ref_inj (by
    change (mk' (n + 1) 0).ref = ((mk' n 0).add (mk' 1 0)).ref
    simp only [ref_add, ref_nat]; push_cast; ring)
  intCast_ofNat n := rfl
  intCast_negSucc n := rfl

instance : DecidableEq Toy := fun x y =>
  if h : x.re = y.re ∧ x.im = y.im then isTrue (by cases x; cases y; simp at h; simp [h])
  else isFalse (fun e => h (by rw [e]; exact ⟨rfl, rfl⟩))

theorem re_lt (x : Toy) : x.norm < toyP := Nat.mod_lt _ (by norm_num)

theorem norm_mul (x y : Toy) : ((x * y).norm : ZMod toyP) = x.norm * y.norm := by
  have h := ref_mul x y
  have h1 : (((x * y).re : Nat) : ZMod toyP) = (x.ref * y.ref).re := by rw [← h]; rfl
  have h2 : (((x * y).im : Nat) : ZMod toyP) = (x.ref * y.ref).im := by rw [← h]; rfl
  rw [norm_cast, norm_cast, norm_cast, h1, h2]
  simp [ref]
  ring

/-- The test that an element is not a square: its norm is not one. -/
def nonsq (x : Toy) : Bool := toyPow 72 x.norm ((toyP - 1) / 2) 1 == toyP - 1

theorem not_square {x : Toy} (h : x.nonsq = true) : ¬IsSquare x := by
  rintro ⟨y, rfl⟩
  rw [nonsq, beq_iff_eq] at h
  have h1 := toyPow_eq 72 (y * y).norm ((toyP - 1) / 2) 1 (by norm_num)
  rw [h, norm_mul, ← sq, ← pow_mul, Nat.cast_one, one_mul] at h1
  have h2 : ((toyP - 1 : Nat) : ZMod toyP) = -1 := by
    rw [Nat.cast_sub (by norm_num), CharP.cast_eq_zero]; simp
  rw [h2] at h1
  have h3 : 2 * ((toyP - 1) / 2) = toyP - 1 := by norm_num
  rw [h3] at h1
  have h21 : (-1 : ZMod toyP) ≠ 1 := by
    intro h4
    have := congrArg ZMod.val h4
    revert this; decide +kernel
  by_cases h0 : (y.norm : ZMod toyP) = 0
  · rw [h0, zero_pow (by norm_num)] at h1
    exact one_ne_zero (neg_eq_zero.mp h1)
  · exact h21 (h1.trans (ZMod.pow_card_sub_one_eq_one h0))

/-- A candidate for the square root. -/
def cand (a : Toy) : Toy :=
  let a1 := a.pow ((toyP - 3) / 4)
  let x0 := a1.mul a
  let al := a1.mul x0
  if al = (mk' 1 0).neg then (mk' 0 1).mul x0 else (((mk' 1 0).add al).pow ((toyP - 1) / 2)).mul x0

open Classical in
/-- The square root: the candidate if it is one; the last case does not occur in computations. -/
noncomputable def sqrt (a : Toy) : Toy × Bool :=
  let x := cand a
  if x.mul x = a then (x, true)
  else if nonsq a then (0, false)
  else if h : IsSquare a then (h.choose, true) else (0, false)

open Classical in
/-- The quadratic character. -/
noncomputable def legendre (a : Toy) : Int :=
  if a = mk' 0 0 then 0
  else if nonsq a then -1
  else if (cand a).mul (cand a) = a then 1
  else if IsSquare a then 1 else -1

noncomputable instance : RootOps Toy where
  sqrt := sqrt
  legendre := legendre
  zeta := mk' 0 1
  sqrt_sq a h := by
    unfold sqrt
    dsimp only
    split_ifs with h1 h2
    · exact ⟨rfl, h1⟩
    · exact absurd h (not_square h2)
    · exact ⟨rfl, h.choose_spec.symm⟩
  sqrt_nonsq a h := by
    unfold sqrt
    dsimp only
    split_ifs with h1 h2
    · exact absurd ⟨_, h1.symm⟩ h
    · rfl
    · rfl
  legendre_zero a := by
    unfold legendre
    change _ ↔ a = mk' 0 0
    split_ifs <;> simp_all
  legendre_one a := by
    unfold legendre
    change _ ↔ a ≠ mk' 0 0 ∧ _
    split_ifs with h0 h1 h2 h3
    · simp [h0]
    · simp [not_square h1]
    · simpa using ⟨h0, ⟨_, h2.symm⟩⟩
    · simp [h0, h3]
    · simp [h3]
  legendre_neg a := by
    unfold legendre
    split_ifs with h0 h1 h2 h3
    · simp only [h0]
      constructor
      · intro h; simp at h
      · intro h; exact absurd ⟨mk' 0 0, by decide +kernel⟩ h
    · simp [not_square h1]
    · simpa using ⟨_, h2.symm⟩
    · simp [h3]
    · simp [h3]
  zeta_sq := by decide +kernel
  two_ne := by decide +kernel

end Toy
end Festa
