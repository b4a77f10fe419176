import Mathlib.Algebra.QuadraticAlgebra.Basic
import Mathlib.Data.ZMod.Basic
import Mathlib.FieldTheory.Finite.Basic
import Mathlib.Algebra.CharP.Algebra
import Mathlib.Algebra.CharP.Lemmas
import Mathlib.GroupTheory.OrderOfElement
import Mathlib.Tactic.Ring
import Mathlib.Tactic.LinearCombination
/-! A primality criterion of "N+1" type (Morrison), used for the FESTA modulus.

Arithmetic in `(ℤ/n)[i]` on pairs of naturals, evaluated by the kernel. -/
namespace Festa.Morrison

theorem qre_one {q : Nat} : (1 : QuadraticAlgebra (ZMod q) (-1) 0).re = 1 := rfl
theorem qim_one {q : Nat} : (1 : QuadraticAlgebra (ZMod q) (-1) 0).im = 0 := rfl

/-- Force evaluation of a natural number before continuing (kernel reduction order). -/
def force {α : Type} (x : Nat) (f : Nat → α) : α := Nat.casesOn x (f 0) (fun k => f (k + 1))

theorem force_eq {α : Type} (x : Nat) (f : Nat → α) : force x f = f x := by
  cases x <;> rfl

/-- Square-and-multiply for `(a + b i)^e` modulo `n`, with accumulator `(c, d)`, base `(a, b)`. -/
def gpow (n : Nat) : Nat → Nat → Nat → Nat → Nat → Nat → Nat × Nat
  | 0, _, _, _, c, d => (c, d)
  | fuel + 1, e, a, b, c, d =>
    force (e / 2) fun e' =>
    force ((a * a + (n - b) * b) % n) fun a' =>
    force (2 * a * b % n) fun b' =>
    if e % 2 = 1 then
      force ((c * a + (n - d) * b) % n) fun c' =>
      force ((c * b + d * a) % n) fun d' => gpow n fuel e' a' b' c' d'
    else gpow n fuel e' a' b' c d

/-- Reduction of an integer pair in `(ℤ/q)[i]`. -/
def toQ (q : Nat) (a b : Nat) : QuadraticAlgebra (ZMod q) (-1) 0 := ⟨a, b⟩

theorem gpow_spec {n q : Nat} (hq : q ∣ n) (hn : 0 < n) (fuel e a b c d : Nat) (he : e < 2 ^ fuel)
    (hb : b < n) (hd : d < n) :
    toQ q (gpow n fuel e a b c d).1 (gpow n fuel e a b c d).2 = toQ q c d * toQ q a b ^ e := by
  have hn0 : (n : ZMod q) = 0 := (ZMod.natCast_eq_zero_iff _ _).2 hq
  have hmod : ∀ x : Nat, ((x % n : Nat) : ZMod q) = x := by
    intro x
    have := congrArg (Nat.cast (R := ZMod q)) (Nat.div_add_mod x n)
    push_cast at this
    rw [hn0] at this
    simpa using this
  induction fuel generalizing e a b c d with
  | zero =>
    have : e = 0 := by simpa using he
    subst this
    simp [gpow]
  | succ f ih =>
    unfold gpow
    simp only [force_eq]
    have hsq : toQ q ((a * a + (n - b) * b) % n) (2 * a * b % n) = toQ q a b * toQ q a b := by
      unfold toQ
      rw [QuadraticAlgebra.mk_mul_mk]
      ext
      · simp only [hmod]; push_cast [Nat.cast_sub hb.le]; rw [hn0]; ring
      · simp only [hmod]; push_cast; ring
    have hlt : 2 * a * b % n < n := Nat.mod_lt _ hn
    have he' : e / 2 < 2 ^ f := by rw [pow_succ] at he; omega
    split_ifs with h
    · rw [ih _ _ _ _ _ he' hlt (Nat.mod_lt _ hn), hsq]
      have hmul : toQ q ((c * a + (n - d) * b) % n) ((c * b + d * a) % n) = toQ q c d * toQ q a b := by
        unfold toQ
        rw [QuadraticAlgebra.mk_mul_mk]
        ext
        · simp only [hmod]; push_cast [Nat.cast_sub hd.le]; rw [hn0]; ring
        · simp only [hmod]; push_cast; ring
      rw [hmul, ← sq, ← pow_mul]
      have : e = 2 * (e / 2) + 1 := by omega
      conv_rhs => rw [this]
      rw [pow_succ]; ring
    · rw [ih _ _ _ _ _ he' hlt hd, hsq, ← sq, ← pow_mul]
      have : e = 2 * (e / 2) := by omega
      conv_rhs => rw [this]

theorem order_dvd {d m l k : Nat} (hl : l.Prime) (hd : d ∣ m) (hm : 0 < m) (hnd : ¬ d ∣ m / l)
    (hk : l ^ k ∣ m) : l ^ k ∣ d := by
  obtain ⟨c, rfl⟩ := hd
  have hc : ¬ l ∣ c := by
    rintro ⟨c', rfl⟩
    apply hnd
    rw [show d * (l * c') = l * (d * c') by ring, Nat.mul_div_cancel_left _ hl.pos]
    exact Dvd.intro _ rfl
  have hco : Nat.Coprime (l ^ k) c := Nat.Coprime.pow_left _ ((Nat.Prime.coprime_iff_not_dvd hl).2 hc)
  exact hco.dvd_of_dvd_mul_right hk

/-- In `(ℤ/q)[i]`, `q` an odd prime, an element of norm one is killed by `q - 1` or `q + 1`. -/
theorem frob {q : Nat} [hq : Fact q.Prime] (hodd : q % 2 = 1) (z : QuadraticAlgebra (ZMod q) (-1) 0)
    (hz : z.re * z.re + z.im * z.im = 1) : z ^ (q - 1) = 1 ∨ z ^ (q + 1) = 1 := by
  have hch : CharP (QuadraticAlgebra (ZMod q) (-1) 0) q :=
    charP_of_injective_algebraMap QuadraticAlgebra.algebraMap_injective q
  have hq1 : 1 ≤ q := hq.out.pos
  have hi2 : (⟨0, 1⟩ : QuadraticAlgebra (ZMod q) (-1) 0) ^ 2 = -1 := by
    rw [sq, QuadraticAlgebra.mk_mul_mk]; ext <;> simp [qre_one, qim_one]
  have hiq : (⟨0, 1⟩ : QuadraticAlgebra (ZMod q) (-1) 0) ^ q = ⟨0, 1⟩ ∨
      (⟨0, 1⟩ : QuadraticAlgebra (ZMod q) (-1) 0) ^ q = -⟨0, 1⟩ := by
    have : q = 2 * (q / 2) + 1 := by omega
    have e : (⟨0, 1⟩ : QuadraticAlgebra (ZMod q) (-1) 0) ^ q = (-1) ^ (q / 2) * ⟨0, 1⟩ := by
      rw [← hi2, ← pow_mul, ← pow_succ, ← this]
    rw [e]
    rcases neg_one_pow_eq_or (QuadraticAlgebra (ZMod q) (-1) 0) (q / 2) with h | h <;> rw [h] <;> simp
  have hz' : z = algebraMap (ZMod q) _ z.re + algebraMap (ZMod q) _ z.im * ⟨0, 1⟩ := by
    rw [QuadraticAlgebra.algebraMap_eq, QuadraticAlgebra.algebraMap_eq]
    ext <;> simp
  have hzq : z ^ q = algebraMap (ZMod q) _ z.re +
      algebraMap (ZMod q) _ z.im * (⟨0, 1⟩ : QuadraticAlgebra (ZMod q) (-1) 0) ^ q := by
    conv_lhs => rw [hz']
    rw [add_pow_char, mul_pow, ← map_pow, ← map_pow, ZMod.pow_card, ZMod.pow_card]
  have hconj : z * (algebraMap (ZMod q) _ z.re + algebraMap (ZMod q) _ z.im * (-⟨0, 1⟩)) = 1 := by
    rw [QuadraticAlgebra.algebraMap_eq, QuadraticAlgebra.algebraMap_eq]
    ext
    · simp [qre_one]; linear_combination hz
    · simp [qim_one]; ring
  rcases hiq with h | h
  · left
    rw [h, ← hz'] at hzq
    have hu : IsUnit z := ⟨⟨z, _, hconj, by rw [mul_comm]; exact hconj⟩, rfl⟩
    apply hu.mul_left_cancel
    rw [← pow_succ', Nat.sub_add_cancel hq1, hzq, mul_one]
  · right
    rw [h] at hzq
    rw [pow_succ', hzq, hconj]

/-- The primality criterion, with two prime factors `2` and `l` of `n + 1` used. -/
theorem prime_of_cert (n a b l s F f : Nat) (hl : l.Prime) (hl2 : l ≠ 2) (hn : 1 < n)
    (hodd : n % 2 = 1) (ha : b < n) (hF : F = 2 ^ s * l) (hFd : F ∣ n + 1)
    (hFsq : n < (F - 1) * (F - 1)) (hfuel : n + 1 < 2 ^ f)
    (hnorm : (a * a + b * b) % n = 1)
    (h1 : gpow n f (n + 1) a b 1 0 = (1, 0))
    (h2 : Nat.gcd (((gpow n f ((n + 1) / 2) a b 1 0).1 + (n - 1)) ^ 2 +
      (gpow n f ((n + 1) / 2) a b 1 0).2 ^ 2) n = 1)
    (h3 : Nat.gcd (((gpow n f ((n + 1) / l) a b 1 0).1 + (n - 1)) ^ 2 +
      (gpow n f ((n + 1) / l) a b 1 0).2 ^ 2) n = 1) : n.Prime := by
  by_contra hnp
  have hqp := Nat.minFac_prime (n := n) (by omega)
  have hqd := Nat.minFac_dvd n
  have hqs := Nat.minFac_sq_le_self (by omega : 0 < n) hnp
  generalize n.minFac = q at *
  have hfact : Fact q.Prime := ⟨hqp⟩
  have hn0 : (n : ZMod q) = 0 := (ZMod.natCast_eq_zero_iff _ _).2 hqd
  have hqodd : q % 2 = 1 := by
    rcases hqp.eq_two_or_odd with h | h
    · rw [h] at hqd; omega
    · exact h
  have key : ∀ e, e < 2 ^ f → toQ q (gpow n f e a b 1 0).1 (gpow n f e a b 1 0).2 = toQ q a b ^ e := by
    intro e he
    rw [gpow_spec hqd (by omega) f e a b 1 0 he ha (by omega)]
    have : toQ q 1 0 = 1 := by unfold toQ; ext <;> simp [qre_one, qim_one]
    rw [this, one_mul]
  have hpow : toQ q a b ^ (n + 1) = 1 := by
    rw [← key _ hfuel, h1]; unfold toQ; ext <;> simp [qre_one, qim_one]
  have hne : ∀ m : Nat, 1 ≤ m → Nat.gcd (((gpow n f ((n + 1) / m) a b 1 0).1 + (n - 1)) ^ 2 +
      (gpow n f ((n + 1) / m) a b 1 0).2 ^ 2) n = 1 → toQ q a b ^ ((n + 1) / m) ≠ 1 := by
    intro m hm hg heq
    have hlt : (n + 1) / m < 2 ^ f := lt_of_le_of_lt (Nat.div_le_self _ _) hfuel
    rw [← key _ hlt] at heq
    unfold toQ at heq
    have e1 := congrArg QuadraticAlgebra.re heq
    have e2 := congrArg QuadraticAlgebra.im heq
    simp only [qre_one, qim_one] at e1 e2
    have : (((gpow n f ((n + 1) / m) a b 1 0).1 + (n - 1)) ^ 2 +
      (gpow n f ((n + 1) / m) a b 1 0).2 ^ 2 : Nat) = (0 : ZMod q) := by
      push_cast [Nat.cast_sub (show 1 ≤ n by omega)]
      rw [e1, e2, hn0]; ring
    have hd := (ZMod.natCast_eq_zero_iff _ _).1 this
    have := Nat.dvd_gcd hd hqd
    rw [hg] at this
    exact hqp.one_lt.ne' (Nat.dvd_one.1 this)
  have hod : orderOf (toQ q a b) ∣ n + 1 := orderOf_dvd_of_pow_eq_one hpow
  have hd2 : 2 ^ s ∣ orderOf (toQ q a b) := by
    apply order_dvd Nat.prime_two hod (by omega)
    · intro h; exact hne 2 (by norm_num) h2 (orderOf_dvd_iff_pow_eq_one.1 h)
    · exact (Dvd.intro _ hF.symm).trans hFd
  have hdl : l ^ 1 ∣ orderOf (toQ q a b) := by
    apply order_dvd hl hod (by omega)
    · intro h; exact hne l hl.pos h3 (orderOf_dvd_iff_pow_eq_one.1 h)
    · rw [pow_one]; exact (Dvd.intro_left _ hF.symm).trans hFd
  have hco : Nat.Coprime (2 ^ s) (l ^ 1) := by
    apply Nat.Coprime.pow
    exact (Nat.coprime_primes Nat.prime_two hl).2 (Ne.symm hl2)
  have hFo : F ∣ orderOf (toQ q a b) := by
    rw [hF, ← pow_one l]; exact hco.mul_dvd_of_dvd_of_dvd hd2 hdl
  have hnormq : (toQ q a b).re * (toQ q a b).re + (toQ q a b).im * (toQ q a b).im = 1 := by
    have := congrArg (Nat.cast (R := ZMod q)) (Nat.div_add_mod (a * a + b * b) n)
    rw [hnorm] at this
    push_cast at this
    rw [hn0] at this
    unfold toQ
    simp only
    rw [← this]; ring
  have hq2 := hqp.two_le
  have hFle : F ≤ q + 1 := by
    rcases frob hqodd _ hnormq with h | h
    · have := Nat.le_of_dvd (by omega) (hFo.trans (orderOf_dvd_of_pow_eq_one h)); omega
    · exact Nat.le_of_dvd (by omega) (hFo.trans (orderOf_dvd_of_pow_eq_one h))
  have : (F - 1) * (F - 1) ≤ q * q := Nat.mul_le_mul (by omega) (by omega)
  rw [sq] at hqs
  omega

end Festa.Morrison
