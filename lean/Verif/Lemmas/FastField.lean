import Verif.Lemmas.FqRoot
import Verif.Lemmas.FqCard
/-!
Arithmetic in the field of the code with pairs of natural numbers, fast enough for the kernel, and its meaning.
Only used to check facts about concrete points; no property is stated with it.
-/
namespace Festa
open RootOps

/-- The modulus as a literal. -/
def kP : Nat := 124813370954946046625522215052328020445810037362111132960613286328441356722257752720010881927037475586399470137805050608043019087433283648739803958123964308223782110847178313188451195825370794537039688326247916639251700565349771267011273687997230352082398376708996664995018346239500252227115749220824758109724758742435933984445935095514141882211364143691731115285217804939575916379504639999

theorem kP_eq : festaFp.p = kP := by decide +kernel

/-- `re + im i`. -/
structure N2 where
  re : Nat
  im : Nat

namespace N2

/-- The field element. -/
def toFq (a : N2) : Fq := (a.re : Fq) + (a.im : Fq) * zeta

def mul (a b : N2) : N2 :=
  ⟨Nat.mod (Nat.add (Nat.mul a.re b.re) (Nat.sub kP (Nat.mod (Nat.mul a.im b.im) kP))) kP,
   Nat.mod (Nat.add (Nat.mul a.re b.im) (Nat.mul a.im b.re)) kP⟩
def add (a b : N2) : N2 := ⟨Nat.mod (Nat.add a.re b.re) kP, Nat.mod (Nat.add a.im b.im) kP⟩
def sub (a b : N2) : N2 :=
  ⟨Nat.mod (Nat.add a.re (Nat.sub kP (Nat.mod b.re kP))) kP, Nat.mod (Nat.add a.im (Nat.sub kP (Nat.mod b.im kP))) kP⟩

theorem cast_mod (n : Nat) : ((Nat.mod n kP : Nat) : Fq) = n := by
  have h : ((kP : Nat) : Fq) = 0 := by rw [← kP_eq]; exact CharP.cast_eq_zero Fq festaFp.p
  conv_rhs => rw [← Nat.mod_add_div n kP]
  rw [Nat.cast_add, Nat.cast_mul, h, zero_mul, add_zero]
  rfl

theorem cast_sub (n : Nat) : ((Nat.sub kP (Nat.mod n kP) : Nat) : Fq) = -n := by
  have h : ((kP : Nat) : Fq) = 0 := by rw [← kP_eq]; exact CharP.cast_eq_zero Fq festaFp.p
  have hk : 0 < kP := by decide +kernel
  have e : ((kP - Nat.mod n kP : Nat) : Fq) = (kP : Fq) - (Nat.mod n kP : Nat) :=
    Nat.cast_sub (Nat.mod_lt n hk).le
  rw [cast_mod, h, zero_sub] at e
  exact e

theorem toFq_mul (a b : N2) : (mul a b).toFq = a.toFq * b.toFq := by
  have e1 : ((mul a b).re : Fq) = a.re * b.re - a.im * b.im := by
    refine (cast_mod _).trans ?_
    rw [show ∀ x y : Nat, Nat.add x y = x + y from fun _ _ => rfl, Nat.cast_add, cast_sub,
      show ∀ x y : Nat, Nat.mul x y = x * y from fun _ _ => rfl, show ∀ x y : Nat, Nat.mul x y = x * y from fun _ _ => rfl,
      Nat.cast_mul, Nat.cast_mul, sub_eq_add_neg]
  have e2 : ((mul a b).im : Fq) = a.re * b.im + a.im * b.re := by
    refine (cast_mod _).trans ?_
    exact (by push_cast; rfl : ((a.re * b.im + a.im * b.re : Nat) : Fq) = _)
  have hz := zeta_sq (K := Fq)
  unfold toFq
  rw [e1, e2]
  linear_combination (-(a.im : Fq) * b.im) * hz

theorem toFq_add (a b : N2) : (add a b).toFq = a.toFq + b.toFq := by
  have e1 : ((add a b).re : Fq) = a.re + b.re := (cast_mod _).trans (Nat.cast_add _ _)
  have e2 : ((add a b).im : Fq) = a.im + b.im := (cast_mod _).trans (Nat.cast_add _ _)
  unfold toFq
  rw [e1, e2]
  ring

theorem toFq_sub (a b : N2) : (sub a b).toFq = a.toFq - b.toFq := by
  have e1 : ((sub a b).re : Fq) = a.re - b.re := by
    refine (cast_mod _).trans ((Nat.cast_add _ _).trans ?_)
    rw [cast_sub, sub_eq_add_neg]
  have e2 : ((sub a b).im : Fq) = a.im - b.im := by
    refine (cast_mod _).trans ((Nat.cast_add _ _).trans ?_)
    rw [cast_sub, sub_eq_add_neg]
  unfold toFq
  rw [e1, e2]
  ring

/-- Both coordinates are multiples of the modulus. -/
def isZero (a : N2) : Bool := Nat.beq (Nat.mod a.re kP) 0 && Nat.beq (Nat.mod a.im kP) 0

theorem toFq_eq_zero (a : N2) : a.toFq = 0 ↔ a.isZero = true := by
  have ez : (zeta : Fq).val = ⟨0, 1⟩ := Fq.val_eq (a := Fq.zetaCode) ⟨rep_zero festa_valid, rep_R_VAL festa_valid⟩
  have en : ∀ n : Nat, (n : Fq).val = (n : F2 festaFp) := fun n => map_natCast Fq.equiv n
  have ev : a.toFq.val = ⟨(a.re : ZMod festaFp.p), (a.im : ZMod festaFp.p)⟩ := by
    unfold toFq
    rw [Fq.val_add, Fq.val_mul, en, en, ez]
    ext <;> simp
  have h1 : a.toFq = 0 ↔ (a.re : ZMod festaFp.p) = 0 ∧ (a.im : ZMod festaFp.p) = 0 := by
    constructor
    · intro h
      rw [h, Fq.val_zero] at ev
      have := QuadraticAlgebra.ext_iff.mp ev
      exact ⟨this.1.symm, this.2.symm⟩
    · intro h
      apply Fq.val_inj
      rw [ev, h.1, h.2, Fq.val_zero]
      rfl
  rw [h1, ZMod.natCast_eq_zero_iff, ZMod.natCast_eq_zero_iff, kP_eq, isZero, Bool.and_eq_true]
  rw [show Nat.mod a.re kP = a.re % kP from rfl, show Nat.mod a.im kP = a.im % kP from rfl]
  rw [Nat.dvd_iff_mod_eq_zero, Nat.dvd_iff_mod_eq_zero]
  exact and_congr ⟨fun h => by rw [h]; rfl, Nat.eq_of_beq_eq_true⟩ ⟨fun h => by rw [h]; rfl, Nat.eq_of_beq_eq_true⟩

theorem toFq_one : toFq ⟨1, 0⟩ = 1 := by simp [toFq]
theorem toFq_zero : toFq ⟨0, 0⟩ = 0 := by simp [toFq]

/-- Evaluates a number before it is used. -/
def force {α : Type} (x : Nat) (f : Nat → α) : α := Nat.rec (f 0) (fun n _ => f (Nat.succ n)) x

theorem force_eq {α : Type} (x : Nat) (f : Nat → α) : force x f = f x := by cases x <;> rfl

def force2 {α : Type} (x : N2) (f : N2 → α) : α := force x.re fun a => force x.im fun b => f ⟨a, b⟩

theorem force2_eq {α : Type} (x : N2) (f : N2 → α) : force2 x f = f x := by simp only [force2, force_eq]

/-- Powers, by the binary digits of the exponent from the top: the last `t` digits of `n`. -/
def powGo (a : N2) (n : Nat) : Nat → N2 → N2
  | 0, s => s
  | t + 1, s => force2 (mul s s) fun s => if Nat.testBit n t then force2 (mul s a) fun s => powGo a n t s else powGo a n t s

theorem powGo_spec (a : N2) (n t : Nat) (s : N2) : (powGo a n t s).toFq = s.toFq ^ 2 ^ t * a.toFq ^ (n % 2 ^ t) := by
  induction t generalizing s with
  | zero => simp [powGo, Nat.mod_one]
  | succ t ih =>
    have e : n % 2 ^ (t + 1) = n % 2 ^ t + 2 ^ t * (n.testBit t).toNat := by
      rw [Nat.mod_pow_succ, Nat.toNat_testBit]
    unfold powGo
    rw [force2_eq]
    cases hb : n.testBit t
    · rw [if_neg (by simp), ih, toFq_mul, e, hb]
      simp only [Bool.toNat_false, mul_zero, add_zero]
      rw [← pow_two, ← pow_mul, ← pow_succ']
    · rw [if_pos rfl, force2_eq, ih, toFq_mul, toFq_mul, e, hb]
      simp only [Bool.toNat_true, mul_one]
      rw [← pow_two, mul_pow, ← pow_mul, ← pow_succ', pow_add]
      ring

end N2
end Festa
