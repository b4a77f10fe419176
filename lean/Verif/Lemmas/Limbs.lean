import Verif.Spec.Fp
import Verif.Lemmas.Word
import Mathlib.Tactic.Linarith
import Mathlib.Tactic.Ring
/-! Value lemmas for the carry loops (model: `Verif.Model.Fp`). -/
namespace Festa

theorem Wsucc (n : Nat) : ((2 : Nat) ^ 64) ^ (n + 1) = (2 ^ 64) ^ n * 2 ^ 64 := pow_succ _ _

@[simp] theorem lval_nil : lval [] = 0 := rfl
@[simp] theorem lval_cons (x : UInt64) (xs : Limbs) :
    lval (x :: xs) = x.toNat + 2 ^ 64 * lval xs := rfl

theorem lval_lt (x : Limbs) : lval x < (2 ^ 64) ^ x.length := by
  induction x with
  | nil => simp
  | cons a as ih =>
    have := a.toNat_lt
    simp only [lval_cons, List.length_cons, Wsucc]
    have h : lval as + 1 ≤ (2 ^ 64) ^ as.length := ih
    nlinarith

theorem lval_append (x y : Limbs) : lval (x ++ y) = lval x + (2 ^ 64) ^ x.length * lval y := by
  induction x with
  | nil => simp
  | cons a as ih =>
    simp only [List.cons_append, lval_cons, ih, List.length_cons, Wsucc]
    ring

theorem lval_inj {x y : Limbs} (hl : x.length = y.length) (h : lval x = lval y) : x = y := by
  induction x generalizing y with
  | nil => simp at hl; exact (List.length_eq_zero_iff.1 hl.symm).symm
  | cons a as ih =>
    cases y with
    | nil => simp at hl
    | cons b bs =>
      simp only [lval_cons] at h
      have ha := a.toNat_lt
      have hb := b.toNat_lt
      have h1 : a.toNat = b.toNat := by omega
      have h2 : lval as = lval bs := by omega
      rw [ih (by simpa using hl) h2, UInt64.toNat_inj.1 h1]

theorem lval_replicate_zero (n : Nat) : lval (List.replicate n 0) = 0 := by
  induction n with
  | zero => rfl
  | succ n ih => simp [List.replicate_succ, ih]

theorem lval_map_zero_and (m : Limbs) : lval (m.map ((0 : UInt64) &&& ·)) = 0 := by
  simp [lval_replicate_zero]

theorem lval_map_neg_one_and (m : Limbs) : m.map ((-1 : UInt64) &&& ·) = m := by
  simp

theorem addLoop_length {x y : Limbs} (h : x.length = y.length) (c : Bool) :
    (addLoop x y c).1.length = x.length := by
  induction x generalizing y c with
  | nil => simp [addLoop]
  | cons a as ih =>
    cases y with
    | nil => simp at h
    | cons b bs => simp only [addLoop, List.length_cons]; rw [ih (by simpa using h)]

theorem addLoop_spec {x y : Limbs} (h : x.length = y.length) (c : Bool) :
    lval (addLoop x y c).1 + (2 ^ 64) ^ x.length * (addLoop x y c).2.toNat
      = lval x + lval y + c.toNat := by
  induction x generalizing y c with
  | nil =>
    have : y = [] := by simpa using h.symm
    subst this; simp [addLoop]
  | cons a as ih =>
    cases y with
    | nil => simp at h
    | cons b bs =>
      have h1 := addcarry_spec a b c
      have h2 := ih (y := bs) (by simpa using h) (addcarry a b c).2
      simp only [addLoop, lval_cons, List.length_cons, Wsucc]
      linarith

theorem subLoop_length {x y : Limbs} (h : x.length = y.length) (c : Bool) :
    (subLoop x y c).1.length = x.length := by
  induction x generalizing y c with
  | nil => simp [subLoop]
  | cons a as ih =>
    cases y with
    | nil => simp at h
    | cons b bs => simp only [subLoop, List.length_cons]; rw [ih (by simpa using h)]

theorem subLoop_spec {x y : Limbs} (h : x.length = y.length) (c : Bool) :
    lval (subLoop x y c).1 + lval y + c.toNat
      = lval x + (2 ^ 64) ^ x.length * (subLoop x y c).2.toNat := by
  induction x generalizing y c with
  | nil =>
    have : y = [] := by simpa using h.symm
    subst this; simp [subLoop]
  | cons a as ih =>
    cases y with
    | nil => simp at h
    | cons b bs =>
      have h1 := subborrow_spec a b c
      have h2 := ih (y := bs) (by simpa using h) (subborrow a b c).2
      simp only [subLoop, lval_cons, List.length_cons, Wsucc]
      linarith

/-- The final borrow tells whether the first operand is smaller. -/
theorem subLoop_borrow {x y : Limbs} (h : x.length = y.length) :
    (subLoop x y false).2 = decide (lval x < lval y) := by
  have h1 := subLoop_spec h false
  have h2 := lval_lt (subLoop x y false).1
  rw [subLoop_length h] at h2
  have h3 := lval_lt x
  cases hc : (subLoop x y false).2 <;> simp only [hc] at h1 <;> symm <;> simp <;> simp at h1 <;>
    simp at h2 <;> omega

theorem macLoop_length (f : UInt64) {m t : Limbs} (h : m.length = t.length) (c : UInt64) :
    (macLoop f m t c).1.length = m.length := by
  induction m generalizing t c with
  | nil => simp [macLoop]
  | cons a as ih =>
    cases t with
    | nil => simp at h
    | cons b bs => simp only [macLoop, List.length_cons]; rw [ih (by simpa using h)]

theorem macLoop_spec (f : UInt64) {m t : Limbs} (h : m.length = t.length) (c : UInt64) :
    lval (macLoop f m t c).1 + (2 ^ 64) ^ m.length * (macLoop f m t c).2.toNat
      = f.toNat * lval m + lval t + c.toNat := by
  induction m generalizing t c with
  | nil =>
    have : t = [] := by simpa using h.symm
    subst this; simp [macLoop]
  | cons a as ih =>
    cases t with
    | nil => simp at h
    | cons b bs =>
      have h1 := umullAdd2_spec f a b c
      have h2 := ih (t := bs) (by simpa using h) (umullAdd2 f a b c).2
      simp only [macLoop, lval_cons, List.length_cons, Wsucc]
      linarith

theorem mulWordLoop_length (k : UInt64) (x : Limbs) (c : UInt64) :
    (mulWordLoop k x c).1.length = x.length := by
  induction x generalizing c with
  | nil => simp [mulWordLoop]
  | cons a as ih => simp only [mulWordLoop, List.length_cons]; rw [ih]

theorem mulWordLoop_spec (k : UInt64) (x : Limbs) (c : UInt64) :
    lval (mulWordLoop k x c).1 + (2 ^ 64) ^ x.length * (mulWordLoop k x c).2.toNat
      = lval x * k.toNat + c.toNat := by
  induction x generalizing c with
  | nil => simp [mulWordLoop]
  | cons a as ih =>
    have h1 := umullAdd_spec a k c
    have h2 := ih (umullAdd a k c).2
    simp only [mulWordLoop, lval_cons, List.length_cons, Wsucc]
    linarith

end Festa
