import Verif.Model.Entangled
import Verif.Lemmas.FqRoot
import Verif.Props.FpPow
/-!
The Rust type `Fp` as a field (reduced limb vectors with the code's own routines), and the access of
`Fq` to its coefficients.
-/
namespace Festa

/-- Values of the Rust type `Fp`: reduced limb vectors (the representation invariant). -/
def Fr := {a : Limbs // Reduced festaFp a}

namespace Fr

instance : DecidableEq Fr := inferInstanceAs (DecidableEq {a : Limbs // Reduced festaFp a})

/-- The residue class represented by a value. -/
noncomputable def val (a : Fr) : ZMod festaFp.p := (exists_rep_val festa_valid a.2).choose

theorem rep (a : Fr) : Rep festaFp a.1 a.val := (exists_rep_val festa_valid a.2).choose_spec

theorem div_rep (a b : Fr) : ∃ u, Rep festaFp (fpDiv festaFp a.1 b.1) u ∧
    (b.val ≠ 0 → u * b.val = a.val) ∧ (b.val = 0 → u = 0) :=
  div_form festa_valid Fq.div_valid festa_roots a.rep b.rep

theorem inv_rep (b : Fr) : ∃ u, Rep festaFp (fpInvert festaFp b.1) u ∧
    (b.val ≠ 0 → u * b.val = 1) ∧ (b.val = 0 → u = 0) := by
  unfold fpInvert
  exact div_form festa_valid Fq.div_valid festa_roots (rep_R_VAL festa_valid) b.rep

attribute [local irreducible] fpInvert fpDiv in
instance : Inv Fr := ⟨fun a => ⟨fpInvert festaFp a.1, by
  obtain ⟨u, hu, -⟩ := inv_rep a
  exact hu.1⟩⟩

attribute [local irreducible] fpInvert fpDiv in
theorem inv_code (a : Fr) : (a⁻¹).1 = fpInvert festaFp a.1 := rfl

instance : Add Fr := ⟨fun a b => ⟨fpAdd festaFp a.1 b.1, (rep_add festa_valid a.rep b.rep).1⟩⟩
instance : Mul Fr := ⟨fun a b => ⟨fpMul festaFp a.1 b.1, (rep_mul festa_valid a.rep b.rep).1⟩⟩
instance : Neg Fr := ⟨fun a => ⟨fpNeg festaFp a.1, (rep_neg festa_valid a.rep).1⟩⟩
instance : Zero Fr := ⟨⟨fpZero festaFp, (rep_zero festa_valid).1⟩⟩
instance : One Fr := ⟨⟨festaFp.R_VAL, (rep_R_VAL festa_valid).1⟩⟩

theorem val_eq {a : Fr} {z : ZMod festaFp.p} (h : Rep festaFp a.1 z) : a.val = z :=
  rep_unique festa_valid a.rep h

theorem val_inj {a b : Fr} (h : a.val = b.val) : a = b :=
  Subtype.ext (rep_inj a.rep (h ▸ b.rep))

theorem val_add (a b : Fr) : (a + b).val = a.val + b.val :=
  val_eq (rep_add festa_valid a.rep b.rep)
theorem val_mul (a b : Fr) : (a * b).val = a.val * b.val :=
  val_eq (rep_mul festa_valid a.rep b.rep)
theorem val_neg (a : Fr) : (-a).val = -a.val := val_eq (rep_neg festa_valid a.rep)
theorem val_zero : (0 : Fr).val = 0 := val_eq (rep_zero festa_valid)
theorem val_one : (1 : Fr).val = 1 := val_eq (rep_R_VAL festa_valid)

theorem val_inv_mul (a : Fr) (h : a ≠ 0) : a⁻¹.val * a.val = 1 := by
  obtain ⟨u, hu, h1, -⟩ := inv_rep a
  have : a⁻¹.val = u := val_eq (by rw [inv_code]; exact hu)
  rw [this, h1 fun h0 => h (val_inj (h0.trans val_zero.symm))]

theorem inv_zero' : (0 : Fr)⁻¹ = 0 := by
  obtain ⟨u, hu, -, h1⟩ := inv_rep 0
  apply val_inj
  rw [val_eq (a := (0 : Fr)⁻¹) (by rw [inv_code]; exact hu), h1 val_zero, val_zero]

/-- The code's arithmetic is a field. -/
instance instField : Field Fr := Field.ofMinimalAxioms Fr
  (fun a b c => val_inj (by simp only [val_add]; ring))
  (fun a => val_inj (by simp only [val_add, val_zero]; ring))
  (fun a => val_inj (by simp only [val_add, val_neg, val_zero]; ring))
  (fun a b c => val_inj (by simp only [val_mul]; ring))
  (fun a b => val_inj (by simp only [val_mul]; ring))
  (fun a => val_inj (by simp only [val_mul, val_one]; ring))
  (fun a h => val_inj (by rw [val_mul, mul_comm, val_inv_mul a h, val_one]))
  inv_zero'
  (fun a b c => val_inj (by simp only [val_mul, val_add]; ring))
  ⟨0, 1, fun h => by
    have := congrArg val h
    rw [val_zero, val_one] at this
    have hf := Fact.mk festa_prime
    exact zero_ne_one this⟩

theorem val_sub (a b : Fr) : (a - b).val = a.val - b.val := by
  rw [sub_eq_add_neg, val_add, val_neg, ← sub_eq_add_neg]

theorem val_pow (a : Fr) (n : Nat) : (a ^ n).val = a.val ^ n := by
  induction n with
  | zero => rw [pow_zero, pow_zero, val_one]
  | succ n ih => rw [pow_succ, pow_succ, val_mul, ih]

theorem val_surj (z : ZMod festaFp.p) : ∃ a : Fr, a.val = z := by
  obtain ⟨x, hx⟩ := exists_rep festa_valid z
  exact ⟨⟨x, hx.1⟩, val_eq (a := ⟨x, hx.1⟩) hx⟩

theorem val_eq_zero (a : Fr) : a.val = 0 ↔ a = 0 :=
  ⟨fun h => val_inj (h.trans val_zero.symm), fun h => h ▸ val_zero⟩

/-- The routines used by `entangled_torsion_basis` in terms of the field operations. -/
theorem pow_code (a : Fr) (n : Nat) : fpPowBig festaFp a.1 n = some (a ^ n).1 := by
  obtain ⟨r, h1, h2⟩ := C13_pow_big festa_valid a.rep n
  rw [h1]
  congr 1
  exact rep_inj h2 (val_pow a n ▸ (a ^ n).rep)

theorem square_code (a : Fr) : (a * a).1 = fpSquare festaFp a.1 :=
  rep_inj (val_mul a a ▸ (a * a).rep) (rep_square festa_valid a.rep)

theorem two_ne : (2 : Fr) ≠ 0 := by
  intro h
  have h' : (1 + 1 : Fr).val = 0 := by rw [one_add_one_eq_two, h, val_zero]
  rw [val_add, val_one, one_add_one_eq_two] at h'
  exact two_ne_zero' festa_roots h'

theorem half_code (a : Fr) : (a / 2).1 = fpHalf festaFp a.1 := by
  have h : (a / 2).val + (a / 2).val = a.val := by
    rw [← val_add, ← two_mul, mul_div_cancel₀ a two_ne]
  exact rep_inj (a / 2).rep (rep_half festa_valid a.rep h)

theorem div_code (a b : Fr) : (a / b).1 = fpDiv festaFp a.1 b.1 := by
  obtain ⟨u, hu, h1, h2⟩ := div_rep a b
  have : (a / b).val = u := by
    by_cases hb : b = 0
    · subst hb
      rw [h2 val_zero, div_zero, val_zero]
    · have hb' : b.val ≠ 0 := fun h => hb ((val_eq_zero b).mp h)
      have hf := Fact.mk festa_prime
      apply mul_right_cancel₀ hb'
      rw [h1 hb', ← val_mul, div_mul_cancel₀ a hb]
  exact rep_inj (this ▸ (a / b).rep) hu

theorem isSquare_val (a : Fr) : IsSquare a ↔ IsSquare a.val := by
  constructor
  · rintro ⟨r, rfl⟩
    exact ⟨r.val, val_mul r r⟩
  · rintro ⟨r, hr⟩
    obtain ⟨b, rfl⟩ := val_surj r
    exact ⟨b, val_inj (by rw [val_mul, hr])⟩

end Fr

theorem pow_root_cases {x : ZMod festaFp.p} :
    (IsSquare x ∧ x ^ ((festaFp.p + 1) / 4) * x ^ ((festaFp.p + 1) / 4) = x) ∨
    (¬ IsSquare x ∧ x ^ ((festaFp.p + 1) / 4) * x ^ ((festaFp.p + 1) / 4) = -x) := by
  have hf := Fact.mk festa_prime
  have h8 := festa_roots.mod8
  have e4 : x ^ ((festaFp.p + 1) / 4) * x ^ ((festaFp.p + 1) / 4) = x ^ (festaFp.p / 2) * x := by
    rw [← pow_add, ← pow_succ]
    exact congrArg (x ^ ·) (by omega)
  rw [e4]
  by_cases h0 : x = 0
  · subst h0
    left
    exact ⟨⟨0, by simp⟩, by simp⟩
  · by_cases hs : IsSquare x
    · left
      refine ⟨hs, ?_⟩
      rw [(ZMod.euler_criterion _ h0).mp hs, one_mul]
    · right
      refine ⟨hs, ?_⟩
      rcases ZMod.pow_div_two_eq_neg_one_or_one _ h0 with h | h
      · exact absurd ((ZMod.euler_criterion _ h0).mpr h) hs
      · rw [h, neg_one_mul]

namespace Fq

/-- `Fp2::new`, fp2_gen.rs:73-78. -/
def newCode (a b : Fr) : Fq := ⟨⟨a.1, b.1⟩, a.2, b.2⟩
/-- `get_coeff`, fp2_gen.rs:80-82. -/
def coeffCode (t : Fq) : Fr × Fr := (⟨t.1.x0, t.2.1⟩, ⟨t.1.x1, t.2.2⟩)

theorem val_new (a b : Fr) : (newCode a b).val = ⟨a.val, b.val⟩ :=
  val_eq (a := newCode a b) ⟨a.rep, b.rep⟩

instance : CoeffOps Fr Fq where
  new := newCode
  coeff := coeffCode
  rootExp := (festaFp.p + 1) / 4
  new_coeff _ := rfl
  coeff_new _ _ := rfl
  new_add a b c d := by
    apply val_inj
    rw [val_add, val_new, val_new, val_new]
    apply QuadraticAlgebra.ext <;> simp [Fr.val_add]
  new_mul a b c d := by
    apply val_inj
    rw [val_mul, val_new, val_new, val_new]
    apply QuadraticAlgebra.ext
    · rw [F2.mul_re]; simp [Fr.val_sub, Fr.val_mul]
    · rw [F2.mul_im]; simp [Fr.val_add, Fr.val_mul]
  new_neg a b := by
    apply val_inj
    rw [val_neg, val_new, val_new]
    apply QuadraticAlgebra.ext <;> simp [Fr.val_neg]
  new_one := rfl
  new_zeta := by
    apply Subtype.ext
    rfl
  pow_rootExp z := by
    rw [Fr.isSquare_val]
    rcases pow_root_cases (x := z.val) with ⟨h1, h2⟩ | ⟨h1, h2⟩
    · left; exact ⟨h1, Fr.val_inj (by rw [Fr.val_mul, Fr.val_pow, h2])⟩
    · right; exact ⟨h1, Fr.val_inj (by rw [Fr.val_mul, Fr.val_pow, h2, Fr.val_neg])⟩
  two_ne' := Fr.two_ne

/-- `pow_big`, fp2_gen.rs:611-615, in terms of the field power. -/
theorem pow_code (a : Fq) (n : Nat) : fp2PowBig festaFp a.1 n = some (a ^ n).1 := by
  obtain ⟨r, h1, h2⟩ := pow2Big_spec festa_valid a.rep n
  rw [h1]
  congr 1
  refine rep2_inj h2 ?_
  have : (a ^ n).val = a.val ^ n := by
    clear h1 h2
    induction n with
    | zero => rw [pow_zero, pow_zero, val_one]
    | succ n ih => rw [pow_succ, pow_succ, val_mul, ih]
  exact this ▸ (a ^ n).rep

end Fq
end Festa
