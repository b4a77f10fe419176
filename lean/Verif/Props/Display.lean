import Verif.Model.Display
import Verif.Lemmas.FqRoot
import Verif.Props.FpBytes
import Verif.Props.Fp2
/-!
Property C80: what is printed identifies the value.
-/
namespace Festa
variable {P : FpParams}

theorem leBytesVal_eq (bs : List UInt8) : leBytesVal bs = bval bs := by
  induction bs with
  | nil => rfl
  | cons b bs ih => simp only [leBytesVal, bval, ih]

/-- C80, base field: the text is the decimal notation of the residue between `0` and `p - 1`. -/
theorem C80_fp (hV : P.Valid) {a : Limbs} {x : ZMod P.p} (ha : Rep P a x) : fpText P a = Nat.toDigits 10 x.val := by
  unfold fpText decText
  rw [leBytesVal_eq, (C11_encode hV ha).2]

/-- C80, extension field: imaginary part first. -/
theorem C80_fp2 (hV : P.Valid) {a : Fp2} {z : F2 P} (ha : Rep2 P a z) :
    fp2Text P a = "i*".toList ++ Nat.toDigits 10 z.im.val ++ " + ".toList ++ Nat.toDigits 10 z.re.val := by
  obtain ⟨l0, v0⟩ := C11_encode hV ha.1
  obtain ⟨l1, v1⟩ := C11_encode hV ha.2
  unfold fp2Text fp2Encode decText
  dsimp only
  rw [List.take_left' l0, List.drop_left' l0, leBytesVal_eq, leBytesVal_eq, v0, v1]
  rfl

/-- The text does not go on with a digit. -/
def Stop (r : List Char) : Prop := ∀ c, r.head? = some c → c.isDigit = false

/-- A text function whose value can be read off, when the text does not go on with a digit. -/
def Readable {α : Type} (f : α → List Char) : Prop :=
  ∀ a b r s, Stop r → Stop s → f a ++ r = f b ++ s → a = b ∧ r = s

theorem digits_append {d e r s : List Char} (hd : ∀ c ∈ d, c.isDigit = true) (he : ∀ c ∈ e, c.isDigit = true) (hr : Stop r)
    (hs : Stop s) (h : d ++ r = e ++ s) : d = e ∧ r = s := by
  induction d generalizing e with
  | nil =>
    cases e with
    | nil => exact ⟨rfl, h⟩
    | cons c e =>
      have : r = c :: (e ++ s) := h
      have h1 := hr c (by rw [this]; rfl)
      rw [he c (by simp)] at h1
      exact absurd h1 (by simp)
  | cons c d ih =>
    cases e with
    | nil =>
      have : c :: (d ++ r) = s := h
      have h1 := hs c (by rw [← this]; rfl)
      rw [hd c (by simp)] at h1
      exact absurd h1 (by simp)
    | cons c' e =>
      simp only [List.cons_append, List.cons.injEq] at h
      obtain ⟨rfl, h⟩ := h
      obtain ⟨h1, h2⟩ := ih (fun c hc => hd c (by simp [hc])) (fun c hc => he c (by simp [hc])) h
      exact ⟨by rw [h1], h2⟩

theorem readable_dec : Readable decText := by
  intro a b r s hr hs h
  have hdig : ∀ n, ∀ c ∈ decText n, c.isDigit = true := fun n c hc =>
    Nat.isDigit_of_mem_toDigits (by norm_num) (by norm_num) hc
  obtain ⟨h1, h2⟩ := digits_append (hdig a) (hdig b) hr hs h
  refine ⟨?_, h2⟩
  have := congrArg (fun l => Nat.ofDigitChars 10 l 0) h1
  simpa only [decText, Nat.ofDigitChars_toDigits (b := 10) (by norm_num) (by norm_num)] using this

theorem stop_lit {c : Char} (hc : c.isDigit = false) (l r : List Char) : Stop (c :: l ++ r) := fun d hd => by
  simp only [List.cons_append, List.head?_cons, Option.some.injEq] at hd
  rw [← hd, hc]

theorem stop_nil : Stop [] := fun _ h => by simp at h

/-- The type `Fq`. -/
theorem readable_fq : Readable Fq.text := by
  intro a b r s hr hs h
  have : NeZero festaFp.p := ⟨festa_prime.ne_zero⟩
  unfold Fq.text at h
  rw [C80_fp2 festa_valid a.rep, C80_fp2 festa_valid b.rep] at h
  simp only [List.append_assoc] at h
  have h := List.append_cancel_left h
  obtain ⟨h1, h2⟩ := readable_dec _ _ _ _ (stop_lit (by decide) _ _) (stop_lit (by decide) _ _) h
  obtain ⟨h3, h4⟩ := readable_dec _ _ _ _ hr hs (List.append_cancel_left h2)
  exact ⟨Fq.val_inj (QuadraticAlgebra.ext (ZMod.val_injective _ h3) (ZMod.val_injective _ h1)), h4⟩

/-- C80: equal texts of elements of the field come from equal elements. -/
theorem C80_field : Function.Injective Fq.text := fun a b h =>
  (readable_fq a b [] [] stop_nil stop_nil (by rw [h])).1

theorem readable_pt : Readable Pt.text := by
  intro a b r s hr hs h
  unfold Pt.text at h
  simp only [List.append_assoc] at h
  obtain ⟨h1, h⟩ := readable_fq _ _ _ _ (stop_lit (by decide) _ _) (stop_lit (by decide) _ _) (List.append_cancel_left h)
  obtain ⟨h2, h⟩ := readable_fq _ _ _ _ (stop_lit (by decide) _ _) (stop_lit (by decide) _ _) (List.append_cancel_left h)
  obtain ⟨h3, h⟩ := readable_fq _ _ _ _ (stop_lit (by decide) _ _) (stop_lit (by decide) _ _) (List.append_cancel_left h)
  refine ⟨?_, List.append_cancel_left h⟩
  cases a; cases b
  simp only at h1 h2 h3
  rw [h1, h2, h3]

/-- C80: the text of a point identifies its three coordinates. -/
theorem C80_point : Function.Injective Pt.text := fun a b h =>
  (readable_pt a b [] [] stop_nil stop_nil (by rw [h])).1

/-- C80: the text of a curve identifies its coefficient. -/
theorem C80_curve (E F : Crv Fq) : E.text = F.text ↔ E.A = F.A := by
  constructor
  · intro h
    exact C80_field (List.append_cancel_left h)
  · intro h
    unfold Crv.text
    rw [h]

/-- C80: the text of a pair of points. -/
theorem C80_couple : Function.Injective CPt.text := fun a b h => by
  unfold CPt.text at h
  simp only [List.append_assoc] at h
  obtain ⟨h1, h⟩ := readable_pt _ _ _ _ (stop_lit (by decide) _ _) (stop_lit (by decide) _ _) (List.append_cancel_left h)
  have h2 := C80_point (List.append_cancel_left h)
  cases a; cases b
  simp only at h1 h2
  rw [h1, h2]

/-- C80: the text of an isogeny identifies the coefficients of its two curves, or with the alternate flag their j-invariants. -/
theorem C80_isogeny (φ ψ : KIso Fq) :
    (φ.text false = ψ.text false ↔ φ.domain.A = ψ.domain.A ∧ φ.codomain.A = ψ.codomain.A) ∧
    (φ.text true = ψ.text true ↔
      φ.domain.jInvariant = ψ.domain.jInvariant ∧ φ.codomain.jInvariant = ψ.codomain.jInvariant) := by
  have key : ∀ a b c d : Fq, "domain ".toList ++ a.text ++ " -> codomain ".toList ++ b.text =
      "domain ".toList ++ c.text ++ " -> codomain ".toList ++ d.text ↔ a = c ∧ b = d := by
    intro a b c d
    constructor
    · intro h
      simp only [List.append_assoc] at h
      obtain ⟨h1, h⟩ := readable_fq _ _ _ _ (stop_lit (by decide) _ _) (stop_lit (by decide) _ _) (List.append_cancel_left h)
      exact ⟨h1, C80_field (List.append_cancel_left h)⟩
    · rintro ⟨rfl, rfl⟩; rfl
  exact ⟨key _ _ _ _, key _ _ _ _⟩

/-- C80: the text of a theta point. -/
theorem C80_theta : Function.Injective ThPt.text := fun a b h => by
  unfold ThPt.text at h
  simp only [List.append_assoc] at h
  obtain ⟨h1, h⟩ := readable_fq _ _ _ _ (stop_lit (by decide) _ _) (stop_lit (by decide) _ _) h
  obtain ⟨h2, h⟩ := readable_fq _ _ _ _ (stop_lit (by decide) _ _) (stop_lit (by decide) _ _) (List.append_cancel_left h)
  obtain ⟨h3, h⟩ := readable_fq _ _ _ _ (stop_lit (by decide) _ _) (stop_lit (by decide) _ _) (List.append_cancel_left h)
  have h4 := (readable_fq _ _ _ _ (stop_lit (by decide) [] []) (stop_lit (by decide) [] []) (List.append_cancel_left h)).1
  exact ThPt.ext h1 h2 h3 h4

/-- C80: the text of an input of the trapdoor function. -/
theorem C80_input : Function.Injective TrapdoorInput.text := fun a b h => by
  unfold TrapdoorInput.text at h
  simp only [List.append_assoc] at h
  obtain ⟨h1, h⟩ := readable_dec _ _ _ _ (stop_lit (by decide) _ _) (stop_lit (by decide) _ _) (List.append_cancel_left h)
  obtain ⟨h2, h⟩ := readable_dec _ _ _ _ (stop_lit (by decide) _ _) (stop_lit (by decide) _ _) (List.append_cancel_left h)
  obtain ⟨h3, h⟩ := readable_dec _ _ _ _ (stop_lit (by decide) _ _) (stop_lit (by decide) _ _) (List.append_cancel_left h)
  have h4 := (readable_dec _ _ _ _ (stop_lit (by decide) [] _) (stop_lit (by decide) [] _) (List.append_cancel_left h)).1
  cases a; cases b
  simp only at h1 h2 h3 h4
  rw [h1, h2, h3, h4]

/-- Texts of the code's constants. -/
example : fp2Text festaFp (fp2One festaFp) = "i*0 + 1".toList ∧ fp2Text festaFp (fp2Zeta festaFp) = "i*1 + 0".toList ∧
    TrapdoorInput.text ⟨12, 0, 345, 6⟩ = "(12, 0, (345, 6))".toList := by
  refine ⟨?_, ?_, ?_⟩ <;> decide +kernel

/-- The text shows the coordinates, not the point: `(1 : 1 : 1)` and `(2 : 2 : 2)` compare equal and have different texts. -/
example : Pt.equals (⟨1, 1, 1⟩ : Pt Fq) ⟨1 + 1, 1 + 1, 1 + 1⟩ = true ∧
    Pt.text ⟨1, 1, 1⟩ ≠ Pt.text ⟨1 + 1, 1 + 1, 1 + 1⟩ := by
  have h2 : (1 + 1 : Fq) ≠ 0 := by rw [one_add_one_eq_two]; exact RootOps.two_ne
  refine ⟨by simp [Pt.equals, h2], fun h => ?_⟩
  have := (Pt.mk.inj (C80_point h)).1
  exact one_ne_zero (left_eq_add.mp this)

end Festa
