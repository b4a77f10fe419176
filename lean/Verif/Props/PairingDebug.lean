import Verif.Props.Pairing
import Verif.Model.Supersingular
/-!
C44 and C39 in builds with debug assertions: when exactly do the pairings and `bidlp` panic?
-/
namespace Festa
variable {K : Type*} [Field K] [DecidableEq K]

theorem evalLine_debug (E : Crv K) (V W r : Pt K) :
    evalLine true E V W r = none ↔ V.isInf = true ∨ W.isInf = true := by
  unfold evalLine
  dsimp only
  rw [Bool.true_and]
  by_cases h : (V.isInf || W.isInf) = true
  · rw [if_pos h]
    simpa using h
  · rw [if_neg h]
    rw [Bool.or_eq_true] at h
    simp only [h, iff_false]
    split_ifs <;> simp

theorem millerStep_debug (E : Crv K) (f : K) (V W S r : Pt K) :
    millerStep true E f V W S r = none ↔ V.isInf = true ∨ W.isInf = true := by
  unfold millerStep
  rcases h : evalLine true E V W r with _ | l
  · simpa using (evalLine_debug E V W r).mp h
  · have h' : ¬(V.isInf = true ∨ W.isInf = true) := by
      rw [← evalLine_debug E V W r, h]; simp
    simp only [h', iff_false]
    by_cases hS : S.isInf = true
    · rw [if_pos hS]; simp
    · rw [if_neg hS]
      rcases h2 : evalLine true E S S.neg r with _ | v
      · rcases (evalLine_debug E S S.neg r).mp h2 with h3 | h3
        · exact absurd h3 hS
        · exact absurd h3 hS
      · simp

theorem millerLoop_debug {E : Crv K} (hE : E.Good) {p : Pt K} (r : Pt K) {P : MPoint E.A}
    (hp : PRep p P) (n : Nat) : ∀ t (f : K) (v : Pt K), (t ≠ 0 → P ≠ 0) → PRep v ((n >>> t) • P) →
      ((∃ f' v', millerLoop true E p r n t f v = some (f', v') ∧ PRep v' (n • P)) ∧
        ∀ s, 1 ≤ s → s ≤ t → (n >>> s) • P ≠ 0 ∧ (n.testBit (s - 1) = true → (2 * (n >>> s)) • P ≠ 0)) ∨
      (millerLoop true E p r n t f v = none ∧
        ¬∀ s, 1 ≤ s → s ≤ t → (n >>> s) • P ≠ 0 ∧
          (n.testBit (s - 1) = true → (2 * (n >>> s)) • P ≠ 0)) := by
  intro t
  induction t with
  | zero =>
    intro f v _ hv
    exact Or.inl ⟨⟨f, v, by simp [millerLoop], by simpa using hv⟩, fun s h1 h2 => by omega⟩
  | succ t ih =>
    intro f v hP hv
    have hP := hP (by omega)
    have hst := shift_step n t
    have hd : PRep (E.double v) ((2 * (n >>> (t + 1))) • P) := by
      have := prep_double hE hv
      rwa [← mul_nsmul'] at this
    unfold millerLoop
    dsimp only
    rcases h1 : millerStep true E (f * f) v v (E.double v) r with _ | f1
    · right
      refine ⟨rfl, fun h => ?_⟩
      have := (millerStep_debug E _ _ _ _ _).mp h1
      exact (h (t + 1) (by omega) le_rfl).1 ((isInf_false hv).mp (by simpa using this))
    have c1 : (n >>> (t + 1)) • P ≠ 0 := fun h => by
      have := (millerStep_debug E (f * f) v v (E.double v) r).mpr (Or.inl ((isInf_false hv).mpr h))
      rw [h1] at this
      cases this
    have key : (n.testBit t = true → (2 * (n >>> (t + 1))) • P ≠ 0) →
        ((∀ s, 1 ≤ s → s ≤ t → (n >>> s) • P ≠ 0 ∧ (n.testBit (s - 1) = true → (2 * (n >>> s)) • P ≠ 0)) ↔
        ∀ s, 1 ≤ s → s ≤ t + 1 → (n >>> s) • P ≠ 0 ∧
          (n.testBit (s - 1) = true → (2 * (n >>> s)) • P ≠ 0)) := by
      intro c2
      constructor
      · intro h s h1 h2
        rcases Nat.lt_or_ge t s with h3 | h3
        · obtain rfl : s = t + 1 := by omega
          exact ⟨c1, by simpa using c2⟩
        · exact h s h1 h3
      · exact fun h s h1 h2 => h s h1 (by omega)
    dsimp only
    by_cases hb : n.testBit t = true
    · rw [if_pos hb]
      rw [hb, Bool.toNat_true] at hst
      rcases h2 : millerStep true E f1 (E.double v) p (E.add (E.double v) p) r with _ | f2
      · right
        refine ⟨rfl, fun h => ?_⟩
        rcases (millerStep_debug E _ _ _ _ _).mp h2 with h3 | h3
        · exact (h (t + 1) (by omega) le_rfl).2 (by simpa using hb) ((isInf_false hd).mp h3)
        · exact hP ((isInf_false hp).mp h3)
      have c2 : (2 * (n >>> (t + 1))) • P ≠ 0 := fun h => by
        have := (millerStep_debug E f1 (E.double v) p (E.add (E.double v) p) r).mpr
          (Or.inl ((isInf_false hd).mpr h))
        rw [h2] at this
        cases this
      have ha := prep_add hE hd hp
      rw [← succ_nsmul, ← hst] at ha
      dsimp only
      rw [← key (fun _ => c2)]
      exact ih f2 _ (fun _ => hP) ha
    · rw [if_neg hb]
      rw [Bool.not_eq_true] at hb
      rw [← key (fun h => by rw [hb] at h; cases h)]
      rw [hb, Bool.toNat_false, add_zero] at hst
      rw [← hst] at hd
      exact ih f1 _ (fun _ => hP) hd

/-- C44: with debug assertions the Miller function of `P` is computed, at any point, exactly when the order kills `P` and
no multiple of `P` met before the end of the double-and-add chain is zero; otherwise the code panics. -/
theorem C44_debug_tate {E : Crv K} (hE : E.Good) {p : Pt K} (r : Pt K) {P : MPoint E.A} (hp : PRep p P) (n : Nat) :
    tatePairing true E p r n ≠ none ↔ 1 ≤ n ∧ n • P = 0 ∧ ChainFree n P := by
  unfold tatePairing
  rcases Nat.eq_zero_or_pos n with rfl | hn
  · simp
  rw [if_neg hn.ne']
  have hl : n >>> Nat.log2 n = 1 := by
    rw [Nat.shiftRight_eq_div_pow]
    have h1 := Nat.log2_self_le (n := n) (by omega)
    have h2 := Nat.lt_log2_self (n := n)
    rw [pow_succ] at h2
    have hpos : 0 < 2 ^ n.log2 := by positivity
    apply Nat.le_antisymm
    · exact Nat.le_of_lt_succ ((Nat.div_lt_iff_lt_mul hpos).mpr (by omega))
    · exact (Nat.one_le_div_iff hpos).mpr h1
  by_cases hP : Nat.log2 n ≠ 0 ∧ P = 0
  · -- the first doubling already panics
    obtain ⟨h1, rfl⟩ := hP
    have hc : ¬ChainFree n (0 : MPoint E.A) := fun h => (h (Nat.log2 n) (by omega) le_rfl).1 (smul_zero _)
    simp only [hc, and_false, iff_false, not_not]
    obtain ⟨t, ht⟩ := Nat.exists_eq_succ_of_ne_zero h1
    rw [ht]
    unfold millerLoop
    dsimp only
    rw [(millerStep_debug E _ _ _ _ _).mpr (Or.inl ((isInf_false hp).mpr rfl))]
  rcases millerLoop_debug hE r hp n (Nat.log2 n) 1 p (fun h h0 => hP ⟨h, h0⟩) (by rw [hl, one_nsmul]; exact hp) with
    ⟨⟨f', v', e, hv⟩, hc⟩ | ⟨e, hc⟩
  · rw [e]
    dsimp only
    have hc' : ChainFree n P := hc
    by_cases h0 : n • P = 0
    · rw [(isInf_false hv).mpr h0]
      simp only [h0, hc', Nat.one_le_iff_ne_zero.mpr hn.ne', and_self, iff_true]
      simp only [Bool.not_true, Bool.and_false, Bool.false_eq_true, if_false]
      split_ifs <;> simp
    · have : v'.isInf = false := by
        rw [← Bool.not_eq_true]
        exact fun h => h0 ((isInf_false hv).mp h)
      rw [this]
      simp [h0]
  · rw [e]
    have hc' : ¬ChainFree n P := hc
    simp [hc']

/-- The same for the Weil pairing: the condition has to hold for both points. -/
theorem C44_debug {E : Crv K} (hE : E.Good) {p q : Pt K} {P Q : MPoint E.A} (hp : PRep p P) (hq : PRep q Q) (n : Nat) :
    weilPairing true E p q n ≠ none ↔
      1 ≤ n ∧ n • P = 0 ∧ n • Q = 0 ∧ ChainFree n P ∧ ChainFree n Q := by
  have h1 := C44_debug_tate hE q hp n
  have h2 := C44_debug_tate hE p hq n
  unfold weilPairing
  rcases e1 : tatePairing true E p q n with _ | a
  · rw [e1] at h1
    simp only [ne_eq, not_true_eq_false, false_iff] at h1 ⊢
    exact fun h => h1 ⟨h.1, h.2.1, h.2.2.2.1⟩
  · rcases e2 : tatePairing true E q p n with _ | b
    · rw [e2] at h2
      simp only [ne_eq, not_true_eq_false, false_iff] at h2 ⊢
      exact fun h => h2 ⟨h.1, h.2.2.1, h.2.2.2.2⟩
    · have h1' := h1.mp (by rw [e1]; simp)
      have h2' := h2.mp (by rw [e2]; simp)
      dsimp only
      refine ⟨fun _ => ⟨h1'.1, h1'.2.1, h2'.2.1, h1'.2.2, h2'.2.2⟩, fun _ => ?_⟩
      split_ifs <;> simp

/-- C39: with debug assertions `bidlp` panics for every point with a zero multiple in the chain, so that the last
hypothesis of `C39_bidlp_partial` cannot be dropped. -/
theorem C39_debug_fails {E : Crv K} (hE : E.Good) {r : Pt K} (p q : Pt K) {R : MPoint E.A} (hr : PRep r R)
    (fs : Factored) (hc : ¬ChainFree fs.value R) (ePQ : Option K) : bidlp true E r p q fs ePQ = none := by
  have h : weilPairing true E r q fs.value = none := by
    have h1 : tatePairing true E r q fs.value = none := by
      by_contra h
      exact hc ((C44_debug_tate hE q hr _).mp h).2.2
    unfold weilPairing
    rw [h1]
  unfold bidlp
  dsimp only
  rw [h]
  split
  · rename_i h1 _
    cases h1
  · rfl

/-- C39 off the axes in builds with debug assertions, in full: `bidlp` returns the coordinates of `R = aP + bQ` if no
multiple of `R` met by the chain before its end is zero, and panics otherwise. -/
theorem C39_debug {E : Crv K} (hE : E.Good) {p q r : Pt K} {P Q : MPoint E.A}
    (fs : Factored) (hf : fs.Ok true) (a b : Nat) (hb : IsBasis fs.value P Q) (hp : PRep p P)
    (hq : PRep q Q) (hr : PRep r (a • P + b • Q)) (hP : AxisFree fs.value P (a • P + b • Q))
    (hQ : AxisFree fs.value Q (a • P + b • Q)) (ePQ : Option K) (he : ePQ = none ∨ ePQ = weilPairing true E p q fs.value) :
    (ChainFree fs.value (a • P + b • Q) → bidlp true E r p q fs ePQ = some (a % fs.value, b % fs.value)) ∧
    (¬ChainFree fs.value (a • P + b • Q) → bidlp true E r p q fs ePQ = none) :=
  ⟨fun hc => C39_bidlp_partial hE true fs hf a b hb hp hq hr hP hQ hc ePQ he,
    fun hc => C39_debug_fails hE p q hr fs hc ePQ⟩

/-- C43: so does `compute_canonical_kernel` when this happens to one of its two points. -/
theorem C43_debug_fails {E : Crv K} (hE : E.Good) {r s : Pt K} (p q : Pt K) {R S : MPoint E.A} (hr : PRep r R)
    (hs : PRep s S) (fs : Factored) (hc : ¬ChainFree fs.value R ∨ ¬ChainFree fs.value S) :
    canonicalKernel true E r s fs p q = none := by
  unfold canonicalKernel
  rcases weilPairing true E p q fs.value with _ | w
  · rfl
  dsimp only
  rcases hc with hc | hc
  · rw [C39_debug_fails hE p q hr fs hc]
  · rw [C39_debug_fails hE p q hs fs hc]
    rcases bidlp true E r p q fs (some w) with _ | x <;> rfl

/-! ### Concrete cases -/

/-- In release builds the claim fails as well for such points: on the basis of order 64 of `basis127` the logarithm of
`R = 2P + 2Q` is not found, while that of `P + Q` is. -/
theorem C39_release_fails :
    ∃ P Q : MPoint e127.E1.A, PRep p127.P1 P ∧ PRep q127.P1 Q ∧ IsBasis 64 P Q ∧
      ∃ r s, PRep r (P + Q) ∧ PRep s (2 • P + 2 • Q) ∧
        bidlp false e127.E1 r p127.P1 q127.P1 [(2, 6)] none = some (1, 1) ∧
        bidlp false e127.E1 s p127.P1 q127.P1 [(2, 6)] none = none := by
  obtain ⟨P, Q, hp, hq, hb⟩ := basis127
  refine ⟨P, Q, hp, hq, hb, _, _, prep_add e127_good hp hq,
    prep_add e127_good (prep_double e127_good hp) (prep_double e127_good hq), ?_, ?_⟩
  · decide +kernel
  · decide +kernel

/-- The point `2P + 2Q` of that basis: the multiple 32 of the chain of 64 kills it. -/
example {P Q : MPoint e127.E1.A} (hp : PRep p127.P1 P) (hq : PRep q127.P1 Q) (hb : IsBasis 64 P Q) :
    ∃ s, PRep s (2 • P + 2 • Q) ∧ weilPairing true e127.E1 s q127.P1 64 = none ∧
      bidlp true e127.E1 s p127.P1 q127.P1 [(2, 6)] none = none := by
  have hs := prep_add e127_good (prep_double e127_good hp) (prep_double e127_good hq)
  have hv : Factored.value [(2, 6)] = 64 := by decide
  have hc : ¬ChainFree 64 (2 • P + 2 • Q) := by
    intro h
    refine (h 1 le_rfl (by decide)).1 ?_
    have := (hb 64 64).mpr ⟨by decide, by decide⟩
    rw [show (64 >>> 1 : Nat) = 32 from rfl, nsmul_add, ← mul_nsmul', ← mul_nsmul']
    exact_mod_cast this
  refine ⟨_, hs, ?_, C39_debug_fails e127_good _ _ hs _ (by rw [hv]; exact hc) none⟩
  by_contra h
  exact hc ((C44_debug e127_good hs hq 64).mp h).2.2.2.1

/-- `compute_canonical_kernel` panics on `(2P + 2Q, P)`. -/
example {P Q : MPoint e127.E1.A} (hp : PRep p127.P1 P) (hq : PRep q127.P1 Q) (hb : IsBasis 64 P Q) :
    canonicalKernel true e127.E1 (e127.E1.add (e127.E1.double p127.P1) (e127.E1.double q127.P1)) p127.P1 [(2, 6)]
      p127.P1 q127.P1 = none := by
  have hs := prep_add e127_good (prep_double e127_good hp) (prep_double e127_good hq)
  refine C43_debug_fails e127_good _ _ hs hp _ (Or.inl fun h => (h 1 le_rfl (by decide)).1 ?_)
  have := (hb 64 64).mpr ⟨by decide, by decide⟩
  rw [show (Factored.value [(2, 6)] >>> 1 : Nat) = 32 by decide, nsmul_add, ← mul_nsmul', ← mul_nsmul']
  exact_mod_cast this

end Festa
