import Verif.Model.Entangled
import Verif.Props.EC
import Verif.Lemmas.Kernel
import Mathlib.Tactic.FieldSimp
import Mathlib.Tactic.LinearCombination
/-! The entangled basis: the square root, the two points, divisibility by two, independence. -/
namespace Festa
open RootOps CoeffOps

section
variable {F K : Type*} [Field F] [DecidableEq F] [Field K] [DecidableEq K] [RootOps K] [CoeffOps F K]

theorem new_inj {a b c d : F} (h : (new a b : K) = new c d) : a = c ∧ b = d := by
  have := congrArg (coeff (F := F) (K := K)) h
  rw [coeff_new, coeff_new] at this
  exact ⟨congrArg Prod.fst this, congrArg Prod.snd this⟩

theorem new_zero : (new (0 : F) 0 : K) = 0 := by
  have h := new_add (F := F) (K := K) 0 0 0 0
  rw [add_zero] at h
  exact left_eq_add.mp h.symm

theorem new_natCast (n : Nat) : (new (n : F) 0 : K) = n := by
  induction n with
  | zero => rw [Nat.cast_zero, Nat.cast_zero, new_zero]
  | succ n ih => rw [Nat.cast_succ, Nat.cast_succ, ← ih, ← new_one (F := F) (K := K), new_add, add_zero]

/-- The hand-written square root is right unless `c = -s`. -/
theorem entangledRoot_sq (c d s : F) (hs : s * s = c * c + d * d) (hne : c + s ≠ 0) :
    (entangledRoot c d s : K) * entangledRoot c d s = new c d := by
  have h2 := two_ne' (F := F) (K := K)
  unfold entangledRoot
  dsimp only
  generalize hz : (c + s) / 2 = z
  have hz2 : c + s = 2 * z := by rw [← hz, mul_div_cancel₀ _ h2]
  have hz0 : z ≠ 0 := fun h => hne (by rw [hz2, h, mul_zero])
  have hd : d * d = 4 * z * (z - c) := by
    have : s = 2 * z - c := by rw [← hz2]; ring
    rw [this] at hs
    linear_combination -hs
  have hal := pow_rootExp (F := F) (K := K) z
  generalize z ^ rootExp K = al at hal
  have ha0 : al ≠ 0 := by
    rintro rfl
    rcases hal with ⟨-, h⟩ | ⟨-, h⟩
    · exact hz0 (by rw [← h, mul_zero])
    · exact hz0 (by rw [← neg_eq_zero, ← h, mul_zero])
  have hb : d / (al + al) * (2 * al) = d := by
    rw [← two_mul]; exact div_mul_cancel₀ _ (mul_ne_zero h2 ha0)
  generalize d / (al + al) = be at hb
  rcases hal with ⟨-, h⟩ | ⟨-, h⟩
  · rw [if_pos h, new_mul]
    congr 1
    · have : z * (be * be) = z * (z - c) := by
        have h4 : (4 : F) ≠ 0 := by
          have := mul_ne_zero h2 h2
          rwa [show (2 : F) * 2 = 4 by norm_num] at this
        apply mul_left_cancel₀ h4
        have : 4 * (al * al) * (be * be) = d * d := by rw [← hb]; ring
        rw [h] at this
        linear_combination this + hd
      have := mul_left_cancel₀ hz0 this
      rw [h, this]; ring
    · linear_combination hb
  · have hne' : al * al ≠ z := by
      rw [h]
      intro e
      exact hz0 ((mul_eq_zero.mp (show 2 * z = 0 by linear_combination -e)).resolve_left h2)
    rw [if_neg hne', neg_mul_neg, new_mul]
    congr 1
    · have : z * (be * be) = z * (c - z) := by
        have h4 : (4 : F) ≠ 0 := by
          have := mul_ne_zero h2 h2
          rwa [show (2 : F) * 2 = 4 by norm_num] at this
        apply mul_left_cancel₀ h4
        have : 4 * (al * al) * (be * be) = d * d := by rw [← hb]; ring
        rw [h] at this
        linear_combination -this - hd
      have := mul_left_cancel₀ hz0 this
      rw [h, this]; ring
    · linear_combination hb

/-- In the remaining case the result is zero. -/
theorem entangledRoot_zero (c s : F) (hs : c + s = 0) : (entangledRoot c 0 s : K) = 0 := by
  unfold entangledRoot
  dsimp only
  rw [hs, zero_div, zero_div]
  have hal := pow_rootExp (F := F) (K := K) 0
  generalize (0 : F) ^ rootExp K = al at hal
  have ha0 : al = 0 := by
    rcases hal with ⟨-, h⟩ | ⟨-, h⟩
    · exact mul_self_eq_zero.mp h
    · exact mul_self_eq_zero.mp (by rw [h, neg_zero])
  rw [ha0, mul_zero, if_pos rfl, new_zero]

/-- The exceptional case is that of a non-residue of the base field. -/
theorem root_exceptional {c d : F} (hs : (c * c + d * d) ^ rootExp K * (c * c + d * d) ^ rootExp K
    = c * c + d * d) :
    c + (c * c + d * d) ^ rootExp K = 0 ↔ d = 0 ∧ ¬ IsSquare c ∨ c = 0 ∧ d = 0 := by
  have hm1 : ∀ a : F, IsSquare a → IsSquare (-a) → a = 0 := by
    rintro a ⟨r, hr⟩ ⟨q, hq⟩
    by_contra ha
    have hr0 : r ≠ 0 := by rintro rfl; exact ha (by rw [hr, mul_zero])
    have e : (q / r) * (q / r) = -1 := by
      field_simp
      rw [pow_two, pow_two, ← hq, ← hr]
    -- `i` would be in the base field
    have e2 : (new 0 1 : K) * new 0 1 = new (q / r) 0 * new (q / r) 0 := by
      rw [new_mul, new_mul, e]; simp
    rcases mul_self_eq_mul_self_iff.mp e2 with h | h
    · exact one_ne_zero (new_inj h).2
    · rw [new_neg] at h
      exact one_ne_zero (α := F) (by simpa using (new_inj h).2)
  constructor
  · intro h
    have hsc : (c * c + d * d) ^ rootExp K = -c := by linear_combination h
    have hd : d = 0 := by
      rw [hsc] at hs
      exact mul_self_eq_zero.mp (by linear_combination -hs)
    subst hd
    by_cases hc : IsSquare c
    · right
      refine ⟨?_, rfl⟩
      apply hm1 _ hc
      rw [mul_zero, add_zero, mul_pow] at hsc
      rw [← hsc]
      exact ⟨_, rfl⟩
    · exact Or.inl ⟨rfl, hc⟩
  · rintro (⟨rfl, hc⟩ | ⟨rfl, rfl⟩)
    · rw [mul_zero, add_zero] at hs ⊢
      have : c * c = (c * c) ^ rootExp K * (c * c) ^ rootExp K := hs.symm
      rcases mul_self_eq_mul_self_iff.mp this with h | h
      · exfalso
        apply hc
        rw [mul_pow] at h
        exact ⟨_, h⟩
      · linear_combination h
    · rcases pow_rootExp (F := F) (K := K) 0 with ⟨-, h⟩ | ⟨-, h⟩
      · simpa using h
      · simpa using h

/-! ### The search -/

omit [DecidableEq K] in
theorem elligatorLoop_spec (k n : Nat) (t1 t2 : List (K × K))
    (h1 : ∀ q ∈ t1, ∃ m : Nat, 1 ≤ m ∧ m < n ∧ q.1 = m ∧ q.2 = (1 + zeta * 2 * (q.1 * q.1))⁻¹ ∧ legendre q.2 ≠ 1)
    (h2 : ∀ q ∈ t2, ∃ m : Nat, 1 ≤ m ∧ m < n ∧ q.1 = m ∧ q.2 = (1 + zeta * 2 * (q.1 * q.1))⁻¹ ∧ legendre q.2 = 1)
    (hn : 1 ≤ n) :
    (∀ q ∈ (elligatorLoop k (n : K) t1 t2).1, ∃ m : Nat, 1 ≤ m ∧ m < n + k ∧ q.1 = m ∧
      q.2 = (1 + zeta * 2 * (q.1 * q.1))⁻¹ ∧ legendre q.2 ≠ 1) ∧
    (∀ q ∈ (elligatorLoop k (n : K) t1 t2).2, ∃ m : Nat, 1 ≤ m ∧ m < n + k ∧ q.1 = m ∧
      q.2 = (1 + zeta * 2 * (q.1 * q.1))⁻¹ ∧ legendre q.2 = 1) := by
  induction k generalizing n t1 t2 with
  | zero => exact ⟨h1, h2⟩
  | succ k ih =>
    unfold elligatorLoop
    dsimp only
    have w : ∀ {t : List (K × K)} {p : Int → Prop}, (∀ q ∈ t, ∃ m : Nat, 1 ≤ m ∧ m < n ∧ q.1 = m ∧
        q.2 = (1 + zeta * 2 * (q.1 * q.1))⁻¹ ∧ p (legendre q.2)) → ∀ q ∈ t, ∃ m : Nat, 1 ≤ m ∧ m < n + 1 ∧
        q.1 = m ∧ q.2 = (1 + zeta * 2 * (q.1 * q.1))⁻¹ ∧ p (legendre q.2) := by
      intro t p h q hq
      obtain ⟨m, a, b, c⟩ := h q hq
      exact ⟨m, a, by omega, c⟩
    rw [show n + (k + 1) = (n + 1) + k by omega]
    split
    · rename_i hl
      have := ih (n + 1) t1 (t2 ++ [((n : K), (1 + zeta * 2 * ((n : K) * n))⁻¹)])
        (w (p := fun l => l ≠ 1) h1) (by
          intro q hq
          rcases List.mem_append.mp hq with hq | hq
          · exact w (p := fun l => l = 1) h2 q hq
          · rw [List.mem_singleton] at hq
            subst hq
            exact ⟨n, hn, by omega, rfl, rfl, hl⟩) (by omega)
      rwa [Nat.cast_succ] at this
    · rename_i hl
      have := ih (n + 1) (t1 ++ [((n : K), (1 + zeta * 2 * ((n : K) * n))⁻¹)]) t2 (by
          intro q hq
          rcases List.mem_append.mp hq with hq | hq
          · exact w (p := fun l => l ≠ 1) h1 q hq
          · rw [List.mem_singleton] at hq
            subst hq
            exact ⟨n, hn, by omega, rfl, rfl, hl⟩) (w (p := fun l => l = 1) h2) (by omega)
      rwa [Nat.cast_succ] at this

omit [DecidableEq K] in
theorem elligatorTables_spec :
    (∀ q ∈ (elligatorTables (K := K)).1, ∃ m : Nat, 1 ≤ m ∧ m ≤ 30 ∧ q.1 = m ∧
      q.2 = (1 + zeta * 2 * (q.1 * q.1))⁻¹ ∧ legendre q.2 ≠ 1) ∧
    (∀ q ∈ (elligatorTables (K := K)).2, ∃ m : Nat, 1 ≤ m ∧ m ≤ 30 ∧ q.1 = m ∧
      q.2 = (1 + zeta * 2 * (q.1 * q.1))⁻¹ ∧ legendre q.2 = 1) := by
  have := elligatorLoop_spec (K := K) 30 1 [] [] (by simp) (by simp) le_rfl
  rw [Nat.cast_one] at this
  refine ⟨fun q hq => ?_, fun q hq => ?_⟩
  · obtain ⟨m, a, b, c⟩ := this.1 q hq
    exact ⟨m, a, by omega, c⟩
  · obtain ⟨m, a, b, c⟩ := this.2 q hq
    exact ⟨m, a, by omega, c⟩

omit [DecidableEq K] in
theorem entangledSearch_spec {A : K} {T : List (K × K)} {r x : K} {c d s : F}
    (h : entangledSearch A T = some (r, x, c, d, s)) :
    ∃ v, (r, v) ∈ T ∧ x = -A * v ∧ x * (x * x + A * x + 1) = new c d ∧
      s = (c * c + d * d) ^ rootExp K ∧ s * s = c * c + d * d := by
  induction T with
  | nil => cases h
  | cons q T ih =>
    obtain ⟨r', v⟩ := q
    unfold entangledSearch at h
    dsimp only at h
    split at h
    · rename_i hs
      simp only [Option.some.injEq, Prod.mk.injEq] at h
      obtain ⟨rfl, rfl, rfl, rfl, rfl⟩ := h
      exact ⟨v, List.mem_cons_self, rfl, (new_coeff _).symm, rfl, hs⟩
    · obtain ⟨v', h1, h2⟩ := ih h
      exact ⟨v', List.mem_cons_of_mem _ h1, h2⟩

/-- `2ζr² ≠ ±1` for an integer `r`. -/
theorem zeta_ne (m : Nat) (e : F) : (zeta * 2 * ((m : K) * m) : K) ≠ new e 0 ∨ e = 0 := by
  by_cases he : e = 0
  · exact Or.inr he
  · left
    rw [← new_zeta (F := F), ← new_natCast (F := F) m, new_mul,
      show (2 : K) = ((2 : Nat) : K) by norm_num, ← new_natCast (F := F) 2, new_mul, new_mul]
    intro h
    exact he (by simpa using (new_inj h).1.symm)

/-- What `entangledPoints` returns, before the square root is looked at. -/
theorem entangledPoints_spec {A : K} {S1 S2 : Pt K} (h : entangledPoints (F := F) A = some (S1, S2)) :
    ∃ (m : Nat) (c d s : F), 1 ≤ m ∧ m ≤ 30 ∧
      S1.Z = 1 ∧ S2.Z = 1 ∧ S1.Y = entangledRoot c d s ∧ S2.X = zeta * 2 * ((m : K) * m) * S1.X ∧
      S2.Y = (1 + zeta) * m * S1.Y ∧ S1.X + S2.X = -A ∧ S1.X ≠ 0 ∧ ¬ IsSquare S1.X ∧
      zeta * 2 * ((m : K) * m) ≠ 1 ∧
      S1.X * (S1.X * S1.X + A * S1.X + 1) = new c d ∧
      s = (c * c + d * d) ^ rootExp K ∧ s * s = c * c + d * d := by
  unfold entangledPoints at h
  dsimp only at h
  have key : ∀ T : List (K × K), (∀ q ∈ T, ∃ m : Nat, 1 ≤ m ∧ m ≤ 30 ∧ q.1 = m ∧
      q.2 = (1 + zeta * 2 * (q.1 * q.1))⁻¹ ∧ (q.2 ≠ 0 → ¬ IsSquare (-A * q.2))) → A ≠ 0 →
      (match entangledSearch (F := F) A T with
      | none => none
      | some (r, x, c, d, s) =>
        some (Pt.newXY x (entangledRoot c d s),
          Pt.newXY (zeta * 2 * (r * r) * x) ((1 + zeta) * r * entangledRoot c d s)))
        = some (S1, S2) → ∃ (m : Nat) (c d s : F), 1 ≤ m ∧ m ≤ 30 ∧
      S1.Z = 1 ∧ S2.Z = 1 ∧ S1.Y = entangledRoot c d s ∧ S2.X = zeta * 2 * ((m : K) * m) * S1.X ∧
      S2.Y = (1 + zeta) * m * S1.Y ∧ S1.X + S2.X = -A ∧ S1.X ≠ 0 ∧ ¬ IsSquare S1.X ∧
      zeta * 2 * ((m : K) * m) ≠ 1 ∧
      S1.X * (S1.X * S1.X + A * S1.X + 1) = new c d ∧
      s = (c * c + d * d) ^ rootExp K ∧ s * s = c * c + d * d := by
    intro T hT hA hm
    rcases hf : entangledSearch (F := F) A T with _ | ⟨r, x, c, d, s⟩
    · rw [hf] at hm; cases hm
    · rw [hf] at hm
      simp only [Option.some.injEq, Prod.mk.injEq] at hm
      obtain ⟨rfl, rfl⟩ := hm
      obtain ⟨v, h1, h2, h3, h4, h5⟩ := entangledSearch_spec hf
      obtain ⟨m, a1, a2, a3, a4, a5⟩ := hT _ h1
      dsimp only at a3 a4 a5
      have hne : 1 + zeta * 2 * (r * r) ≠ 0 := by
        intro h0
        rcases zeta_ne (F := F) (K := K) m (-1) with h | h
        · apply h
          rw [← a3]
          have : (new (-1) 0 : K) = -1 := by
            rw [← new_one (F := F) (K := K), new_neg, neg_zero]
          rw [this]
          linear_combination h0
        · exact one_ne_zero (neg_eq_zero.mp h)
      have hv0 : v ≠ 0 := by rw [a4]; exact inv_ne_zero hne
      have hv : v * (1 + zeta * 2 * (r * r)) = 1 := by rw [a4]; exact inv_mul_cancel₀ hne
      refine ⟨m, c, d, s, a1, a2, rfl, rfl, rfl, ?_, ?_, ?_, ?_, ?_, ?_, h3, h4, h5⟩
      · rw [← a3]; rfl
      · rw [← a3]; rfl
      · show x + zeta * 2 * (r * r) * x = -A
        rw [h2]; linear_combination -A * hv
      · show x ≠ 0
        rw [h2]; exact mul_ne_zero (neg_ne_zero.mpr hA) hv0
      · show ¬ IsSquare x
        rw [h2]; exact a5 hv0
      · rcases zeta_ne (F := F) (K := K) m 1 with h | h
        · rwa [new_one] at h
        · exact absurd h one_ne_zero
  have hz := zeta_sq (K := K)
  have hsq : ∀ {a b : K}, IsSquare a → a ≠ 0 → IsSquare (-a * b) → IsSquare b := by
    rintro a b ⟨r, rfl⟩ h0 ⟨q, hq⟩
    have hr0 : r ≠ 0 := fun h => h0 (by rw [h, mul_zero])
    refine ⟨q * zeta / r, ?_⟩
    field_simp
    linear_combination (-b * r ^ 2) - hz * q ^ 2 - hq
  obtain ⟨g1, g2⟩ := elligatorTables_spec (K := K)
  split at h
  · cases h
  · rename_i T hT
    split at hT
    · rename_i hl
      rw [legendre_one] at hl
      cases hT
      refine key _ (fun q hq => ?_) hl.1 h
      obtain ⟨m, a, b, c, d, e⟩ := g1 q hq
      refine ⟨m, a, b, c, d, fun h0 hs => e ?_⟩
      rw [legendre_one]
      exact ⟨h0, hsq hl.2 hl.1 hs⟩
    · split at hT
      · rename_i hl
        rw [legendre_neg] at hl
        cases hT
        have hA0 : A ≠ 0 := fun h => hl (h ▸ ⟨0, by simp⟩)
        refine key _ (fun q hq => ?_) hA0 h
        obtain ⟨m, a, b, c, d, e⟩ := g2 q hq
        refine ⟨m, a, b, c, d, fun h0 hs => hl ?_⟩
        rw [legendre_one] at e
        exact hsq e.2 h0 (by rwa [show -q.2 * A = -A * q.2 by ring])
      · cases hT

end
end Festa
