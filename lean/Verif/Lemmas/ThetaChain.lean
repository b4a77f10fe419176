import Verif.Spec.Theta
import Mathlib.Tactic.Set
/-! The bookkeeping of strategies: the stack of stored points. -/
namespace Festa

/-- An entry of the stack of stored points: the two points, how often they have been doubled, how many
steps of the chain they still serve, and the part of the strategy for these. -/
structure Ent (P : Type*) where
  A : P
  B : P
  p : Nat
  r : Nat
  S : List Nat

section
variable {P : Type*}

/-- The stack (top first) serves the next `q` steps, with the strategy entries `strat`. -/
def StkOK : Nat → List (Ent P) → List Nat → Prop
  | q, [], strat => q = 0 ∧ strat = []
  | q, e :: rest, strat => e.p + e.r = q ∧ IsStrategy e.r e.S ∧
      ∃ strat', strat = e.S ++ strat' ∧ StkOK e.p rest strat'

def topP : List (Ent P) → Nat
  | [] => 0
  | e :: _ => e.p

/-- The `level` vector of the code. -/
def levels : List (Ent P) → List Nat
  | [] => []
  | e :: rest => levels rest ++ [e.p - topP rest]

/-- The stored points as the code lists them. -/
def flat : List (Ent P) → List P
  | [] => []
  | e :: rest => flat rest ++ [e.A, e.B]

theorem IsStrategy.pos {n : Nat} {S : List Nat} (h : IsStrategy n S) : 0 < n := by
  cases h <;> omega

theorem topP_le {q : Nat} {stk : List (Ent P)} {strat : List Nat} (h : StkOK q stk strat) :
    topP stk ≤ q := by
  cases stk with
  | nil => exact Nat.zero_le _
  | cons e rest => have := h.1; simp only [topP]; omega

theorem levels_sum {q : Nat} : ∀ {stk : List (Ent P)} {strat : List Nat}, StkOK q stk strat →
    (levels stk).sum = topP stk := by
  intro stk
  induction stk generalizing q with
  | nil => intro _ _; rfl
  | cons e rest ih =>
    rintro strat ⟨-, -, strat', -, h⟩
    rw [levels, List.sum_append, ih h]
    have := topP_le h
    show topP rest + (e.p - topP rest + 0) = e.p
    omega

theorem flat_map {Q : Type*} (f : P → Q) (stk : List (Ent P)) :
    (flat stk).map f = flat (stk.map fun e => ⟨f e.A, f e.B, e.p, e.r, e.S⟩) := by
  induction stk with
  | nil => rfl
  | cons e rest ih => simp [flat, ih]

theorem stkOK_map {Q : Type*} (f : P → Q) {q : Nat} {stk : List (Ent P)} {strat : List Nat}
    (h : StkOK q stk strat) :
    StkOK q (stk.map fun e => (⟨f e.A, f e.B, e.p, e.r, e.S⟩ : Ent Q)) strat := by
  induction stk generalizing q strat with
  | nil => exact h
  | cons e rest ih =>
    obtain ⟨h1, h2, s', h3, h4⟩ := h
    exact ⟨h1, h2, s', h3, ih h4⟩

theorem levels_map {Q : Type*} (f : P → Q) (stk : List (Ent P)) :
    levels (stk.map fun e => (⟨f e.A, f e.B, e.p, e.r, e.S⟩ : Ent Q)) = levels stk := by
  induction stk with
  | nil => rfl
  | cons e rest ih =>
    have : topP (rest.map fun e => (⟨f e.A, f e.B, e.p, e.r, e.S⟩ : Ent Q)) = topP rest := by
      cases rest <;> rfl
    simp [levels, ih, this]

theorem stk_lt {q : Nat} {stk : List (Ent P)} {strat : List Nat} (h : StkOK q stk strat) :
    ∀ e ∈ stk, e.p < q := by
  induction stk generalizing q strat with
  | nil => simp
  | cons e rest ih =>
    obtain ⟨h1, h2, s', h3, h4⟩ := h
    have := h2.pos
    intro e' he
    rcases List.mem_cons.mp he with rfl | he
    · omega
    · have := ih h4 e' he; omega

/-- The `while` loop: it ends with a top entry serving exactly the next step. -/
theorem stratLoop_spec (dbl : P → Nat → P) (R1 R2 : Nat → P → Prop)
    (d1 : ∀ p s X, R1 p X → R1 (p + s) (dbl X s)) (d2 : ∀ p s X, R2 p X → R2 (p + s) (dbl X s))
    (I : List P) {r : Nat} {S : List Nat} (hS : IsStrategy r S) :
    ∀ (A B : P) (p : Nat) (rest : List (Ent P)) (strat : List Nat), StkOK p rest strat →
      R1 p A → R2 p B → (∀ e ∈ rest, R1 e.p e.A ∧ R2 e.p e.B) →
      ∃ T1 T2 rest' strat', stratLoop dbl (p + r - 1) (S ++ strat) p (levels (⟨A, B, p, r, S⟩ :: rest))
          A B (I ++ flat (⟨A, B, p, r, S⟩ :: rest)) =
        some (strat', levels rest' ++ [p + r - 1 - topP rest'], T1, T2, I ++ flat rest' ++ [T1, T2]) ∧
        StkOK (p + r - 1) rest' strat' ∧ R1 (p + r - 1) T1 ∧ R2 (p + r - 1) T2 ∧
        ∀ e ∈ rest', R1 e.p e.A ∧ R2 e.p e.B := by
  induction hS with
  | leaf =>
    intro A B p rest strat hrest hA hB hall
    refine ⟨A, B, rest, strat, ?_, by simpa using hrest, by simpa using hA, by simpa using hB, hall⟩
    cases strat <;> simp [stratLoop, levels, flat]
  | @node n s L R hs0 hsn hL hR ihL ihR =>
    intro A B p rest strat hrest hA hB hall
    have ih := ihL (dbl A s) (dbl B s) (p + s) (⟨A, B, p, s, R⟩ :: rest) (R ++ strat)
      ⟨rfl, hR, strat, rfl, hrest⟩ (d1 _ _ _ hA) (d2 _ _ _ hB)
      (by
        intro e he
        rcases List.mem_cons.mp he with rfl | he
        · exact ⟨hA, hB⟩
        · exact hall e he)
    have e1 : p + s + (n - s) - 1 = p + n - 1 := by omega
    rw [e1] at ih
    obtain ⟨T1, T2, rest', strat', h, h'⟩ := ih
    refine ⟨T1, T2, rest', strat', ?_, h'⟩
    rw [← h]
    have ne : p ≠ p + n - 1 := by omega
    simp only [List.cons_append, stratLoop, if_neg ne, List.append_assoc]
    congr 1
    · simp [levels, topP]

end
end Festa
