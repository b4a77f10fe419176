import Verif.Model.Bench
import Verif.Props.Setup
import Verif.Props.PairingDebug
/-!
C82: debug builds refine release builds.  The flag `chk` of the model compiles the debug assertions and overflow checks
in, and `fuel` bounds the two searches of `torsion_basis`.  Neither has any influence on a result that is returned: with
fewer checks or a longer search the same value is returned.
-/
namespace Festa
universe u

/-- Whatever `a` returns is returned by `b`. -/
def Refines {α : Type*} (a b : Option α) : Prop := ∀ y, a = some y → b = some y

theorem Refines.refl {α : Type*} {a : Option α} : Refines a a := fun _ h => h

theorem Refines.bind {α β : Type u} {a b : Option α} {f g : α → Option β} (h : Refines a b)
    (hf : ∀ x, Refines (f x) (g x)) : Refines (a >>= f) (b >>= g) := by
  intro y hy
  rcases a with _ | x
  · cases hy
  · rw [h x rfl]; exact hf x y hy

theorem Refines.guard {α : Type*} {a b : Option α} {k k' t : Bool} (hk : k' = true → k = true) (h : Refines a b) :
    Refines (if (k && t) = true then none else a) (if (k' && t) = true then none else b) := by
  intro y hy
  split at hy
  · cases hy
  · rename_i hn
    rw [if_neg fun h' => ?_]
    · exact h y hy
    · rw [Bool.and_eq_true] at h' hn
      exact hn ⟨hk h'.1, h'.2⟩

theorem Refines.ite {α : Type*} {a b c d : Option α} {p : Prop} [Decidable p] (h : Refines a b) (h' : Refines c d) :
    Refines (if p then a else c) (if p then b else d) := by
  split
  · exact h
  · exact h'

theorem Refines.map {α β : Type*} {a b : Option α} (f : α → β) (h : Refines a b) : Refines (a.map f) (b.map f) := by
  intro y hy
  rcases a with _ | x
  · cases hy
  · rw [h x rfl]; exact hy

section
variable {c c' : Bool} (hc : c' = true → c = true)
include hc

theorem sqrtLoop_refines (n : UInt32) : ∀ k f b, Refines (sqrtLoop c n k f b) (sqrtLoop c' n k f b)
  | 0, _, _ => .refl
  | k + 1, f, b => by
    unfold sqrtLoop
    refine .guard hc (.ite (.guard hc (.ite ?_ (.ite ?_ .refl))) (.guard hc .refl))
    · exact sqrtLoop_refines n k _ _
    · exact sqrtLoop_refines n k _ _

/-- C82 for `sqrt_floor`. -/
theorem C82_sqrtFloor (n : UInt32) : Refines (sqrtFloor c n) (sqrtFloor c' n) :=
  .ite .refl (sqrtLoop_refines hc n _ _ _)

variable {K : Type} [Field K] [DecidableEq K]

/-- C82 for `bsgs`. -/
theorem C82_bsgs (beta alpha : K) (n : UInt32) : Refines (bsgs c beta alpha n) (bsgs c' beta alpha n) := by
  have h := C82_sqrtFloor hc n
  unfold bsgs
  rcases hx : sqrtFloor c n with _ | s
  · intro y hy; cases hy
  · rw [h s hx]; exact .refl

theorem phLoop_refines (beta alpha gamma : K) (l : UInt32) :
    ∀ k li x, Refines (phLoop c beta alpha gamma l k li x) (phLoop c' beta alpha gamma l k li x)
  | 0, _, _ => .refl
  | k + 1, li, x => by
    unfold phLoop
    refine .guard hc ?_
    have h := C82_bsgs hc (powIter (beta * (alpha ^ x)⁻¹) l k) gamma l
    rcases hx : bsgs c (powIter (beta * (alpha ^ x)⁻¹) l k) gamma l with _ | d
    · intro y hy; cases hy
    · rw [h d hx]
      exact .guard hc (phLoop_refines beta alpha gamma l k _ _)

/-- C82 for `ph_dlp_power`. -/
theorem C82_phDlpPower (beta alpha : K) (l e : UInt32) :
    Refines (phDlpPower c beta alpha l e) (phDlpPower c' beta alpha l e) := by
  refine .ite ?_ (.guard hc (phLoop_refines hc _ _ _ _ _ _ _))
  intro y hy
  split at hy
  · cases hy
  · rename_i hn
    rwa [if_neg fun h => hn (hc h)]

theorem phDlpLoop_refines (beta alpha : K) (fs : Factored) :
    ∀ s, Refines (phDlpLoop c beta alpha fs s) (phDlpLoop c' beta alpha fs s)
  | [] => .refl
  | (l, e) :: s => by
    have h := C82_phDlpPower hc (cofPow beta l fs) (cofPow alpha l fs) l e
    have h' := phDlpLoop_refines beta alpha fs s
    unfold phDlpLoop
    rcases hx : phDlpPower c (cofPow beta l fs) (cofPow alpha l fs) l e with _ | d
    · intro y hy; cases hy
    · rw [h d hx]
      rcases hx : phDlpLoop c beta alpha fs s with _ | ds
      · intro y hy; cases hy
      · rw [h' ds hx]; exact .refl

/-- C82 for `ph_dlp`. -/
theorem C82_phDlp (beta alpha : K) (fs : Factored) : Refines (phDlp c beta alpha fs) (phDlp c' beta alpha fs) := by
  have h := phDlpLoop_refines hc beta alpha fs fs
  unfold phDlp
  rcases hx : phDlpLoop c beta alpha fs fs with _ | s
  · intro y hy; cases hy
  · rw [h s hx]; exact .refl

theorem evalLine_refines (E : Crv K) (P Q R : Pt K) : Refines (evalLine c E P Q R) (evalLine c' E P Q R) :=
  .guard hc .refl

theorem millerStep_refines (E : Crv K) (f : K) (V W S Q : Pt K) :
    Refines (millerStep c E f V W S Q) (millerStep c' E f V W S Q) := by
  have h := evalLine_refines hc E V W Q
  have h' := evalLine_refines hc E S S.neg Q
  unfold millerStep
  rcases hx : evalLine c E V W Q with _ | l
  · intro y hy; cases hy
  · rw [h l hx]
    refine .ite .refl ?_
    rcases hx : evalLine c E S S.neg Q with _ | v
    · intro y hy; cases hy
    · rw [h' v hx]; exact .refl

theorem millerLoop_refines (E : Crv K) (P Q : Pt K) (n : Nat) :
    ∀ t f V, Refines (millerLoop c E P Q n t f V) (millerLoop c' E P Q n t f V)
  | 0, _, _ => .refl
  | t + 1, f, V => by
    have h := millerStep_refines hc E (f * f) V V (E.double V) Q
    unfold millerLoop
    dsimp only
    rcases hx : millerStep c E (f * f) V V (E.double V) Q with _ | g
    · intro y hy; cases hy
    · rw [h g hx]
      refine .ite ?_ (millerLoop_refines E P Q n t _ _)
      have h' := millerStep_refines hc E g (E.double V) P (E.add (E.double V) P) Q
      rcases hx : millerStep c E g (E.double V) P (E.add (E.double V) P) Q with _ | g'
      · intro y hy; cases hy
      · rw [h' g' hx]; exact millerLoop_refines E P Q n t _ _

/-- C82 for `tate_pairing`. -/
theorem C82_tatePairing (E : Crv K) (P Q : Pt K) (n : Nat) :
    Refines (tatePairing c E P Q n) (tatePairing c' E P Q n) := by
  refine .ite .refl ?_
  have h := millerLoop_refines hc E P Q n (Nat.log2 n) 1 P
  rcases hx : millerLoop c E P Q n (Nat.log2 n) 1 P with _ | g
  · intro y hy; cases hy
  · rw [h g hx]; exact .guard hc .refl

/-- C82 for `weil_pairing`. -/
theorem C82_weilPairing (E : Crv K) (P Q : Pt K) (n : Nat) :
    Refines (weilPairing c E P Q n) (weilPairing c' E P Q n) := by
  have h := C82_tatePairing hc E P Q n
  have h' := C82_tatePairing hc E Q P n
  unfold weilPairing
  rcases hx' : tatePairing c E P Q n with _ | x
  · intro y hy; cases hy
  · rcases hx : tatePairing c E Q P n with _ | z
    · intro y hy; cases hy
    · rw [h x hx', h' z hx]; exact .refl

theorem bidlp_refines (E : Crv K) (R P Q : Pt K) (fs : Factored) (x : K) :
    Refines (bidlp c E R P Q fs (some x)) (bidlp c' E R P Q fs (some x)) := by
  have h2 := C82_weilPairing hc E R Q fs.value
  have h3 := C82_weilPairing hc E R P.neg fs.value
  unfold bidlp
  dsimp only
  rcases hx : weilPairing c E R Q fs.value with _ | a
  · intro y hy; cases hy
  rw [h2 a hx]
  rcases hx : weilPairing c E R P.neg fs.value with _ | b
  · intro y hy; cases hy
  rw [h3 b hx]
  dsimp only
  have h4 := C82_phDlp hc a x fs
  have h5 := C82_phDlp hc b x fs
  rcases hx : phDlp c a x fs with _ | u
  · intro y hy; cases hy
  rw [h4 u hx]
  rcases hx : phDlp c b x fs with _ | v
  · intro y hy; cases hy
  rw [h5 v hx]
  exact .refl

/-- C82 for `bidlp`. -/
theorem C82_bidlp (E : Crv K) (R P Q : Pt K) (fs : Factored) (ePQ : Option K) :
    Refines (bidlp c E R P Q fs ePQ) (bidlp c' E R P Q fs ePQ) := by
  rcases ePQ with _ | x
  · have h := C82_weilPairing hc E P Q fs.value
    have e : ∀ k w, weilPairing k E P Q fs.value = some w →
        bidlp k E R P Q fs none = bidlp k E R P Q fs (some w) := by
      intro k w hw
      unfold bidlp
      dsimp only
      rw [hw]
    rcases hx : weilPairing c E P Q fs.value with _ | w
    · intro y hy
      unfold bidlp at hy
      dsimp only at hy
      rw [hx] at hy
      cases hy
    · rw [e c w hx, e c' w (h w hx)]
      exact bidlp_refines hc E R P Q fs w
  · exact bidlp_refines hc E R P Q fs x

/-- C82 for `compute_canonical_kernel`. -/
theorem C82_canonicalKernel (E : Crv K) (R S : Pt K) (fs : Factored) (P Q : Pt K) :
    Refines (canonicalKernel c E R S fs P Q) (canonicalKernel c' E R S fs P Q) := by
  have h := C82_weilPairing hc E P Q fs.value
  unfold canonicalKernel
  rcases hx : weilPairing c E P Q fs.value with _ | x
  · intro y hy; cases hy
  rw [h x hx]
  dsimp only
  have h1 := C82_bidlp hc E R P Q fs (some x)
  have h2 := C82_bidlp hc E S P Q fs (some x)
  rcases hx : bidlp c E R P Q fs (some x) with _ | u
  · intro y hy; cases hy
  rw [h1 u hx]
  rcases hx : bidlp c E S P Q fs (some x) with _ | v
  · intro y hy; cases hy
  rw [h2 v hx]
  exact .refl

/-- C82 for `KummerLineIsogeny::new`. -/
theorem C82_isogenyNew (E : Crv K) (P : Pt K) (l : UInt64) : Refines (KIso.new c E P l) (KIso.new c' E P l) :=
  .guard hc (.guard hc (.guard hc .refl))

variable [RootOps K]

/-- C82 for `evaluate_isogeny_chain_for_basis`. -/
theorem C82_evalChainBasis (E : Crv K) (B : Pt K × Pt K) (L : List (KIso K)) (n d : Nat) :
    Refines (evalChainBasis c E B L n d) (evalChainBasis c' E B L n d) := by
  obtain ⟨P, Q⟩ := B
  unfold evalChainBasis
  dsimp only
  have h := C82_weilPairing hc E P Q n
  have h' := C82_weilPairing hc (evalChain E P L).1 (evalChain E P L).2 (evalChain E Q L).2 n
  rcases hx : weilPairing c E P Q n with _ | x
  · intro y hy; cases hy
  rw [h x hx]
  rcases hx : weilPairing c (evalChain E P L).1 (evalChain E P L).2 (evalChain E Q L).2 n with _ | z
  · intro y hy; cases hy
  rw [h' z hx]
  exact .refl

theorem recSparse_refines : ∀ k (E : Crv K) (Q : Pt K) (l : UInt64) (e : Nat),
    Refines (recSparse c k E Q l e) (recSparse c' k E Q l e)
  | 0, _, _, _, _ => .refl
  | k + 1, E, Q, l, e => by
    unfold recSparse
    refine .ite .refl (.ite (.map _ (C82_isogenyNew hc E Q l)) ?_)
    dsimp only
    generalize max 1 (min (e - 1) ((e * 8 + 5) / 10)) = k1
    rcases hx : mulSmallIter E l k1 Q with _ | Q1
    · exact .refl
    dsimp only
    have h := recSparse_refines k E Q1 l (e - k1)
    rcases hx : recSparse c k E Q1 l (e - k1) with _ | L
    · intro y hy; cases hy
    rw [h L hx]
    dsimp only
    have h' := recSparse_refines k (evalChain E Q L).1 (evalChain E Q L).2 l k1
    rcases hx : recSparse c k (evalChain E Q L).1 (evalChain E Q L).2 l k1 with _ | R
    · intro y hy; cases hy
    rw [h' R hx]
    exact .refl

theorem factoredLoop_refines (fs : Factored) : ∀ s (E : Crv K) (P : Pt K),
    Refines (factoredLoop c fs s E P) (factoredLoop c' fs s E P)
  | [], _, _ => .refl
  | (l, e) :: s, E, P => by
    unfold factoredLoop
    rcases hx : kernelCofactor E l fs P with _ | Q
    · exact .refl
    dsimp only
    have h := recSparse_refines hc e.toNat E Q l.toUInt64 e.toNat
    rcases hx : recSparse c e.toNat E Q l.toUInt64 e.toNat with _ | L
    · intro y hy; cases hy
    rw [h L hx]
    dsimp only
    have h' := factoredLoop_refines fs s (evalChain E P L).1 (evalChain E P L).2
    rcases hx : factoredLoop c fs s (evalChain E P L).1 (evalChain E P L).2 with _ | R
    · intro y hy; cases hy
    rw [h' R hx]
    exact .refl

/-- C82 for `factored_kummer_isogeny`. -/
theorem C82_factoredIsogeny (E : Crv K) (P : Pt K) (fs : Factored) :
    Refines (factoredIsogeny c E P fs) (factoredIsogeny c' E P fs) := factoredLoop_refines hc fs fs E P

/-- C82 for `random_isogeny_x_only`. -/
theorem C82_randomIsogeny (fs : Factored) : ∀ draws (E : Crv K),
    Refines (randomIsogeny c fs draws E) (randomIsogeny c' fs draws E)
  | [], _ => .refl
  | d :: ds, E => by
    unfold randomIsogeny
    rcases hx : randomPointOrder E (d.filterMap E.randPoint) fs 634 with _ | P
    · exact .refl
    dsimp only
    have h := C82_factoredIsogeny hc E P fs
    rcases hx : factoredIsogeny c E P fs with _ | L
    · intro y hy; cases hy
    rw [h L hx]
    dsimp only
    rcases hx : L.getLast? with _ | f
    · exact .refl
    dsimp only
    have h' := C82_randomIsogeny fs ds f.codomain
    rcases hx : randomIsogeny c fs ds f.codomain with _ | R
    · intro y hy; cases hy
    rw [h' R hx]
    exact .refl

omit [RootOps K] in
theorem basisCandidate_refines (E : Crv K) (P X : Pt K) (k : Nat) (fs : Factored) (e : Nat) :
    Refines (basisCandidate c E P X k fs e) (basisCandidate c' E P X k fs e) := by
  unfold basisCandidate
  rcases hx : clearCofactor E X k e with _ | Q
  · exact .refl
  refine .ite .refl ?_
  rcases hx : E.mulBig Q fs.value with _ | T
  · exact .refl
  refine .ite .refl ?_
  rcases hx : pointHasFactoredOrder E Q fs with _ | _ | _
  · exact .refl
  · exact .refl
  dsimp only
  have h := C82_weilPairing hc E P Q fs.value
  rcases hx : weilPairing c E P Q fs.value with _ | x
  · intro y hy; cases hy
  rw [h x hx]
  exact .refl

variable {fuel fuel' : Nat} (hf : fuel ≤ fuel')

omit hc in
theorem pointOrderLoop_refines (E : Crv K) (k : Nat) (fs : Factored) (e : Nat) : ∀ n m it, n ≤ m →
    Refines (pointOrderLoop E k fs e n it) (pointOrderLoop E k fs e m it)
  | 0, _, _, _ => fun y hy => by cases hy
  | n + 1, 0, _, h => by omega
  | n + 1, m + 1, it, h => by
    unfold pointOrderLoop
    rcases it.next with ⟨_ | X, it'⟩
    · exact .refl
    dsimp only
    rcases hx : torsionCandidate E X k fs e with _ | _ | T
    · exact .refl
    · exact pointOrderLoop_refines E k fs e n m it' (by omega)
    · exact .refl

theorem basisLoop_refines (E : Crv K) (P : Pt K) (k : Nat) (fs : Factored) (e : Nat) : ∀ n m it, n ≤ m →
    Refines (basisLoop c E P k fs e n it) (basisLoop c' E P k fs e m it)
  | 0, _, _, _ => fun y hy => by cases hy
  | n + 1, 0, _, h => by omega
  | n + 1, m + 1, it, h => by
    unfold basisLoop
    rcases it.next with ⟨_ | X, it'⟩
    · exact .refl
    dsimp only
    have h1 := basisCandidate_refines hc E P X k fs e
    rcases hx : basisCandidate c E P X k fs e with _ | x
    · intro y hy; cases hy
    rw [h1 x hx]
    rcases x with _ | T
    · exact basisLoop_refines E P k fs e n m it' (by omega)
    · exact .refl

omit hc in
include hf in
/-- C82 for `generate_point_order_factored_D`. -/
theorem C82_pointOrder (E : Crv K) (fs : Factored) (e : Nat) :
    Refines (pointOrder fuel E fs e) (pointOrder fuel' E fs e) :=
  .ite .refl (pointOrderLoop_refines E _ fs e _ _ _ hf)

include hf

/-- C82 for `torsion_basis`. -/
theorem C82_torsionBasis (E : Crv K) (fs : Factored) (e : Nat) :
    Refines (torsionBasis c fuel E fs e) (torsionBasis c' fuel' E fs e) := by
  have h := C82_pointOrder hf E fs e
  unfold torsionBasis
  rcases hx : pointOrder fuel E fs e with _ | P
  · intro y hy; cases hy
  rw [h P hx]
  exact basisLoop_refines hc E P _ fs e _ _ _ hf

omit hf in
theorem isogenyFromScalar_refines (E : Crv K) (fs : Factored) (m : Nat) (B : Pt K × Pt K) :
    Refines (isogenyFromScalar c fuel E fs m (some B)) (isogenyFromScalar c' fuel' E fs m (some B)) := by
  unfold isogenyFromScalar
  dsimp only
  rcases hx : E.mulBig B.2 m with _ | T
  · exact .refl
  dsimp only
  have h2 := C82_factoredIsogeny hc E (E.add B.1 T) fs
  rcases hx : factoredIsogeny c E (E.add B.1 T) fs with _ | L
  · intro y hy; cases hy
  rw [h2 L hx]
  exact .refl

/-- C82 for `isogeny_from_scalar_x_only`. -/
theorem C82_isogenyFromScalar (E : Crv K) (fs : Factored) (m : Nat) (B : Option (Pt K × Pt K)) :
    Refines (isogenyFromScalar c fuel E fs m B) (isogenyFromScalar c' fuel' E fs m B) := by
  rcases B with _ | B
  · have h := C82_torsionBasis hc hf E fs 634
    have e : ∀ k n w, torsionBasis k n E fs 634 = some w →
        isogenyFromScalar k n E fs m none = isogenyFromScalar k n E fs m (some w) := by
      intro k n w hw
      unfold isogenyFromScalar
      dsimp only
      rw [hw]
    rcases hx : torsionBasis c fuel E fs 634 with _ | w
    · intro y hy
      unfold isogenyFromScalar at hy
      dsimp only at hy
      rw [hx] at hy
      cases hy
    · rw [e c _ w hx, e c' _ w (h w hx)]
      exact isogenyFromScalar_refines hc E fs m w
  · exact isogenyFromScalar_refines hc E fs m B

/-- C82 for `FESTACrypto::new`. -/
theorem C82_new {F : Type} [Field F] [DecidableEq F] [CoeffOps F K] (k : Consts) :
    Refines (Crypto.new (K := K) (F := F) c fuel k) (Crypto.new (K := K) (F := F) c' fuel' k) := by
  unfold Crypto.new
  refine .bind .refl fun E0 => .bind .refl fun _ => .bind .refl fun _ => .bind .refl fun _ => .bind .refl fun ⟨_, _⟩ =>
    .bind (C82_torsionBasis hc hf E0 _ _) fun _ => .refl

/-- C82 for `keygen`: a key pair that is made in a debug build is made from the same random numbers in a release build. -/
theorem C82_keygen (S : Crypto K) (r11 r22 : Nat) (dA1 dA2 : List (List (List (K × Bool)))) :
    Refines (S.keygen c fuel r11 r22 dA1 dA2) (S.keygen c' fuel' r11 r22 dA1 dA2) := by
  unfold Crypto.keygen
  refine .bind (C82_randomIsogeny hc _ _ _) fun ⟨_, _⟩ => .bind (C82_randomIsogeny hc _ _ _) fun ⟨_, _⟩ =>
    .bind (C82_torsionBasis hc hf _ _ _) fun ⟨_, _⟩ => .bind (C82_evalChainBasis hc _ _ _ _ _) fun ⟨_, _, _⟩ =>
    .bind .refl fun _ => .bind .refl fun _ => .bind (C82_evalChainBasis hc _ _ _ _ _) fun ⟨_, _, _⟩ =>
    .bind .refl fun _ => .bind .refl fun _ => .bind .refl fun _ => .bind .refl fun _ =>
    .bind (C82_torsionBasis hc hf _ _ _) fun ⟨_, _⟩ => .bind (C82_weilPairing hc _ _ _ _) fun _ =>
    .bind (C82_bidlp hc _ _ _ _ _ _) fun ⟨_, _⟩ => .bind (C82_bidlp hc _ _ _ _ _ _) fun ⟨_, _⟩ =>
    .bind .refl fun _ => .bind .refl fun _ => .bind .refl fun _ => .bind .refl fun _ =>
    .bind .refl fun _ => .bind .refl fun _ => .guard hc (.guard hc .refl)

/-- C82 for `trapdoor_eval`. -/
theorem C82_trapdoorEval (S : Crypto K) (pk : PublicKey K) (m : TrapdoorInput) :
    Refines (S.trapdoorEval c fuel pk m) (S.trapdoorEval c' fuel' pk m) := by
  unfold Crypto.trapdoorEval
  exact .bind (C82_isogenyFromScalar hc hf _ _ _ _) fun ⟨_, _⟩ => .bind (C82_evalChainBasis hc _ _ _ _ _) fun ⟨_, _, _⟩ =>
    .bind (C82_isogenyFromScalar hc hf _ _ _ _) fun ⟨_, _⟩ => .bind (C82_evalChainBasis hc _ _ _ _ _) fun ⟨_, _, _⟩ => .refl

omit hf [RootOps K] in
/-- C82 for `recover_diagB`. -/
theorem C82_recoverDiagB (S : Crypto K) (E : Crv K) (R P Q : Pt K) :
    Refines (S.recoverDiagB c E R P Q) (S.recoverDiagB c' E R P Q) := by
  unfold Crypto.recoverDiagB
  exact .bind (C82_bidlp hc _ _ _ _ _ _) fun _ => .refl

omit hf [RootOps K] in
/-- C82 for `recover_si_and_B`. -/
theorem C82_recoverSiAndB (S : Crypto K) (E : Crv K) (L1 L2 P1 Q1 P2 Q2 : Pt K) :
    Refines (S.recoverSiAndB c E L1 L2 P1 Q1 P2 Q2) (S.recoverSiAndB c' E L1 L2 P1 Q1 P2 Q2) := by
  unfold Crypto.recoverSiAndB
  exact .bind .refl fun _ => .bind .refl fun _ => .bind .refl fun _ => .bind .refl fun _ => .bind .refl fun _ =>
    .bind .refl fun _ => .bind .refl fun _ => .bind .refl fun _ => .bind .refl fun _ => .bind .refl fun _ =>
    .bind .refl fun _ => .bind (C82_canonicalKernel hc _ _ _ _ _ _) fun _ =>
    .bind (C82_canonicalKernel hc _ _ _ _ _ _) fun _ => .bind (C82_recoverDiagB hc _ _ _ _ _) fun _ => .refl

omit hf in
theorem chooseFactor_refines (E : Crv K) (E34 : EProd K) (I1 I2 : CPt K) :
    Refines (chooseFactor c E E34 I1 I2) (chooseFactor c' E E34 I1 I2) :=
  .ite .refl (.guard hc .refl)

/-- C82 for `trapdoor_inverse`. -/
theorem C82_trapdoorInverse (S : Crypto K) (ct : TrapdoorOutput K) (sk : SecretKey K) :
    Refines (S.trapdoorInverse c fuel ct sk) (S.trapdoorInverse c' fuel' ct sk) := by
  unfold Crypto.trapdoorInverse
  refine .bind .refl fun _ => .bind .refl fun _ => .bind .refl fun _ => .bind .refl fun _ =>
    .bind (C82_torsionBasis hc hf _ _ _) fun ⟨_, _⟩ => .bind (C82_torsionBasis hc hf _ _ _) fun ⟨_, _⟩ =>
    .bind .refl fun _ => .bind .refl fun _ => .bind (C82_weilPairing hc _ _ _ _) fun _ =>
    .bind (C82_weilPairing hc _ _ _ _) fun _ => .guard hc (.bind .refl fun ⟨_, images⟩ => ?_)
  dsimp only
  split
  · exact .bind (chooseFactor_refines hc _ _ _ _) fun ⟨_, _⟩ => C82_recoverSiAndB hc _ _ _ _ _ _ _ _
  · exact .refl

/-- C82 for a whole round of the benchmark of main.rs: if it passes in a debug build, then so it does in a release
build. -/
theorem C82_bench (S : Crypto K) (r11 r22 : Nat) (dA1 dA2 : List (List (List (K × Bool)))) (s1 s2 r : Nat) :
    Refines (S.bench c fuel r11 r22 dA1 dA2 s1 s2 r) (S.bench c' fuel' r11 r22 dA1 dA2 s1 s2 r) := by
  unfold Crypto.bench
  exact .bind (C82_keygen hc hf _ _ _ _ _) fun ⟨_, _⟩ => .bind .refl fun _ => .bind (C82_trapdoorEval hc hf _ _ _) fun _ =>
    .bind (C82_trapdoorInverse hc hf _ _ _) fun _ => .refl
omit hf [RootOps K]
variable [Codec K]

omit hc [Field K] [DecidableEq K] in
theorem decodeFields_refines (hc : c' = true → c = true) (v : List UInt8) : ∀ n off,
    Refines (decodeFields (K := K) c v n off) (decodeFields c' v n off)
  | 0, _ => .refl
  | n + 1, off => by
    unfold decodeFields
    rcases hx : slice v off (Codec.encLen K) with _ | s
    · exact .refl
    refine .guard hc ?_
    have h := decodeFields_refines hc v n (off + Codec.encLen K)
    rcases hx : decodeFields (K := K) c v n (off + Codec.encLen K) with _ | rest
    · intro y hy; cases hy
    rw [h rest hx]
    exact .refl

/-- C82 for `SecretKey::decode`. -/
theorem C82_decode_secret (v : List UInt8) :
    Refines (SecretKey.decode (K := K) c v) (SecretKey.decode c' v) := by
  refine .guard hc ?_
  have h := decodeFields_refines (K := K) hc v 9 0
  rcases hx : decodeFields (K := K) c v 9 0 with _ | s
  · intro y hy; cases hy
  rw [h s hx]
  exact .refl

/-- C82 for `TrapdoorOutput::decode`. -/
theorem C82_decode_output (v : List UInt8) :
    Refines (TrapdoorOutput.decode (K := K) c v) (TrapdoorOutput.decode c' v) := by
  refine .guard hc ?_
  have h := decodeFields_refines (K := K) hc v 10 0
  rcases hx : decodeFields (K := K) c v 10 0 with _ | s
  · intro y hy; cases hy
  rw [h s hx]
  exact .refl
end

/-- Two results that refine a common one are equal. -/
theorem Refines.eq {α : Type*} {a b d : Option α} {x y : α} (ha : Refines a d) (hb : Refines b d) (hx : a = some x)
    (hy : b = some y) : x = y := Option.some.inj ((ha x hx).symm.trans (hb y hy))

section
variable {K : Type} [Field K] [DecidableEq K] [RootOps K] (c₁ c₂ : Bool) (n₁ n₂ : Nat)

/-- C82: two builds, and two searches of whatever length, never find different torsion bases. -/
theorem C82_torsionBasis_unique (E : Crv K) (fs : Factored) (e : Nat) {x y : Pt K × Pt K}
    (hx : torsionBasis c₁ n₁ E fs e = some x) (hy : torsionBasis c₂ n₂ E fs e = some y) : x = y :=
  (C82_torsionBasis (c' := false) (fun h => absurd h (by decide)) (le_max_left n₁ n₂) E fs e).eq
    (C82_torsionBasis (fun h => absurd h (by decide)) (le_max_right n₁ n₂) E fs e) hx hy

/-- C82: two builds never make different keys from the same random numbers. -/
theorem C82_keygen_unique (S : Crypto K) (r11 r22 : Nat) (dA1 dA2 : List (List (List (K × Bool))))
    {x y : PublicKey K × SecretKey K} (hx : S.keygen c₁ n₁ r11 r22 dA1 dA2 = some x)
    (hy : S.keygen c₂ n₂ r11 r22 dA1 dA2 = some y) : x = y :=
  (C82_keygen (c' := false) (fun h => absurd h (by decide)) (le_max_left n₁ n₂) S r11 r22 dA1 dA2).eq
    (C82_keygen (fun h => absurd h (by decide)) (le_max_right n₁ n₂) S r11 r22 dA1 dA2) hx hy

/-- C82: two builds never compute different values of the trapdoor function. -/
theorem C82_trapdoorEval_unique (S : Crypto K) (pk : PublicKey K) (m : TrapdoorInput) {x y : TrapdoorOutput K}
    (hx : S.trapdoorEval c₁ n₁ pk m = some x) (hy : S.trapdoorEval c₂ n₂ pk m = some y) : x = y :=
  (C82_trapdoorEval (c' := false) (fun h => absurd h (by decide)) (le_max_left n₁ n₂) S pk m).eq
    (C82_trapdoorEval (fun h => absurd h (by decide)) (le_max_right n₁ n₂) S pk m) hx hy

/-- C82: two builds never invert a value to different inputs. -/
theorem C82_trapdoorInverse_unique (S : Crypto K) (ct : TrapdoorOutput K) (sk : SecretKey K) {x y : TrapdoorInput}
    (hx : S.trapdoorInverse c₁ n₁ ct sk = some x) (hy : S.trapdoorInverse c₂ n₂ ct sk = some y) : x = y :=
  (C82_trapdoorInverse (c' := false) (fun h => absurd h (by decide)) (le_max_left n₁ n₂) S ct sk).eq
    (C82_trapdoorInverse (fun h => absurd h (by decide)) (le_max_right n₁ n₂) S ct sk) hx hy
end

/-- C82 for the shipped constants: `FESTACrypto::new` makes one and the same value in both builds, whatever the length
of the search. -/
theorem C82_setup : ∃ S : Crypto Fq, ∀ chk fuel, 4 ≤ fuel → Crypto.new (F := Fr) chk fuel festaConsts = some S := by
  obtain ⟨S, hS, -⟩ := C78_setup true 4 le_rfl
  exact ⟨S, fun chk fuel hf => C82_new (fun _ => rfl) hf festaConsts S hS⟩

/-- The converse of C82 is false: release builds return results where debug builds panic. -/
theorem C82_converse_fails : (∃ n, ¬Refines (sqrtFloor false n) (sqrtFloor true n)) ∧
    ∃ E : Crv F127, ∃ s q : Pt F127, ¬Refines (weilPairing false E s q 64) (weilPairing true E s q 64) := by
  refine ⟨⟨4294836226, fun h => ?_⟩, ?_⟩
  · obtain ⟨s, hs, -⟩ := C36_sqrt 4294836226
    have := h s hs
    rw [C36_sqrt_checked, if_neg (by decide)] at this
    cases this
  · refine ⟨e127.E1, e127.E1.add (e127.E1.double p127.P1) (e127.E1.double q127.P1), q127.P1, fun h => ?_⟩
    have h1 : weilPairing true e127.E1 (e127.E1.add (e127.E1.double p127.P1) (e127.E1.double q127.P1)) q127.P1 64 = none := by
      decide +kernel
    have h2 : (weilPairing false e127.E1 (e127.E1.add (e127.E1.double p127.P1) (e127.E1.double q127.P1)) q127.P1 64).isSome := by
      decide +kernel
    obtain ⟨w, hw⟩ := Option.isSome_iff_exists.mp h2
    have := h w hw
    rw [h1] at this
    cases this

/-- A case of C82 with something to refine: the pairing of the basis of order 64 of `basis127` is returned in a debug
build, and so is its logarithm. -/
example : ∃ w, weilPairing true e127.E1 p127.P1 q127.P1 64 = some w ∧ weilPairing false e127.E1 p127.P1 q127.P1 64 = some w := by
  have h : (weilPairing true e127.E1 p127.P1 q127.P1 64).isSome := by decide +kernel
  obtain ⟨w, hw⟩ := Option.isSome_iff_exists.mp h
  exact ⟨w, hw, C82_weilPairing (fun h => absurd h (by decide)) _ _ _ _ w hw⟩

example : bidlp false e127.E1 (e127.E1.add p127.P1 q127.P1) p127.P1 q127.P1 [(2, 6)] none = some (1, 1) :=
  C82_bidlp (c := true) (fun h => absurd h (by decide)) _ _ _ _ _ _ (1, 1) (by decide +kernel)

end Festa
