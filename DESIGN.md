# Formal model of festa_rs in Lean 4: design

Source modelled: `/repo/src` (Rust). The code is read as text; it is neither built nor run.

## Layout

| directory | content |
|-----------|---------|
| `lean/Verif/Model` | the code, function by function; every definition cites the lines it transcribes |
| `lean/Verif/Spec` | the notions the claims are stated with (residues, group of the curve, bases, isogeny chains, theta relations) and the small test fields of the concrete cases |
| `lean/Verif/Lemmas` | auxiliary proofs |
| `lean/Verif/Props` | the property theorems, named after the claims (`C27_mul_big`), each with a concrete case |

`MANIFEST.json` maps claims to theorems. `properties.jsonl` has the claims. `seeded/LOG.jsonl` records wrong
variants of the model and which theorems refuse them.

## How the code is modelled

1. **Words** (`Model/Word`): `u64` is `UInt64`; carries, borrows and wide products as in `utils64.rs`.
2. **Fp** (`Model/Fp`, `Model/FpDiv`): a limb array is a `List UInt64`, little endian. The macro
   `define_fp_core!` is a set of functions of a parameter record; `Valid` collects the relations among the
   constants. The constants of `fields.rs` are one record (`festaFp`), proved valid. An element means
   `limbs * R^-1` in `ZMod p`. All theorems up to C17 hold for every valid record, of any length.
3. **Fp2** (`Model/Fp2`): pairs of limb vectors, formulas as in `fp2_gen.rs`. `Fq` is the type of reduced
   pairs for the FESTA constants. It gets its `Field` instance from the operations of the code.
4. **Curves** (`Model/EC`) and everything above are generic in a field `K`; square root and Legendre symbol come
   from a class `RootOps` (the contracts of C15, C21), real and imaginary parts from `CoeffOps`, byte encoding
   from `Codec`. `Fq` has all of these instances, built from the verified code. So each theorem of the upper layers applies to
   the actual field, and small fields give concrete cases.
5. Reference semantics of points: Mathlib's `WeierstrassCurve.Affine.Point` (`MPoint A`, relation `PRep`).
6. Panics are `none`. The flag `chk` says whether overflow checks and debug assertions are on; theorems hold
   for both values unless they say otherwise.
7. Loops are structural recursions or folds; loops without a bound take `fuel` or an arbitrary stream of random
   values. `&mut` methods return the new value. Random generators are arbitrary streams.
8. `BigUint` is `Nat`; `usize` lengths are `Nat`.

### Not modelled

* timing behaviour, memory layout, derived `Debug` output;
* the timing and printing in `main.rs`, and the test modules;
* the identity of the pseudo-random generator;
* of the scripts in `precompute`, the text layout of the output and the random choice of `NQR_RE_VAL`.

## Trusted base

* the Lean 4.33.0 kernel and Mathlib (imported module by module);
* axioms: only `propext`, `Classical.choice`, `Quot.sound`, for every theorem of the manifest; no `sorry`, no
  own axioms, no `native_decide`, no `bv_decide`;
* the transcription of Rust into the definitions of `Model`;
* the semantics of Rust integers as `UInt64`, `UInt32`, `Nat`, and of `num_bigint` as `Nat`;
* the definitions in `Spec`, which say what the claims mean.

As a check of the transcription, outside the proofs, the model was also interpreted with the constants of the code: for
three seeds, key generation, evaluation and inversion gave back the input, with debug assertions on.

## Per property

| id | modelled code | how it is proved, what is missing |
|----|---------------|-----------------------------------|
| C01 | utils64.rs | `toNat` equations |
| C02 | fields.rs constants | kernel evaluation; primality by an N+1 (Morrison) argument with modular powers checked by the kernel |
| C03–C10 | fp_gen.rs arithmetic | induction over limb lists of any length |
| C11, C12, C23 | encode, decode | positional values of byte lists |
| C13, C56 | powers | induction over windows and bits |
| C14, C15 | binary GCD, Legendre | invariant of the approximate inner loop, error bound of the approximation, convergence in the fixed number of rounds |
| C16, C17, C21, C22, C57 | roots | Euler's criterion from primality |
| C18–C20 | Fp2 | field laws of the code's own operations; batch inversion by induction |
| C24–C30, C32, C33, C58–C60 | eccore.rs | case analysis against Mathlib's group law; ladder invariant |
| C27 | mul | partial: wrong for `nbitlen = 0`, odd first byte, point of order 2 (`C27_mul_zero_bits_fails`) |
| C31 | CurveIsomorphism | claim false (`C31_infinity_fails`, `C31_same_curve_fails`); `C31_exact` says for which pairs of curves it holds off infinity. Necessity: a wrong scaling sends some point off the target curve, or sends two points to one |
| C34–C38 | discrete_log.rs | loop invariants, orders in commutative groups |
| C39 | bidlp | bilinearity of the code's Miller loop on independent points; exact behaviour off the axes in debug builds; the excluded multiples of a basis point are described and counted (`Props/AxisCount.lean`); partial: see finding 9 |
| C40 | order tests | exact characterisation of the answer; the claim itself is false (`C40_point_order_fails`) |
| C41 | torsion_basis | orders proved; independence false in general (`C41_independent_fails`). On the curves of the scheme, which have full torsion (C71), the pairing of two multiples of one point is 1 unless a Miller loop meets a zero, so the points are a basis except for few multiples (`Props/TorsionFree.lean`); C73, C75, C76 and C88 use this and assume only that no such multiple was found |
| C42 | entangled basis | false when a right-hand side is a non-residue of Fp (`C42_fails`); proved otherwise, and without exception for the start curve |
| C43 | canonical kernel | scalar arithmetic by Chinese remaindering; group statement for cyclic groups; partial as C39 |
| C44 | pairing.rs | Miller functions as elements of the coordinate ring: divisors as ideals, reciprocity; the exact conditions for a panic by induction along the chain |
| C45 | Kummer isogeny step | Vélu: the formulas are shown to be a homomorphism with the right kernel, over any field |
| C46, C61, C62 | chains | recursion over lists of correct steps |
| C47 | product_isogeny | bounds for every strategy; equality with the naive chain for regular kernels given by bases (gluing commutes with doubling by C67) |
| C48–C50 | theta.rs | polynomial identities; C49 false at one index (`C49_zero_index_fails`). `C50_split` says what `split_to_product` returns for products; `C50_split_degenerate` where it loses a component |
| C51, C52 | encodings | byte-level round trips |
| C53 | recover_diagB | arithmetic modulo a power of two, C39 on the axis |
| C54 | keygen, trapdoor_eval, trapdoor_inverse | the three functions are followed step by step in terms of isogenies and points (`Spec/Keys.lean`). `C54_eval` is complete up to the bases found by `torsion_basis`. `C54_inverse_partial` assumes that the theta chain maps the two points as Kani's lemma says; `C54_invert_partial` (`Props/Kani.lean`) proves this from C72. Partial: the chain is assumed to meet no product before its end (`JacChain`; that it ends in one is C83), `EA'` to have j-invariant different from 0 and 1728, and the few multiples of a basis point at which a Miller loop meets a zero (`AxisFree`) are excluded because the code fails there (`C54_zero_fails`, `Props/ZeroScalar.lean`: an input with s2 = 0). Factors with coefficient `-EA'.A`, where the code fails too (C31), cannot occur if `(l/2) Pb` is not (0, 0) (C84), which holds for the setup of the code (C85). `C54_choose` treats the choice of the factor. `Props/SchemeCase.lean` is a concrete case with all hypotheses proved: a small version of the scheme over a field of 142 bits, with key, value and inversion |
| C55 | equality | case analysis |
| C63 | gen_random_trapdoor_input | arithmetic modulo a power of two |
| C64 | evaluate_isogeny_chain_for_basis | the Weil pairing of the images of a Vélu step is a power of the pairing; this fixes the relative sign of the two images |
| C65 | weil_pairing | odd prime orders: a function with the zeros Q+iP and the poles iP, invariant under translation by P, is constant; order two directly; then all orders by compatibility |
| C66 | bidlp | torsion of prime order has no third independent point, because its Weil pairing with the basis could be cancelled (C65); then induction over the order |
| C67 | gluing_isogeny | `x = e + L s` puts each curve in the form y² = L³ (s³ + α s² + s) with α given by a parameter m, both read off the two points of order four; in adapted coordinates the base change matrix is explicit, the image has products of coordinates of the two factors as coordinates, and the claims become polynomial identities. Code fails on exceptional pairs of order four (`C67_exceptional_fails`) |
| C68 | product_isogeny | the ten bilinear relations (Riemann) between theta coordinates of X, Y, X+Y and X-Y hold after gluing, are carried over by every step of the chain, and after splitting become such relations on each curve; these determine the image of X+Y from those of X, Y and X-Y, so an induction over the coefficients gives all combinations. Before the last step a coordinate of the null point vanishes (it does in the scheme), so doubles are carried along rather than computed there (`Spec/Chain.lean`). Kernel: a step sends to the null point just the even sign changes of the null point, the relations move such a sign change along the chain back to the gluing, and there coordinates of both factors decide. Not covered: combinations of X, Y with X, Y mapped to infinity or to an x-coordinate with no point over the field, and n = 2 |
| C69 | curves of the scheme | `y² = x³ + x` has the automorphism (x,y) ↦ (-x, iy), which anticommutes with Frobenius for p ≡ 3 mod 4; so the square of Frobenius is -p on its 2-power torsion, and then everywhere, since a multiple is a rational function of x of bounded degree (`Lemmas/Frob*.lean`). A 2-isogeny carries this to A = 6 and Vélu's formulas to every reached curve (`Lemmas/Supersing.lean`). So p+1 kills all points, and a point killed by p+1 over the closure is rational. The field of the code is identified with the field with p² elements by its limb routines (`Lemmas/FqCard.lean`) |
| C70 | dual isogenies, kernel of the chain | Vélu's maps are onto over the algebraic closure, and an isogeny of odd degree d has a map back over the closure which commutes with the square of Frobenius, because this is -p on both curves; so it is defined over the field of the code (`Lemmas/Dual.lean`). `C70_dual`, `C70_adjoint`, `C70_code`, and `C70_kernel`: the points given to `product_isogeny` are the kernel of the first component of Kani's isogeny. The dual isogenies are proof objects; the code never computes them |
| C71 | group of points | multiplication by n is onto over the closure, because its abscissa is a non-constant rational function and infinitely many points are hit (`Lemmas/Divisible.lean`). `y² = x³ + x` has p+1 points over the field with p elements (x ↦ -x and the quadratic character), the same number with Frobenius = -1, and (1-π)(1+π) = p+1; so (p+1)² points are killed by p+1. With at most r² points of prime order r this gives bases of all orders dividing p+1, which are carried to A = 6 and along isogenies by counting kernels (`Lemmas/FullTorsion.lean`). `C71_group`, `C71_code`; `C71_search` counts the points the code rejects |
| C72 | Kani's lemma | over the closure the product net of the chain (C68) and the pair of isogenies of Kani's diamond have the same kernel, so one component is an isomorphism away from `m1 φA φ1^ - m2 γ^` (`Lemmas/Kani*.lean`); Galois descent shows that the isomorphism is the affine map the code finds (`Lemmas/KaniDescent.lean`, automorphisms ±1 as j ≠ 0, 1728), and duals over the closure are those of C70 (`lift_dual`). `C72_kani`; used in `C54_invert_partial`, the inversion of the trapdoor function with no assumption on the values of the chain. Both have the small version of the scheme as concrete case (`Props/KaniCase.lean`) |
| C73 | main.rs, whole scheme | `Model/Bench.lean` composes setup, key generation, input generation, evaluation and inversion as main.rs does. `C73_bench_partial`: a round ends without panic, over the field of the code and with its constants; composed from C54_setup, C54_norm, C69_setup, C54_keygen_partial, C63, C54_eval and C54_invert_partial. Partial: the exceptional cases are hypotheses, collected in `Spec/Run.lean` (`CleanOut`) and in the statement. `C73_scheme_partial` is the same for any parameters; a round for the small version of the scheme is its concrete case (`Props/RoundTripCase.lean`; a case for the shipped parameters is too large to evaluate in the kernel) |
| C74 | theta.rs product_isogeny | `C74_projective`: the code's own formulas (doubling, addition, gluing, theta doubling, codomains, splitting) are followed with scaled input; every test in them is homogeneous. The relation is `CPt.Same` / `CPt.SameX` of `Spec/Projective.lean` |
| C75 | festa.rs, whole scheme with bytes | `C75_festa_partial`: key generation, evaluation, encoding of secret key and value, decoding, inversion. Decoded points have Z = 1, so the step from C73 needs C74 and C51/C52. Partial for the same exceptional cases as C73. Concrete case in `Props/SerialCase.lean` |
| C76 | festa.rs, whole scheme | `C76_festa_partial`: equal encodings come from equal inputs, by C75. Partial for the same exceptional cases as C73 (of one of the two values only) |
| C77 | fp_gen.rs, fp2_gen.rs hashcode | `C77_fp`, `C77_fp2`: the hash in terms of the abstract value; `C77_well_defined`; `C77_collides`: `1` and `1 + 2i` collide; `C77_hash`: the implementations of `Eq` and `Hash` agree |
| C78 | festa.rs new, supersingular.rs torsion_basis | `C78_setup`: the constructor returns an object and both pairs of points are bases. `C78_candidate`: what the loop of torsion_basis does with a candidate, on any curve. For the starting curve the first number tried is no abscissa, the second one gives the first point, the third one is rejected or gives a basis, the fourth one gives a basis (`C78_torsion`). The facts on these points are evaluated in the kernel with the arithmetic of `Lemmas/FastField.lean` and `Lemmas/FastLadder.lean` (pairs of numbers, x-only formulas), which is proved to compute in the field of the code; the independence of two points at a prime l of D1 is checked by comparing with all multiples |
| C79 | fields.rs P0x.. | `C79_stored_fails` and `C79_numbers` evaluate the equation of the curve for the constants, in Montgomery form and as plain numbers. `C79_no_basis`: by the order of the Weil pairing of a basis (`C79_base_field`) |
| C80 | Display of all types | `Model/Display.lean`, texts as lists of characters, `to_string` of big integers as Lean's `Nat.toDigits 10`. `C80_fp`, `C80_fp2`: the text in terms of the residues; then injectivity by reading the text from the left (`Readable`) |
| C81 | overflow checks in the field code | `Model/FpChecked.lean`: the routines again with every plain (not wrapping) data-dependent operation checked, a failure is `none`. `C81_div`, `C81_legendre`, …: the checked routine returns `some` of the unchecked one; by the invariant that the second gcd operand is never zero (odd operand), resp. that it stays the modulus when the first operand is zero |
| C82 | every function with a build flag | monotonicity of each function in the flag and in the bound of the searches, by induction on the loops and composition of the callers (`Refines`) |
| C83 | theta.rs product_isogeny, Kani's criterion | `Diamond.pen` (`Lemmas/KaniPen.lean`): on the surface before the last step, the image of E0 under half of (m1 dA φ1, -m2 γ φA) is a curve; the last theta coordinate vanishes at more of its points (2-torsion of E0, moved by the signs that are followed along the chain, `penNet`) than its degree allows, `SurfNet.kill` (`Lemmas/ThetaKill.lean`), so it vanishes on the curve and at the null point. The last step turns this into exactly one vanishing even constant at the end, always of index (3,0) (`one_of_dual`). The denominators: `jac_prod` (`Lemmas/KaniJac.lean`). `C72_kani`, C54, C73, C75 and C76 use it, so that they assume `JacChain` (`Spec/JacChain.lean`) and not `ProdChain`. Concrete case: the chain of length 23 of the small version of the scheme |
| C84 | trapdoor_inverse, product_isogeny | `chain_pos` (`Lemmas/ChainPos.lean`): the kernel points keep their position in the theta structure along the chain, up to the last step. `factor_pos` (`Lemmas/KaniFactor.lean`) reads off what this means after splitting with the matrix of index (3, 0) (C83): the second generator has a vanishing coordinate on the left factor, and a point of order two on the second curve goes to the opposite of the null point on the right factor. Kani's map sends the second generator to zero (`PartIs.zero`), which is impossible on the left factor, so it is read on the right factor, which is the first curve returned. If the coefficient there were `-EA.A`, the point of order two would come from (0, 0) (`PartIs.opposite`) |
| C85 | entangled_torsion_basis, FESTACrypto::new | `FrobNeg.square` (`Lemmas/ZeroPoint.lean`): write P = 2R over the algebraic closure; since Frobenius acts as -p, it sends R to R + (p+1)/2 P, and if (p+1)/2 P is (0, 0) then (x^2 - 1)/(2y) at R, a square root of the abscissa of P, is fixed by Frobenius, hence rational. The abscissas of both entangled points are non-squares (C42), so (0, 0) can only be the sum of the two points of order two |
| C86 | precompute/gen_fp.sage | `Model/Precompute.lean` follows the script; `GenFp.compile` is what the Rust compiler makes of the printed text (arrays of the wrong length and literals over 64 bits are errors). `C86_generated` derives `Valid`, `DivValid` and `RootValid` for the printed constants, `C86_compiles` says exactly when the text compiles, `C86_festa` and `C86_254` apply this to the moduli of the script. Found: leading zero words are not printed (`C86_short_fails`); the exponent of the fourth root is wrong for p = 3 mod 8 (`C86_fourth_root_fails`); `sum_of_products` is wrong without spare bits, as for the second modulus in the script (`C86_full_words_fails`), and also for primes with one spare bit (`C86_spare_bit_fails`); room for 3p in the words is enough. The text layout and the random choice of NQR are not modelled |
| C87 | precompute/temp.py | `Array2Num`, `Num2Array` by induction for all word sizes; the arrays of fields.rs are compared with the numbers of the script by computation. The points printed by the script are plain numbers, which explains C79 |
| C88 | `trapdoor_eval`, `trapdoor_inverse` | An attack made of the operations of the code (`Spec/Malleable.lean`): scaled points, changed signs. Both keep the relations of C54 between input and value, up to the signs of the isogenies, so C73 applies; that the changed value has no preimage follows as in C76. Case with all hypotheses proved: `Props/MalleableCase.lean` |
| C89 | `TrapdoorOutput::decode`, `SecretKey::decode` | Both directions for each build mode from the laws of the codec (C23) and `Curve::new`; examples on the field of the code: a point off the curve, strings of bytes `0xFF` (`Props/Decode.lean`) |
| C90 | `add`, `double`, `mul_big` off the curve | Group of `y² = x³ + A x² + x + c` from Mathlib (`Spec/OffCurve.lean`); the proof of C25 uses the curve equation only for equal first coordinates, where the constant term cancels. `mul_big`: the invariant of the ladder (C27) does not mention the second coordinate (`Lemmas/OffLadder.lean`); `mul` commutes with maps of fields (`Lemmas/MulMap.lean`), which covers the first coordinates of the twist. The excluded scalars are those for which the end of `mul` calls `double`, and there the result is wrong (`C90_mul_exception`) |

## Findings

Behaviour of the code that contradicts a claim or deserves attention. Each item with a theorem name is proved.

1. `mul` with `nbitlen = 0` reads bit 0 of the scalar; with a point of order 2 and an odd byte it returns the point
   instead of infinity (`C27_mul_zero_bits_fails`).
2. `CurveIsomorphism` maps infinity to `(v : 0 : 1)` and is wrong when the two coefficients agree up to sign,
   except for j-invariants with extra automorphisms (`C31_infinity_fails`, `C31_same_curve_fails`, `C31_exact`).
3. `sqrt_floor` overflows for n above 65535^2; with overflow checks it panics (`C36_sqrt_checked`).
4. `has_factored_order(0)` answers true. The order tests never check that the order annihilates the input
   (`C40_point_order_fails`, `C40_field_test`).
5. `torsion_basis` can return two dependent points, because of 4 (`C41_independent_fails`). On the curves of the scheme this
   needs one of at most `8 log2 D + 17` multiples (`C41_code_partial`, `C39_exceptions_few`).
6. `entangled_torsion_basis` uses a square root that fails when the right-hand side is a non-residue of the base
   field; the points are then off the curve (`C42_fails`). This does not happen on the start curve (`C42_start_points`).
7. `compute_canonical_kernel` silently returns a meaningless scalar for groups that are not of the form ⟨P+sQ⟩
   (`C43_other_groups_fail`).
8. `weil_pairing(P, P)` is `(-1)^n` (`C44_alternating_fails`).
9. `bidlp` panics for `R = Q` and odd order (`C39_axis_fails`), and in general when the chain of multiples of one point
   in the Miller loop meets the other one (`C39_bidlp_axis`). `keygen` and the inversion have no protection against it.
   For `s1 = 0` or `s2 = 0`, both in the range of the code, all points handed to `bidlp` are on an axis; at most
   `8 log2 D + 17` multiples are affected (`C39_exceptions_few`), and `C54_zero_fails` is a value that is not inverted.
   It also panics, in debug builds, on every point one of whose multiples met by the chain before the end is zero
   (`C39_debug_fails`; a point of half the order is one), and in release builds on some of them (`C39_release_fails`).
   On others release builds return wrong coordinates without notice (`C39_release_wrong`: `2P + 2Q` of order 3 in a basis of
   order 6 gives `(4, 1)`).
10. An exponent 0 in a factored degree makes `factored_kummer_isogeny` fail (`C46_zero_exponent_fails`).
11. The splitting matrix for index (0,0) is singular (`C49_zero_index_singular`). It is also used silently if no even
    constant vanishes (`C49_no_zero_is_silent`). `split_theta_point` returns zeros for points with a zero coordinate, and a failed lift in
    `split_to_product` yields a point with `Z = 0` without notice.
12. The encodings lose infinity: it has the same bytes as `(0, 0)` (`C52_infinity_collides`, `C51_infinity`). A secret
    scalar of more than 82 bytes underflows (`C51_long`). Decoding ignores trailing bytes, and non-canonical bytes in release
    builds (`C51_canonical`). Points are not checked to be on their curves in any build (`C89_no_validation`), and in
    release builds fields that are not canonical are read as 0 (`C89_release_invalid`). Off the curve `add`, `double` and
    `mul_big` work on different curves (`C90_add`, `C90_double_differs`, `C90_mul_x`), so nothing proved about the scheme
    applies to such values; a caller has to check `on_curve` before `trapdoor_inverse`.
13. Assertions in `KummerLineIsogeny::new` make chains self-checking in debug builds only (`C46_debug`, `C62_debug_stops`).
14. `keygen` passes `e(PA_d2, QA_d2)` as the pairing of another basis to `bidlp` (festa.rs:359-361); the result is scaled
    by a logarithm (`C39_bidlp_scaled`). Both points of the secret basis get the same factor, so this is harmless.
15. `split_theta_point` takes the first factor from the first two coordinates and the second from the second and last.
   When one component is a certain point of order four (`x = 1` or `x = -1`), these vanish and the other component
   is read as infinity (`C50_split_degenerate`).
16. `gluing_image` recovers one coordinate from the translate of the point by `P4`. For the pairs of points of order four
   with `2 R1 = 4 Q8`, `2 R2 = 4 P8 + 4 Q8` (or the other way round) both denominators vanish and the image is not on the
   Kummer surface (`C67_exceptional_fails`). These are the only exceptions (`C67_gluing`). The scheme evaluates at
   pairs whose second component has odd order, so it does not meet them.
17. The constants `P0x`, `P0y`, `Q0x`, `Q0y` of fields.rs are called a torsion basis. They are given to `Fp::new` as plain
   numbers, which takes them for Montgomery form; the resulting points are not on the curve (`C79_stored_fails`). They are unused.
