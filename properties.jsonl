{"id": "C01", "title": "Word primitives are exact", "statement": "The carry/borrow/multiply helpers return exactly the mathematical result split in words: add-with-carry gives x+y+c, subtract-with-borrow gives x-y-c mod 2^64 and the right borrow bit, the wide multiplications (plain, plus one addend, plus two addends) give the exact 128-bit value, the sums of two wide products are exact whenever they fit in 128 bits, the sign mask is all-ones exactly for negative words and the leading-zero count is right for 0 as well.", "quantifier": "all 64-bit words and carry bits", "why_tests_cant": "2^128 or more operand combinations; carry corner cases occur with probability 2^-64 on random inputs", "anchors": ["src/finitefield/utils64.rs:addcarry_u64", "src/finitefield/utils64.rs:subborrow_u64", "src/finitefield/utils64.rs:umull_add2", "src/finitefield/utils64.rs:umull_x2_add", "src/finitefield/utils64.rs:sgnw", "src/finitefield/utils64.rs:lzcnt"]}
{"id": "C02", "title": "The base-field modulus is prime and every precomputed constant is coherent", "statement": "The hard-coded modulus is a 1293-bit prime p with p = 7 mod 8, p+1 equals the advertised basis order 2^634*odd, and every other constant that the arithmetic uses (half modulus, Montgomery radix residues R,-R,2R,3R,4R,R^2, decode and division corrections, exponents of the square root and fourth root, top-word and its division magic number) has the value the algorithms need; the FESTA parameters satisfy their factorisations, pairwise coprimality, and m1^2*dA1*d1 + m2^2*dA2*d2 = 2^632.", "quantifier": "the one instantiated parameter set; primality itself ranges over all candidate divisors", "why_tests_cant": "primality of a 1293-bit number and the algebraic identities cannot be observed by sampling outputs; a wrong constant may only corrupt rare inputs", "anchors": ["src/fields.rs:MODULUS", "src/fields.rs:R2_VAL", "src/fields.rs:TFIXDIV_VAL", "src/fields.rs:SQRT_EH", "src/fields.rs:P1DIV_M", "src/fields.rs:BASIS_ORDER", "src/fields.rs:D1_FACTORED", "src/fields.rs:M1"]}
{"id": "C03", "title": "Base-field addition, subtraction and negation are exact and canonical", "statement": "For all field elements, a+b, a-b and -a return the field element for the mathematical result modulo p, always in the unique reduced representation.", "quantifier": "all pairs of field elements", "why_tests_cant": "p^2 operand pairs; the final conditional correction only fires on carry patterns random tests miss", "anchors": ["src/finitefield/fp_gen.rs:set_add", "src/finitefield/fp_gen.rs:set_sub", "src/finitefield/fp_gen.rs:set_neg"]}
{"id": "C04", "title": "Base-field multiplication and squaring are exact", "statement": "a*b and a.square() return the product in the field, for every pair of reduced operands, always reduced; squaring agrees with multiplication by itself.", "quantifier": "all pairs of field elements", "why_tests_cant": "the 42-word intermediate carries and the last reduction depend on rare word patterns", "anchors": ["src/finitefield/fp_gen.rs:set_mul", "src/finitefield/fp_gen.rs:set_square", "src/finitefield/fp_gen.rs:set_montyred"]}
{"id": "C05", "title": "Halving and small-constant multiples are exact", "statement": "half, mul2, mul3, mul4, mul8 return x/2, 2x, 3x, 4x, 8x in the field, reduced.", "quantifier": "all field elements", "why_tests_cant": "final-correction paths depend on the whole top word of the operand", "anchors": ["src/finitefield/fp_gen.rs:set_half", "src/finitefield/fp_gen.rs:set_mul2", "src/finitefield/fp_gen.rs:set_mul3", "src/finitefield/fp_gen.rs:set_mul4", "src/finitefield/fp_gen.rs:set_mul8"]}
{"id": "C06", "title": "Multiplication by a small integer is exact", "statement": "mul_small(x, k) returns x*k in the field for every field element and every signed 32-bit multiplier (i32::MIN included), although the quotient is only estimated from the top words.", "quantifier": "all field elements and all i32 multipliers", "why_tests_cant": "quotient estimation errors happen only for operands within 2^-32 of a multiple of p", "anchors": ["src/finitefield/fp_gen.rs:set_mul_small"]}
{"id": "C07", "title": "Comparison predicates are exact masks", "statement": "iszero and equals return all-ones exactly when the element is zero / the two elements are the same field element and 0 otherwise, never any other value.", "quantifier": "all field elements and pairs", "why_tests_cant": "false positives would need a specific value among p", "anchors": ["src/finitefield/fp_gen.rs:iszero", "src/finitefield/fp_gen.rs:equals", "src/finitefield/fp2_gen.rs:iszero", "src/finitefield/fp2_gen.rs:equals"]}
{"id": "C08", "title": "Constant-time selection implements if-then-else", "statement": "select, set_select, set_cond, set_condneg and condswap act as a plain conditional for masks 0 and all-ones: the chosen operand is returned unchanged, conditional negation negates in the field, a swap exchanges both, and nothing else changes.", "quantifier": "all operands, both legal mask values", "why_tests_cant": "bitwise blends must be right on every bit of every word", "anchors": ["src/finitefield/fp_gen.rs:select", "src/finitefield/fp_gen.rs:set_cond", "src/finitefield/fp_gen.rs:set_condneg", "src/finitefield/fp_gen.rs:condswap", "src/finitefield/fp2_gen.rs:set_select", "src/finitefield/fp2_gen.rs:condswap"]}
{"id": "C09", "title": "Integer conversions land on the right residue", "statement": "from_i32, from_i64, from_u32, from_u64 yield the field element congruent to the given integer, including negative and extreme values such as i64::MIN.", "quantifier": "all 32- and 64-bit integers", "why_tests_cant": "2^64 inputs", "anchors": ["src/finitefield/fp_gen.rs:from_i32", "src/finitefield/fp_gen.rs:from_i64", "src/finitefield/fp_gen.rs:from_u32", "src/finitefield/fp_gen.rs:from_u64"]}
{"id": "C10", "title": "Fused dot products are exact", "statement": "sum_of_products and difference_of_products return a1*b1+a2*b2 and a1*b1-a2*b2 in the field, reduced.", "quantifier": "all quadruples of field elements", "why_tests_cant": "interleaved reduction has one extra carry that appears only for extreme operands", "anchors": ["src/finitefield/fp_gen.rs:sum_of_products", "src/finitefield/fp_gen.rs:difference_of_products"]}
{"id": "C11", "title": "Canonical byte encoding of base-field elements", "statement": "encode yields the 162-byte little-endian canonical integer; decode accepts exactly the 162-byte strings whose value is below p, returns the unique element with that encoding and an all-ones status; on any other length or value it returns zero with status 0. Hence encode and decode are mutually inverse and encoding is injective.", "quantifier": "all field elements and all byte strings of any length", "why_tests_cant": "acceptance boundary is one value among 2^1296; all lengths must be handled", "anchors": ["src/finitefield/fp_gen.rs:encode", "src/finitefield/fp_gen.rs:decode", "src/finitefield/fp_gen.rs:set_decode_nocheck"]}
{"id": "C12", "title": "Reducing decode interprets any byte string as an integer mod p", "statement": "decode_reduce of a byte string of any length returns the field element equal to its little-endian value mod p.", "quantifier": "all byte strings of any length, including empty and multi-block", "why_tests_cant": "unbounded lengths; chunk boundaries interact with the reduction constant", "anchors": ["src/finitefield/fp_gen.rs:set_decode_reduce"]}
{"id": "C13", "title": "Exponentiation computes powers", "statement": "pow_big returns x^e for every base and every exponent (0^0 = 1); pow and pow_ext return the power whose exponent is read from the requested bit range of the byte string, whatever the other bits are, and panic exactly when the range exceeds the string.", "quantifier": "all bases, all exponent byte strings, offsets and bit lengths", "why_tests_cant": "unbounded exponents", "anchors": ["src/finitefield/fp_gen.rs:set_pow_ext", "src/finitefield/fp_gen.rs:pow_big", "src/finitefield/fp2_gen.rs:set_pow_ext", "src/finitefield/fp2_gen.rs:pow_big", "src/finitefield/fp2_gen.rs:set_pow_u64", "src/finitefield/fp2_gen.rs:set_pow_u64_vartime"]}
{"id": "C14", "title": "Base-field division inverts multiplication", "statement": "x.div(y) returns the field element z with z*y = x when y is nonzero, and 0 when y is zero; invert is the same with x = 1.", "quantifier": "all pairs of field elements", "why_tests_cant": "the binary-GCD uses approximations of the top words over a fixed number of rounds: a counterexample would be an extremely rare operand", "anchors": ["src/finitefield/fp_gen.rs:set_div", "src/finitefield/fp_gen.rs:set_invert", "src/finitefield/fp_gen.rs:set_lindiv31abs", "src/finitefield/fp_gen.rs:set_montylin"]}
{"id": "C15", "title": "Legendre symbol is the quadratic character", "statement": "legendre returns 0 for zero, 1 for nonzero squares and -1 for non-squares, in Fp and in Fp2.", "quantifier": "all field elements", "why_tests_cant": "fixed iteration count and approximated comparisons; sign bookkeeping across rounds", "anchors": ["src/finitefield/fp_gen.rs:legendre", "src/finitefield/fp2_gen.rs:legendre"]}
{"id": "C16", "title": "Base-field square root contract", "statement": "set_sqrt returns an all-ones status exactly for squares; then the result squares to the input and is the root with even integer value; otherwise the result is 0 and the status 0.", "quantifier": "all field elements", "why_tests_cant": "p inputs; sign normalisation and failure clean-up must hold for each", "anchors": ["src/finitefield/fp_gen.rs:set_sqrt"]}
{"id": "C17", "title": "Base-field fourth root contract", "statement": "set_fourth_root returns an all-ones status exactly for fourth powers (equivalently squares, as p = 3 mod 4); then the fourth power of the result is the input and the result is the even root; otherwise 0 with status 0.", "quantifier": "all field elements", "why_tests_cant": "as for square roots", "anchors": ["src/finitefield/fp_gen.rs:set_fourth_root"]}
{"id": "C18", "title": "Extension-field arithmetic is the field Fp[i]", "statement": "Fp2 add, sub, neg, conj, mul, square, half, small multiples and mul_small return the right element of Fp[i]/(i^2+1), with all field laws; the two multiplication routines agree.", "quantifier": "all pairs of extension-field elements", "why_tests_cant": "p^4 pairs", "anchors": ["src/finitefield/fp2_gen.rs:set_mul", "src/finitefield/fp2_gen.rs:set_mul_old", "src/finitefield/fp2_gen.rs:set_square", "src/finitefield/fp2_gen.rs:set_conj"]}
{"id": "C19", "title": "Extension-field inversion and division", "statement": "invert/div return the field inverse/quotient for nonzero divisors and 0 for a zero divisor.", "quantifier": "all pairs", "why_tests_cant": "p^4 pairs", "anchors": ["src/finitefield/fp2_gen.rs:set_div", "src/finitefield/fp2_gen.rs:set_invert"]}
{"id": "C20", "title": "Batch inversion inverts every nonzero entry and keeps zeros", "statement": "batch_invert on a slice of any length replaces each nonzero entry by its inverse and leaves each zero entry zero, independently of positions and of the internal batch boundaries.", "quantifier": "all slices of any length and content", "why_tests_cant": "unbounded length and arbitrary positions of zeros; batches of 200 entries", "anchors": ["src/finitefield/fp2_gen.rs:batch_invert"]}
{"id": "C21", "title": "Extension-field square root contract", "statement": "Fp2 set_sqrt returns all-ones exactly for squares; then the result squares to the input with the documented sign convention; else 0 and status 0 -- including inputs with zero real or zero imaginary part.", "quantifier": "all extension-field elements", "why_tests_cant": "edge cases are measure-zero sets (real elements, purely imaginary elements, zero)", "anchors": ["src/finitefield/fp2_gen.rs:set_sqrt"]}
{"id": "C22", "title": "Extension-field fourth root contract", "statement": "Fp2 set_fourth_root returns all-ones exactly for fourth powers; then the fourth power of the result is the input; else 0 and status 0.", "quantifier": "all extension-field elements", "why_tests_cant": "edge cases are measure-zero", "anchors": ["src/finitefield/fp2_gen.rs:set_fourth_root"]}
{"id": "C23", "title": "Canonical byte encoding of extension-field elements", "statement": "encode is the concatenation of both component encodings (324 bytes); decode accepts exactly those strings and inverts encode, otherwise returns zero and status 0.", "quantifier": "all elements and all byte strings", "why_tests_cant": "all lengths; both halves must be checked", "anchors": ["src/finitefield/fp2_gen.rs:encode", "src/finitefield/fp2_gen.rs:decode"]}
{"id": "C24", "title": "Projective equality is equality of group elements", "statement": "Point equals returns all-ones exactly when the two coordinate triples represent the same point of the curve, for any scaling, treating infinity as equal to itself only.", "quantifier": "all pairs of valid projective points on any curve", "why_tests_cant": "all scalings", "anchors": ["src/eccore.rs:Point::equals", "src/eccore.rs:isinfinity"]}
{"id": "C25", "title": "Point addition is complete", "statement": "add (and sub) return the group-law sum (difference) for every pair of points on every curve, including equal, opposite, infinity and 2-torsion operands; results stay on the curve.", "quantifier": "all curves with A^2 != 4 and all pairs of points in any projective representation", "why_tests_cant": "exceptional pairs have negligible probability in random tests", "anchors": ["src/eccore.rs:add_into", "src/eccore.rs:sub", "src/eccore.rs:set_neg"]}
{"id": "C26", "title": "Doubling is complete", "statement": "double and double_iter return [2]P and [2^n]P for every point and every n, including infinity and 2-torsion points.", "quantifier": "all curves, points, iteration counts", "why_tests_cant": "exceptional points are rare; unbounded n", "anchors": ["src/eccore.rs:double_from_coords", "src/eccore.rs:double_iter"]}
{"id": "C27", "title": "Scalar multiplication computes n-fold sums", "statement": "mul, mul_big and mul_small return [n]P for every point (infinity, 2-torsion and arbitrary scalings included) and every scalar, where only the low nbitlen bits of the scalar are used.", "quantifier": "all curves, points, scalar byte strings, bit lengths", "why_tests_cant": "ladder with y-recovery has exceptional cases (P of order 2, [n]P = infinity, [n+1]P = infinity) that random tests never reach", "anchors": ["src/eccore.rs:mul_into", "src/eccore.rs:mul_big", "src/eccore.rs:mul_small_into"]}
{"id": "C28", "title": "Curve membership checks accept exactly curve points", "statement": "on_curve, point construction from (x,y) and from (X,Y,Z) succeed exactly for coordinates satisfying the curve equation (or infinity), and a failed construction yields the point at infinity and status 0.", "quantifier": "all coordinate tuples on all curves", "why_tests_cant": "acceptance sets are measure zero in random tests", "anchors": ["src/eccore.rs:set_xy", "src/eccore.rs:set_xyz", "src/eccore.rs:on_curve", "src/eccore.rs:point_xy_vartime", "src/eccore.rs:point_xyz_vartime"]}
{"id": "C29", "title": "Lifting an x-only point", "statement": "complete_pointX returns a point on the curve with the given x-coordinate and all-ones status exactly when one exists over the field (infinity included).", "quantifier": "all curves and all x-only points in any scaling", "why_tests_cant": "square/non-square split and exceptional x = 0, infinity", "anchors": ["src/eccore.rs:complete_pointX_into"]}
{"id": "C30", "title": "X-only doubling agrees with the group law", "statement": "the x-only doubling maps the x-coordinate of P to the x-coordinate of [2]P for every point.", "quantifier": "all curves and points", "why_tests_cant": "2-torsion and infinity are rare", "anchors": ["src/eccore.rs:x_dbl_coords"]}
{"id": "C31", "title": "Isomorphism between Montgomery curves", "statement": "Given two curves with equal j-invariant the constructed isomorphism maps every point of the first to a point of the second, compatibly with the group law and sending infinity to infinity.", "quantifier": "all pairs of isomorphic Montgomery curves, all points", "why_tests_cant": "special coefficient relations (A1 = -A2, A = 0, j = 1728) are never sampled", "anchors": ["src/eccore.rs:CurveIsomorphism"]}
{"id": "C32", "title": "j-invariant is an isomorphism invariant", "statement": "j_invariant returns the j-invariant of the curve, equal for curves related by a Weierstrass change of variables.", "quantifier": "all curves", "why_tests_cant": "all parameters", "anchors": ["src/eccore.rs:j_invariant"]}
{"id": "C33", "title": "Deterministic point search", "statement": "the curve point iterator only yields points that are on the curve, visiting x = 1+i, 2+i, ... in order.", "quantifier": "all curves, all iteration counts", "why_tests_cant": "each curve gives another pattern of squares", "anchors": ["src/eccore.rs:CurveIter"]}
{"id": "C34", "title": "Extended gcd / modular inverse", "statement": "xgcd_big(a,b) returns r with 0 <= r < b and a*r = gcd(a,b) mod b for every b > 0; it panics for b = 0.", "quantifier": "all pairs of unbounded integers", "why_tests_cant": "unbounded integers", "anchors": ["src/discrete_log.rs:xgcd_big"]}
{"id": "C35", "title": "Chinese remaindering", "statement": "compute_crt returns the unique residue modulo the product that matches each given residue modulo each prime power, for pairwise distinct primes.", "quantifier": "all lists of distinct prime powers of any length and all residues", "why_tests_cant": "unbounded lists", "anchors": ["src/discrete_log.rs:compute_crt"]}
{"id": "C36", "title": "Integer square root", "statement": "sqrt_floor(n) returns the largest s with s*s <= n for every 32-bit n.", "quantifier": "all 32-bit integers", "why_tests_cant": "boundary squares and overflow at the top of the range", "anchors": ["src/discrete_log.rs:sqrt_floor"]}
{"id": "C37", "title": "Baby-step giant-step finds the logarithm", "statement": "bsgs(h,g,n) returns k < n with g^k = h whenever g has order dividing n and h is a power of g; otherwise it reports failure.", "quantifier": "all cyclic groups of order representable, all elements", "why_tests_cant": "every exponent position relative to the baby-step table", "anchors": ["src/discrete_log.rs:bsgs"]}
{"id": "C38", "title": "Pohlig-Hellman recovers discrete logarithms", "statement": "ph_dlp_power and ph_dlp return the exponent k modulo the order for every h in the subgroup generated by an element of the given factored order.", "quantifier": "all factored orders, all exponents", "why_tests_cant": "unbounded factorizations and exponents", "anchors": ["src/discrete_log.rs:ph_dlp_power", "src/discrete_log.rs:ph_dlp"]}
{"id": "C39", "title": "Two-dimensional discrete logarithm", "statement": "bidlp(R,P,Q) returns (a,b) with R = [a]P+[b]Q whenever P,Q generate the torsion containing R and the pairing is a non-degenerate alternating bilinear map.", "quantifier": "all bases and all points in their span", "why_tests_cant": "all scalars", "anchors": ["src/discrete_log.rs:bidlp"]}
{"id": "C40", "title": "Order tests decide exact order", "statement": "has_factored_order / point_has_factored_order return true exactly for elements whose order is the given factored integer.", "quantifier": "all elements, all factored orders", "why_tests_cant": "requires reasoning about all divisors of the order", "anchors": ["src/supersingular.rs:point_has_factored_order", "src/supersingular.rs:has_factored_order"]}
{"id": "C41", "title": "Torsion-basis generation returns independent points of full order", "statement": "torsion_basis (and the point generators below it) only return points whose order tests succeeded, with the second independent of the first.", "quantifier": "all curves and all sequences of candidate points", "why_tests_cant": "depends on an unbounded search over candidates", "anchors": ["src/supersingular.rs:torsion_basis", "src/supersingular.rs:clear_cofactor", "src/supersingular.rs:generate_point_order_factored_D"]}
{"id": "C42", "title": "Entangled 2^k-torsion basis", "statement": "entangled_torsion_basis returns two points on the curve whose x-coordinates are u^2-related as in the entangled construction, for every curve.", "quantifier": "all curves", "why_tests_cant": "the hand-written square root has measure-zero exceptional inputs", "anchors": ["src/supersingular.rs:entangled_torsion_basis"]}
{"id": "C43", "title": "Canonical kernel representation", "statement": "compute_canonical_kernel returns the scalar of the canonical generator of the subgroup generated by the input point; canonical generators generate the same subgroup.", "quantifier": "all points of full order in the torsion", "why_tests_cant": "all subgroups", "anchors": ["src/supersingular.rs:compute_canonical_kernel"]}
{"id": "C44", "title": "Weil pairing is antisymmetric and alternating up to sign", "statement": "weil_pairing(P,Q)*weil_pairing(Q,P)=1 for every pair of points and order, and a vanishing Miller value is replaced by one, so that the pairing value is never zero and never divides by zero.", "quantifier": "all curves, points, orders", "why_tests_cant": "degenerate Miller values occur only for dependent points", "anchors": ["src/pairing.rs:tate_pairing", "src/pairing.rs:weil_pairing", "src/pairing.rs:eval_line"]}
{"id": "C45", "title": "Odd-degree x-only isogeny step", "statement": "A Kummer-line isogeny built from a point of odd order l maps every multiple of the kernel generator to infinity, maps x and the codomain coefficient consistently with the projective scaling of the inputs.", "quantifier": "all curves, kernel points, evaluated points, odd degrees", "why_tests_cant": "all degrees and projective scalings", "anchors": ["src/isogeny.rs:KummerLineIsogeny", "src/isogeny.rs:evaluate_isogeny", "src/isogeny.rs:compute_codomain_constants"]}
{"id": "C46", "title": "Factored isogeny chains perform exactly the right steps", "statement": "For every factored degree the recursive strategy performs exactly e steps of degree l for each (l,e), each with a kernel generator of exact order l on the current curve, and the composed kernel is the subgroup generated by the input.", "quantifier": "all factored degrees, all kernel points of that order, all isogeny semantics", "why_tests_cant": "unbounded chain length; recursion splits at rounded indices", "anchors": ["src/isogeny.rs:factored_kummer_isogeny", "src/isogeny.rs:evaluate_isogeny_chain", "src/isogeny.rs:evaluate_isogeny_chain_for_basis"]}
{"id": "C47", "title": "Strategy-driven (2,2)-chain equals the naive chain", "statement": "With any well-formed strategy product_isogeny consumes the strategy without running out of bounds, and at step k uses precisely the kernel points doubled n-1-k times, so that it returns the same product and image points as the version without strategy; the shipped strategy is well-formed for n = 632.", "quantifier": "all n, all valid strategies, all image lists; for the equality all kernels given by bases whose chain is regular (no vanishing theta constant before the last two steps)", "why_tests_cant": "unbounded chain length and strategies; index bookkeeping", "anchors": ["src/theta.rs:product_isogeny", "src/theta.rs:product_isogeny_no_strategy", "src/fields.rs:THETA_STRATEGY"]}
{"id": "C48", "title": "Theta arithmetic", "statement": "Hadamard is an involution up to the factor 4, doubling is projectively well defined and fixes the null point, and the (2,2)-isogeny maps the domain null point to the codomain null point.", "quantifier": "all theta structures and points with nonzero (dual) null coordinates", "why_tests_cant": "all projective scalings", "anchors": ["src/theta.rs:to_hadamard", "src/theta.rs:set_double_self", "src/theta.rs:two_isogeny"]}
{"id": "C49", "title": "Splitting transform reaches a product structure", "statement": "For every theta null point on which exactly one even level-(2,2) constant vanishes, the selected symplectic transform is invertible and maps it to a null point (a:b:c:d) with ad = bc, from which two curves can be read off.", "quantifier": "all theta null points with one vanishing even constant, ten positions", "why_tests_cant": "each position is reached for special abelian surfaces only", "anchors": ["src/theta.rs:compute_splitting_matrix", "src/theta.rs:identify_even_index", "src/theta.rs:compute_splitting_matrix"]}
{"id": "C50", "title": "Reading Montgomery curves from theta null points", "statement": "null_point_to_montgomery_curve and theta_point_to_montgomery_point give a curve and x-coordinates that depend only on the projective class, send the null point to infinity and commute with doubling; split_to_product returns, for products of theta points, the two curves and for each point the components with these x-coordinates.", "quantifier": "all dimension-one null points and points", "why_tests_cant": "all scalings", "anchors": ["src/theta.rs:null_point_to_montgomery_curve", "src/theta.rs:theta_point_to_montgomery_point", "src/theta.rs:split_to_product"]}
{"id": "C51", "title": "Secret key serialisation round-trips", "statement": "decoding an encoded secret key yields an equal key, for every key the key generator can produce.", "quantifier": "all secret keys", "why_tests_cant": "points at infinity, long integers and canonical encodings", "anchors": ["src/festa.rs:SecretKey::encode", "src/festa.rs:SecretKey::decode"]}
{"id": "C52", "title": "Trapdoor output serialisation round-trips", "statement": "decoding an encoded trapdoor output yields equal curves and points; different outputs have different encodings.", "quantifier": "all trapdoor outputs", "why_tests_cant": "all points", "anchors": ["src/festa.rs:TrapdoorOutput::encode", "src/festa.rs:TrapdoorOutput::decode"]}
{"id": "C53", "title": "Diagonal recovery is sign independent", "statement": "recover_diagB returns the same normalised pair (b11,b22), b11*b22 = 1 mod 2^634, b11 <= 2^633 for a scalar and for its negative.", "quantifier": "all odd scalars modulo 2^634", "why_tests_cant": "2^633 scalars", "anchors": ["src/festa.rs:recover_diagB"]}
{"id": "C54", "title": "Trapdoor inversion recovers the input", "statement": "For every key and every valid input, inverting the evaluated trapdoor returns the input scalars and matrix, given that isogeny and pairing computations satisfy their specifications.", "quantifier": "all keys, all inputs", "why_tests_cant": "composition of all components over an exponential input space", "anchors": ["src/festa.rs:trapdoor_eval", "src/festa.rs:trapdoor_inverse", "src/festa.rs:recover_si_and_B"]}
{"id": "C55", "title": "Trapdoor input equality identifies equivalent inputs", "statement": "Equality of trapdoor inputs holds exactly when both scalars agree and the diagonal matrices agree (as documented), and is an equivalence relation.", "quantifier": "all inputs", "why_tests_cant": "all triples", "anchors": ["src/festa.rs:TrapdoorInput::eq"]}
{"id": "C56", "title": "Extension-field powers", "statement": "pow_ext returns the power by the selected exponent bits and panics exactly when they run past the exponent slice; pow_small, pow_big and pow_u64_vartime return x^e for every e, pow_u64 uses the low ebitlen bits; all agree.", "quantifier": "all elements, exponents, offsets and bit lengths", "why_tests_cant": "unbounded exponents", "anchors": ["src/finitefield/fp2_gen.rs:pow_ext", "src/finitefield/fp2_gen.rs:pow_small", "src/finitefield/fp2_gen.rs:pow_big", "src/finitefield/fp2_gen.rs:pow_u64", "src/finitefield/fp2_gen.rs:pow_u64_vartime"]}
{"id": "C57", "title": "Non-squares are non-squares", "statement": "The constant NQR is not a square in Fp2 and rand_nonsquare returns a non-square whatever the random generator delivers.", "quantifier": "all random streams", "why_tests_cant": "a wrong constant or a zero draw shows only for some streams", "anchors": ["src/finitefield/fp2_gen.rs:NQR", "src/finitefield/fp2_gen.rs:rand_nonsquare"]}
{"id": "C58", "title": "Random points are curve points", "statement": "rand_point returns a point of the curve whatever the random generator delivers; its abscissa is the first drawn field element that is the abscissa of a point, and the drawn bit selects the sign of the ordinate.", "quantifier": "all curves, all random streams", "why_tests_cant": "quantifies over all random streams; a missed square check or sign slip shows only for some draws", "anchors": ["src/eccore.rs:set_rand_point", "src/eccore.rs:rand_point"]}
{"id": "C59", "title": "Product of two curves", "statement": "add, double and double_iter of EllipticProduct are the operations of the product group, component by component, for every pair of curves and every iteration count.", "quantifier": "all pairs of curves, couples of points, iteration counts", "why_tests_cant": "infinite input space including infinity in one component only", "anchors": ["src/eccore.rs:EllipticProduct::add", "src/eccore.rs:EllipticProduct::double", "src/eccore.rs:EllipticProduct::double_iter"]}
{"id": "C60", "title": "Curve construction rejects exactly the singular curves", "statement": "Curve::new fails exactly for A = 2 and A = -2; otherwise the curve is elliptic with the given coefficient and its auxiliary constant is (A+2)/4.", "quantifier": "all field elements A", "why_tests_cant": "all field elements must be covered", "anchors": ["src/eccore.rs:Curve::new"]}
{"id": "C61", "title": "Isogeny from a scalar and a torsion basis", "statement": "isogeny_from_scalar_x_only, given a basis (P, Q) of order D, returns a chain of isogenies whose kernel is exactly the group generated by P + [m]Q, and the curve on which it ends.", "quantifier": "all curves, bases, factored odd orders D, scalars m (any size)", "why_tests_cant": "unbounded scalars and orders; kernels are not visible in the output", "anchors": ["src/supersingular.rs:isogeny_from_scalar_x_only"]}
{"id": "C62", "title": "Random isogenies consist of correct steps", "statement": "With debug assertions, whatever random values are drawn, a result of random_isogeny_x_only is a chain of `steps` blocks of correct isogenies with the degrees of the factored order, ending on the returned curve; otherwise the call stops.", "quantifier": "all curves, all random draws, all numbers of steps, all factored odd degrees", "why_tests_cant": "all random draws and any number of steps", "anchors": ["src/supersingular.rs:random_isogeny_x_only"]}
{"id": "C63", "title": "Generated trapdoor inputs are valid", "statement": "gen_random_trapdoor_input only produces inputs with s1 < d1, s2 < d2, b11 odd and below l/2, b22 < l and b11*b22 = 1 modulo l, whatever is drawn, and it never panics; every such input can be drawn.", "quantifier": "all random draws", "why_tests_cant": "2^633 values of b11", "anchors": ["src/main.rs:gen_random_trapdoor_input"]}
{"id": "C64", "title": "An isogeny chain carries a basis to a basis", "statement": "evaluate_isogeny_chain_for_basis, applied to two points that form a basis of order n (n at least three and coprime to the degrees of the steps, the degrees odd), returns the images of both points under one and the same isogeny up to one common sign; the images are a basis of order n again and their Weil pairing is the Weil pairing of the two points raised to the degree of the chain.", "quantifier": "all fields, curves, kernels, lists of degrees and bases", "why_tests_cant": "a wrong relative sign of the two images still gives points of the right order on the right curve", "anchors": ["src/isogeny.rs:evaluate_isogeny_chain_for_basis"]}
{"id": "C65", "title": "The Weil pairing of a basis has full order", "statement": "weil_pairing of two points forming a basis of order n returns a root of unity of exact order n; for two points of order n, neither a multiple of the other, the order of the pairing is n if and only if they form a basis.", "quantifier": "all fields, curves, orders n >= 2 and points", "why_tests_cant": "nondegeneracy is a statement about all pairs of points; orders have 1300 bits", "anchors": ["src/pairing.rs:weil_pairing"]}
{"id": "C66", "title": "A basis generates the torsion", "statement": "The points killed by n are exactly the combinations aP + bQ with a, b < n of any two points P, Q that form a basis of order n. Consequently bidlp finds coordinates of every point killed by the order, however the point arose, provided it is no multiple of P or Q and does not meet infinity inside the Miller loop.", "quantifier": "all fields, curves, orders, bases and points", "why_tests_cant": "that there are no further torsion points is a statement about all points of the curve", "anchors": ["src/pairing.rs:bidlp", "src/festa.rs:keygen"]}
{"id": "C67", "title": "The gluing isogeny is a map of groups up to sign", "statement": "gluing_isogeny, given points P8, Q8 whose components are bases of the 8-torsion of the two curves, maps every pair of points to the Kummer surface of the theta structure it returns; the image depends on the pair only up to sign and up to the kernel generated by 4 P8 and 4 Q8, doubling on the Kummer surface is doubling of the pair, and the combinations of 4 P8 and 4 Q8, and no other pairs, go to the null point. The pairs of order four with 2 R1 = 4 Q8 and 2 R2 = 4 P8 + 4 Q8 on the factors, or the other way round, are excepted: there the code returns a point off the surface.", "quantifier": "all fields of odd characteristic, all pairs of curves, all bases of the 8-torsion with usable null point, all points including infinity and torsion", "why_tests_cant": "identities on the function field of a product of two curves; the exceptional pairs are a handful among all points", "anchors": ["src/theta.rs:gluing_isogeny", "src/theta.rs:gluing_codomain", "src/theta.rs:gluing_image", "src/theta.rs:get_base_matrix"]}
{"id": "C68", "title": "product_isogeny is a map of groups up to sign", "statement": "product_isogeny, given kernel points P, Q whose components are bases of order 2^(n+2) on the two curves and whose chain of (2,2)-isogenies passes through Jacobians to a product, returns two curves and one map F on pairs of points, the same for every strategy and every list of points. F sends every combination aX + bY of two pairs of points to the combination of their images with the same coefficients, up to one sign in each factor of each image; it sends the combinations of 4P and 4Q, and no other combinations of X and Y, to infinity in both factors, and adding such a combination to a pair changes its image at most by signs. Excepted are the pairs gluing has no image for, and images next to which the other factor's image has order four.", "quantifier": "all fields of odd characteristic, all pairs of curves, all lengths n >= 3, all kernels with a regular chain, all strategies, all pairs of points and all integer coefficients", "why_tests_cant": "relations between the images of all combinations of points through a chain of any length; the images are returned with arbitrary signs", "anchors": ["src/theta.rs:product_isogeny", "src/theta.rs:gluing_isogeny", "src/theta.rs:two_isogeny", "src/theta.rs:two_isogeny_to_product", "src/theta.rs:splitting_isomorphism", "src/theta.rs:split_to_product"]}
{"id": "C69", "title": "The curves of the scheme are supersingular with full 2^634-torsion", "statement": "Every curve reached from the starting curve A = 6 by isogenies of odd degree has all its points over the code's field killed by BASIS_ORDER = p+1, and has a basis of its 2^634-torsion over that field. Hence generate_point_order_factored_D and torsion_basis return points of the wanted order on all curves of the scheme, entangled_torsion_basis returns a basis of the 2^634-torsion whenever its search does not stop at an exceptional value, and on the starting curve always; in particular Pb, Qb of every object made by FESTACrypto::new are a basis of order l.", "quantifier": "all curves reached by any chain of isogenies of odd degree, all points of these curves over the field with p^2 elements, all factored orders, all runs", "why_tests_cant": "a statement on all points of all reachable curves over a field of 2586 bits; the number of curves is exponential", "anchors": ["src/festa.rs:FESTACrypto::new", "src/supersingular.rs:entangled_torsion_basis", "src/supersingular.rs:torsion_basis", "src/supersingular.rs:generate_point_order_factored_D"]}
{"id": "C70", "title": "Dual isogenies and the kernel of the chain of (2,2)-isogenies", "statement": "Between curves reached from the starting curve every isogeny of odd degree d that the code computes has a dual over the code's field: a homomorphism back with both compositions equal to multiplication by d, with kernel the image of the d-torsion when d divides p+1, and adjoint to the isogeny for the Weil pairing of any order prime to d. In trapdoor_inverse the two pairs (R1, g2*R2/a11), (S1, g2*S2/a22) handed to product_isogeny generate, among all pairs (U,V) of points killed by l, exactly those with m1*phiA1(dual phi1 (U)) = m2*dual phiA2(dual phi2 (V)): the kernel of the first component of the isogeny of Kani's lemma.", "quantifier": "all curves reached by isogenies of odd degree, all isogenies computed by chains of steps, all key pairs, all inputs of the trapdoor function, all pairs of points killed by l", "why_tests_cant": "an equality of subgroups with 2^1268 elements and maps on all points of curves over a field of 2586 bits, for all keys and inputs", "anchors": ["src/festa.rs:FESTACrypto::trapdoor_inverse", "src/festa.rs:FESTACrypto::trapdoor_eval", "src/festa.rs:FESTACrypto::keygen", "src/isogeny.rs"]}
{"id": "C71", "title": "Group of points of the curves of the scheme", "statement": "Every curve reached from the starting curve A = 6 by isogenies of odd degree has exactly BASIS_ORDER^2 points over the code's field; they form a group generated by a basis of order BASIS_ORDER, and for every divisor n of BASIS_ORDER there is a basis of order n and there are exactly n^2 points killed by n. Hence bases of all orders used by the scheme exist on every curve of the scheme, and the test of generate_point_order_factored_D for an odd order rejects at most a quarter of the points of the curve.", "quantifier": "all curves reached by any chain of isogenies of odd degree, all divisors n of BASIS_ORDER, all factored odd orders, all points", "why_tests_cant": "counts about 2^2586 points of a curve, for exponentially many curves", "anchors": ["src/supersingular.rs:generate_point_order_factored_D", "src/supersingular.rs:torsion_basis", "src/festa.rs:FESTACrypto::new", "src/fields.rs"]}
{"id": "C72", "title": "Kani's lemma for product_isogeny", "statement": "Let phi1: E0 -> E1, phiA: E0 -> EA and gamma: EA -> E2 be isogenies of odd degrees d1, dA, e computed by the code, E0 the starting curve, and m1^2*dA*d1 + m2^2*e = 2^n with m1, m2 odd. Call product_isogeny on E1 x E2 with the kernel generators (phi1(P), g*gamma(phiA(P))), (phi1(Q), g*gamma(phiA(Q))), where P, Q is a basis of order 2^(n+2) and g = m1*d1/(m2*e) modulo 2^n. If the chain meets no product before its end, then for every strategy and every list of points it returns a product of two curves, one of them isomorphic to EA, and the isomorphism of the code takes the corresponding component of the image of (X1, X2) to m1*phiA(dual phi1(X1)) - m2*dual gamma(X2) up to sign.", "quantifier": "all isogenies, all degrees and multipliers satisfying the norm equation, all bases, all strategies, all lists of points (X1,X2) such that an odd multiple of X1 has 2-power order at least 8 and kills X2, EA with j-invariant different from 0 and 1728", "why_tests_cant": "quantifies over all curves, isogenies and points over a field with about 2^2586 elements; the dual isogenies are never computed by the code", "anchors": ["src/theta.rs:product_isogeny", "src/festa.rs:trapdoor_inverse", "src/eccore.rs:CurveIsomorphism"]}
{"id": "C73", "title": "Key generation, evaluation and inversion fit together", "statement": "A round of the benchmark in main.rs ends without panic: FESTACrypto::new, keygen, gen_random_trapdoor_input, trapdoor_eval and trapdoor_inverse succeed with all debug assertions, and the assertion that the result of trapdoor_inverse equals the input holds, for all random draws, unless one of the listed exceptional cases is met.", "quantifier": "all random numbers drawn by keygen and gen_random_trapdoor_input, all sequences of random points for the two random isogenies, all trapdoor inputs", "why_tests_cant": "the number of keys and inputs is exponential in the security parameter; a run of the benchmark checks ten of them", "anchors": ["src/main.rs:festa_trapdoor_bench", "src/main.rs:gen_random_trapdoor_input", "src/festa.rs:keygen", "src/festa.rs:trapdoor_eval", "src/festa.rs:trapdoor_inverse"]}
{"id": "C74", "title": "product_isogeny does not depend on the coordinates chosen", "statement": "Multiplying the projective coordinates of the points given to product_isogeny by nonzero factors changes neither whether it panics nor the pair of curves returned; the images change, up to the sign of the points, by a nonzero factor only.", "quantifier": "all products of curves, all points and factors, all lengths and strategies", "why_tests_cant": "the coordinates that reach product_isogeny are fixed by the code before it; the points read from bytes have Z = 1, those computed in place do not", "anchors": ["src/theta.rs:product_isogeny", "src/ecFESTA.rs:CouplePoint"]}
{"id": "C75", "title": "Inversion works on keys and values read from bytes", "statement": "The secret key and the value of the trapdoor function can be written to bytes, read back, and trapdoor_inverse on what is read back returns the input, unless one of the exceptional cases of C73 is met.", "quantifier": "all random numbers drawn by keygen, all sequences of random points for the two random isogenies, all trapdoor inputs", "why_tests_cant": "main.rs never serialises; the decoded points have other projective coordinates than the ones inversion is run on in the benchmark", "anchors": ["src/festa.rs:trapdoor_inverse", "src/festa.rs:SecretKey", "src/festa.rs:TrapdoorOutput"]}
{"id": "C76", "title": "The trapdoor function is injective on encoded values", "statement": "Two trapdoor inputs whose values under the same public key have the same encoding are equal, unless the value meets one of the exceptional cases of C73.", "quantifier": "all keys made by keygen, all pairs of trapdoor inputs", "why_tests_cant": "a collision cannot be searched for among exponentially many inputs", "anchors": ["src/festa.rs:trapdoor_eval", "src/festa.rs:TrapdoorOutput", "src/festa.rs:TrapdoorInput"]}
{"id": "C77", "title": "hashcode depends on the value only", "statement": "Fp::hashcode is the Montgomery form of the value modulo 2^64, Fp2::hashcode has the lowest bit of the Montgomery form of x1 as bit 0 and the 63 lowest bits of that of x0 above it; hence equal field elements have equal hashes however they were computed. Different elements can have equal hashes: 1 and 1 + 2i do.", "quantifier": "all field elements, all valid parameter sets", "why_tests_cant": "the field has more than 2^2500 elements", "anchors": ["src/finitefield/fp_gen.rs:hashcode", "src/finitefield/fp2_gen.rs:hashcode"]}
{"id": "C78", "title": "The setup of the scheme succeeds and makes bases", "statement": "FESTACrypto::new with the shipped constants does not panic; the points it makes are a basis of order 2^634 and a basis of order D1 of the starting curve. On any curve, the loop of torsion_basis accepts a candidate that completes a basis and rejects every other one that is no multiple of the first point except itself.", "quantifier": "both build modes; all curves, orders and candidates for the loop of torsion_basis", "why_tests_cant": "a run of the constructor shows that it ends, not that the points are independent; the pairing test in torsion_basis does not show it either (C41)", "anchors": ["src/festa.rs:new", "src/supersingular.rs:torsion_basis", "src/supersingular.rs:generate_point_order_factored_D"]}
{"id": "C79", "title": "The stored points P0, Q0 are no torsion basis", "statement": "The constants P0x, P0y, Q0x, Q0y, which fields.rs calls a torsion basis of the starting curve, must not be used as one: as elements of the field they are not on the curve, because they are not in Montgomery form; the plain numbers are points over the prime field, where no two points are a basis of an order above 2 dividing the basis order.", "quantifier": "all pairs of points over the prime field and all such orders", "why_tests_cant": "the constants are public but unused, so nothing checks them; that no choice of points over the prime field would do is a statement on all points", "anchors": ["src/fields.rs:P0x", "src/fields.rs:Q0x", "src/finitefield/fp_gen.rs:new"]}
{"id": "C80", "title": "What is printed identifies the value", "statement": "The Display implementations print the canonical residue in decimal, and the printed text of a field element, point, pair of points, theta point or trapdoor input determines it; that of a curve determines its coefficient, that of an isogeny the coefficients or the j-invariants of its two curves.", "quantifier": "all values", "why_tests_cant": "injectivity is a statement on all pairs of values", "anchors": ["src/finitefield/fp_gen.rs:fmt", "src/finitefield/fp2_gen.rs:fmt", "src/eccore.rs:fmt", "src/isogeny.rs:fmt", "src/theta.rs:fmt", "src/festa.rs:fmt"]}
{"id": "C81", "title": "Field arithmetic never trips an overflow check", "statement": "In a build with overflow checks, division, inversion, Legendre symbol and multiplication by a small integer in the base field, and division, inversion, Legendre symbol, square root and fourth root in the extension field never panic, zero operands and non-squares included, and return what the release build returns.", "quantifier": "all reduced operands", "why_tests_cant": "the shift 63 - s underflows exactly when both gcd operands vanish in some round; excluding that needs an invariant over all rounds and all operands", "anchors": ["src/finitefield/fp_gen.rs:set_div", "src/finitefield/fp_gen.rs:legendre", "src/finitefield/fp_gen.rs:set_mul_small", "src/finitefield/fp2_gen.rs:set_sqrt", "src/finitefield/fp2_gen.rs:set_fourth_root"]}
{"id": "C82", "title": "Debug builds refine release builds", "statement": "The debug assertions and overflow checks, and the number of candidates tried in the search for torsion points, have no influence on what is returned: whatever a debug build returns, a release build returns too, for the square root, logarithms, pairings, isogenies, torsion bases, decoding, setup, key generation, trapdoor evaluation, inversion and the benchmark. With the shipped constants the setup makes the same value in every build. The converse is false.", "quantifier": "all inputs, all build modes, all search bounds", "why_tests_cant": "the tests run in one build mode; that an assertion has no side effect and that an overflow that wraps silently does not change a result that passes the checks is a statement on all inputs and both builds", "anchors": ["src/discrete_log.rs:sqrt_floor", "src/pairing.rs:tate_pairing", "src/isogeny.rs:new", "src/supersingular.rs:torsion_basis", "src/festa.rs:keygen", "src/festa.rs:trapdoor_eval", "src/festa.rs:trapdoor_inverse", "src/festa.rs:decode"]}
{"id": "C83", "title": "The theta chain of Kani's lemma ends in a product, and product_isogeny returns", "statement": "For the kernels product_isogeny is called with in the scheme (the images of a basis under (phi1, g*gamma*phiA), with m1^2*dA*d1 + m2^2*e = 2^n, as in C72): if the chain of (2,2)-isogenies meets no product before its end and the kernel points it meets are in the position the formulas expect, then the null point it ends with has exactly one vanishing even theta constant, i.e. it belongs to a product of two elliptic curves; the vanishing constant is always the one of index (3,0), so that compute_splitting_matrix always selects the same one of its ten matrices; no denominator inverted in the formulas of the steps vanishes; and product_isogeny returns for every strategy and every list of points instead of panicking for want of a splitting matrix.", "quantifier": "all isogenies, all degrees and multipliers satisfying the norm equation, all bases, all chain lengths n >= 3, all strategies, all lists of points", "why_tests_cant": "the tests see that single runs end in a product; that they must is Kani's criterion, a statement on all curves and isogenies over a field with about 2^2586 elements", "anchors": ["src/theta.rs:product_isogeny", "src/theta.rs:two_isogeny", "src/theta.rs:two_isogeny_to_product", "src/theta.rs:compute_splitting_matrix"]}
{"id": "C84", "title": "The factor needed by the inversion is always the first one, and the curve isomorphism applies to it", "statement": "For the kernels product_isogeny is called with in trapdoor_inverse (as in C72, with g = m1*d1/(m2*e) modulo the order 2^(n+2) of the basis), the first factor of the product returned has the j-invariant of EA', and it is in the first factor that the points become the values of Kani's map; hence the comparison of j-invariants in trapdoor_inverse always selects the first factor and the branch for the second factor never runs. If the point of order two below the first point of the basis is not (0,0), the coefficient of the first factor is not the opposite of that of EA', so that the case in which CurveIsomorphism is wrong between two different isomorphic curves does not occur.", "quantifier": "all isogenies, degrees and multipliers satisfying the norm equation, all bases, all chain lengths n >= 3, all strategies, all lists of points, both build modes", "why_tests_cant": "the code has two branches and tests see the first one taken; that the second cannot be taken, and that a coefficient of the wrong sign cannot appear, is a statement on the theta structure at the end of every chain", "anchors": ["src/festa.rs:trapdoor_inverse", "src/theta.rs:product_isogeny", "src/theta.rs:compute_splitting_matrix", "src/eccore.rs:CurveIsomorphism"]}
{"id": "C85", "title": "The point (0,0) in the bases of entangled_torsion_basis", "statement": "On every curve reached from the starting curve by isogenies of odd degree, the basis P, Q of order 2^634 returned by entangled_torsion_basis (outside the exceptional case of C42) satisfies 2^633*P + 2^633*Q = (0,0); in particular neither 2^633*P nor 2^633*Q is (0,0). For the points Pb, Qb stored by FESTACrypto::new this holds without condition.", "quantifier": "all curves reached, all bases found", "why_tests_cant": "it is a statement on all supersingular curves over the field, proved from the action of Frobenius and the abscissas being non-squares; nothing in the code checks it although trapdoor_inverse depends on it (C84)", "anchors": ["src/supersingular.rs:entangled_torsion_basis", "src/festa.rs:new"]}
{"id": "C86", "title": "When the constants printed by the generator are right", "statement": "precompute/gen_fp.sage prints the constants of fp_gen.rs for a modulus p. For every prime p congruent to 7 modulo 8 with more than 64 bits and room for 3p in its words, if the printed Rust module compiles then the constants satisfy all conditions under which the arithmetic of fp_gen.rs is proved correct (C03 to C17) and the modulus is p; the module compiles exactly if no constant needs fewer words than p and the leading bits of p are not a power of two; the constants in fields.rs are the output for the modulus named in gen_fp.sage and precompute.sage. The conditions are needed: for 2^89-1 the module does not compile because leading zero words are not printed; for p congruent to 3 modulo 8, which the script announces to support, fourth_root computes roots of the inverse; for the second modulus named in the script, which is said to have 381 bits but fills six words, the multiplication in Fp2 is wrong, and so it is for a prime of 127 bits in two words, with a spare bit and room for 2.94 p.", "quantifier": "all primes, all word counts", "why_tests_cant": "the tests run with one modulus; the generator is never tested, and whether its formulas are right is a statement on all moduli", "anchors": ["precompute/gen_fp.sage", "src/fields.rs", "src/finitefield/fp_gen.rs:sum_of_products", "src/finitefield/fp_gen.rs:fourth_root"]}
{"id": "C87", "title": "Word arrays printed by temp.py", "statement": "Array2Num of precompute/temp.py computes the number whose words are given, least significant first; Num2Array returns words of the right size and value, without leading zeros, or exactly N words if N is given and the number fits, and Array2Num is its inverse. The arrays D1, D2, DA, DA1, DA2, M1, M2, BASIS_ORDER, BIGUINT_MODULUS of fields.rs are the output for the numbers in the script, BASIS_ORDER is p+1, the assertion m1^2*T1+m2^2*T2 = 2^632 of the script holds, and P0x, P0y, Q0x, Q0y have the words of the plain coordinates of the script, without conversion to Montgomery form (the cause of C79).", "quantifier": "all numbers, all arrays, all word sizes and lengths", "why_tests_cant": "no test runs the script; the inverse property is on all numbers and word sizes", "anchors": ["precompute/temp.py", "src/fields.rs"]}
{"id": "C88", "title": "Values of the trapdoor function are malleable", "statement": "The trapdoor function of festa.rs is one-way at most, not a ciphertext by itself. Whenever key generation runs as in C73: for every proper input m with value c and all numbers k, k' inverse to each other modulo 2^634, multiplying the points R1, R2 of c by k and S1, S2 by k' (which needs no secret) gives something that is written out exactly as the value of the input with the matrix diag(b11, b22) multiplied by diag(k, k'), that trapdoor_inverse turns into this input in normal form, and this is another input than m unless k is 1 or -1. Changing the signs of R1 and S1 gives something that is not written out as the value of any proper input and that trapdoor_inverse turns into m all the same, so that trapdoor_inverse accepts non-values and a caller who needs chosen-ciphertext security must evaluate again and compare. The statements on trapdoor_inverse are for values meeting none of the exceptional cases of C73.", "quantifier": "all keys, all inputs, all scalars k, k'", "why_tests_cant": "the tests only invert honest values; malleability is a relation between all pairs of inputs and scalars, and that a string is no value of any input is a statement on all inputs", "anchors": ["src/festa.rs:trapdoor_eval", "src/festa.rs:trapdoor_inverse", "src/festa.rs:TrapdoorOutput::encode", "src/eccore.rs:mul_big"]}
{"id": "C89", "title": "What the decoding functions accept", "statement": "With debug assertions, TrapdoorOutput::decode accepts exactly the encodings of tuples of two non-singular curves and four coordinate pairs, and SecretKey::decode exactly the encodings of tuples of a non-singular curve, four coordinate pairs and two numbers of at most 82 bytes. No point is checked to be on its curve: every choice of coordinates is accepted, in every build. Without debug assertions both functions return a value for every byte string that is long enough unless a coefficient is 2 or -2; the rest of the string is ignored and fields that are not canonical are read as 0, so that for instance all strings of at least 3240 bytes 0xFF decode to the same value, which a debug build refuses.", "quantifier": "all byte strings, all values, both build modes", "why_tests_cant": "the tests decode what was just encoded; the set of accepted strings is a statement on all strings, and the tests run in one build mode only", "anchors": ["src/festa.rs:101-128", "src/festa.rs:177-197"]}
{"id": "C90", "title": "Arithmetic with coordinates that are not on the curve", "statement": "The functions of eccore.rs do not check that their arguments are on the curve y^2 = x^3 + A x^2 + x, and off the curve they do not agree with each other. add is the group law of y^2 = x^3 + A x^2 + x + c for every c, and every pair of coordinates is a point of one of these curves, unless that one is singular (so coordinates chosen by others select the group in which add works). double agrees with adding a point to itself for no point off the curve with y not 0 and x not -A/2. mul_big depends on the first coordinate only: for every x, every point Q = (x, s) of the curve over the field or a larger one, s not 0, and every y other than 0, mul_big of (x, y) by n has the first coordinate of nQ, unless (n+2)Q = 0 and nQ is not 0, where it has another one if Q is over the field, y^2 differs from s^2 and x^2 is not 1. In particular mul_big by 2 disagrees with double whenever Q is over the field, y^2 differs from s^2, x^2 is not 1 and 4Q is not 0.", "quantifier": "all fields of characteristic other than 2, all curves, all coordinates, all scalars", "why_tests_cant": "the tests use points that are on the curve; which group off-curve coordinates select is a statement on all coordinates", "anchors": ["src/eccore.rs:341-416", "src/eccore.rs:454-502", "src/eccore.rs:532-661"]}
