{
 "claims": [
  {
   "property": "C01",
   "status": "proved",
   "theorems": [
    "Festa.C01_addcarry",
    "Festa.C01_subborrow",
    "Festa.C01_umull",
    "Festa.C01_umull_add",
    "Festa.C01_umull_add2",
    "Festa.C01_umull_x2",
    "Festa.C01_umull_x2_add",
    "Festa.C01_sgnw",
    "Festa.C01_lzcnt"
   ],
   "note": "umull_x2 and umull_x2_add are exact when the sum fits in 128 bits (hypothesis); the u128 addition overflows otherwise."
  },
  {
   "property": "C02",
   "status": "proved",
   "theorems": [
    "Festa.C02_modulus",
    "Festa.C02_field_constants",
    "Festa.C02_scheme"
   ],
   "note": ""
  },
  {
   "property": "C03",
   "status": "proved",
   "theorems": [
    "Festa.C03_canonical",
    "Festa.C03_add",
    "Festa.C03_sub",
    "Festa.C03_neg"
   ],
   "note": ""
  },
  {
   "property": "C04",
   "status": "proved",
   "theorems": [
    "Festa.C04_mul",
    "Festa.C04_square",
    "Festa.C04_square_eq_mul"
   ],
   "note": ""
  },
  {
   "property": "C05",
   "status": "proved",
   "theorems": [
    "Festa.C05_half",
    "Festa.C05_mul2348"
   ],
   "note": ""
  },
  {
   "property": "C06",
   "status": "proved",
   "theorems": [
    "Festa.C06_mul_small"
   ],
   "note": ""
  },
  {
   "property": "C07",
   "status": "proved",
   "theorems": [
    "Festa.C07_iszero",
    "Festa.C07_equals"
   ],
   "note": ""
  },
  {
   "property": "C08",
   "status": "proved",
   "theorems": [
    "Festa.C08_select",
    "Festa.C08_condswap",
    "Festa.C08_condneg"
   ],
   "note": ""
  },
  {
   "property": "C09",
   "status": "proved",
   "theorems": [
    "Festa.C09_from_unsigned",
    "Festa.C09_from_signed"
   ],
   "note": ""
  },
  {
   "property": "C10",
   "status": "proved",
   "theorems": [
    "Festa.C10_products"
   ],
   "note": ""
  },
  {
   "property": "C11",
   "status": "proved",
   "theorems": [
    "Festa.C11_encode",
    "Festa.C11_length",
    "Festa.C11_decode",
    "Festa.C11_decode_encode",
    "Festa.C11_encode_decode",
    "Festa.C11_encode_injective"
   ],
   "note": ""
  },
  {
   "property": "C12",
   "status": "proved",
   "theorems": [
    "Festa.C12_decode_reduce",
    "Festa.C12_rand"
   ],
   "note": ""
  },
  {
   "property": "C13",
   "status": "proved",
   "theorems": [
    "Festa.C13_pow_ext",
    "Festa.C13_pow_ext_panics",
    "Festa.C13_pow_big"
   ],
   "note": ""
  },
  {
   "property": "C14",
   "status": "proved",
   "theorems": [
    "Festa.C14_constant",
    "Festa.C14_div",
    "Festa.C14_div_by_zero",
    "Festa.C14_div_mul",
    "Festa.C14_invert"
   ],
   "note": ""
  },
  {
   "property": "C15",
   "status": "proved",
   "theorems": [
    "Festa.C15_legendre_fp2",
    "Festa.C15_legendre",
    "Festa.C15_legendre_iff"
   ],
   "note": ""
  },
  {
   "property": "C16",
   "status": "proved",
   "theorems": [
    "Festa.C16_sqrt"
   ],
   "note": ""
  },
  {
   "property": "C17",
   "status": "proved",
   "theorems": [
    "Festa.C17_fourth_root"
   ],
   "note": ""
  },
  {
   "property": "C18",
   "status": "proved",
   "theorems": [
    "Festa.C18_canonical",
    "Festa.C18_reference",
    "Festa.C18_add_sub_neg",
    "Festa.C18_mul",
    "Festa.C18_mul_old_eq",
    "Festa.C18_square",
    "Festa.C18_multiples",
    "Festa.C18_mul_small",
    "Festa.C18_constants",
    "Festa.C18_iszero_equals",
    "Festa.C18_conditional",
    "Festa.C18_field_laws"
   ],
   "note": ""
  },
  {
   "property": "C19",
   "status": "proved",
   "theorems": [
    "Festa.C19_invert",
    "Festa.C19_div",
    "Festa.C19_div_mul"
   ],
   "note": ""
  },
  {
   "property": "C20",
   "status": "proved",
   "theorems": [
    "Festa.C20_batch_invert"
   ],
   "note": ""
  },
  {
   "property": "C21",
   "status": "proved",
   "theorems": [
    "Festa.C21_sqrt",
    "Festa.C21_sign_unique",
    "Festa.C21_sqrt_square"
   ],
   "note": ""
  },
  {
   "property": "C22",
   "status": "proved",
   "theorems": [
    "Festa.C22_fourth_root"
   ],
   "note": ""
  },
  {
   "property": "C23",
   "status": "proved",
   "theorems": [
    "Festa.C23_encode",
    "Festa.C23_length",
    "Festa.C23_decode",
    "Festa.C23_decode_encode",
    "Festa.C23_encode_decode"
   ],
   "note": ""
  },
  {
   "property": "C24",
   "status": "proved",
   "theorems": [
    "Festa.C24_equals",
    "Festa.C24_scaling",
    "Festa.C24_isinfinity",
    "Festa.C24_to_xy",
    "Festa.C24_pointX_equals"
   ],
   "note": ""
  },
  {
   "property": "C25",
   "status": "proved",
   "theorems": [
    "Festa.C25_add",
    "Festa.C25_neg_sub",
    "Festa.C25_condneg",
    "Festa.C25_laws"
   ],
   "note": ""
  },
  {
   "property": "C26",
   "status": "proved",
   "theorems": [
    "Festa.C26_double"
   ],
   "note": ""
  },
  {
   "property": "C27",
   "status": "partial",
   "theorems": [
    "Festa.C27_mul_partial",
    "Festa.C27_mul_zero_bits_fails",
    "Festa.C27_mul_panics",
    "Festa.C27_mul_big",
    "Festa.C27_mul_small"
   ],
   "note": "mul_big, mul_small proved in full; mul proved except nbitlen = 0 with an odd first byte and a point of order 2, where the code reads a bit beyond nbitlen and returns the point (C27_mul_zero_bits_fails)."
  },
  {
   "property": "C28",
   "status": "proved",
   "theorems": [
    "Festa.C28_on_curve",
    "Festa.C28_set_xy",
    "Festa.C28_set_xyz"
   ],
   "note": ""
  },
  {
   "property": "C29",
   "status": "proved",
   "theorems": [
    "Festa.C29_complete"
   ],
   "note": ""
  },
  {
   "property": "C30",
   "status": "proved",
   "theorems": [
    "Festa.C30_x_dbl",
    "Festa.C30_from_point"
   ],
   "note": ""
  },
  {
   "property": "C31",
   "status": "partial",
   "theorems": [
    "Festa.C31_exact",
    "Festa.C31_isomorphism_partial",
    "Festa.C31_infinity_fails",
    "Festa.C31_same_curve_fails"
   ],
   "note": "The claim fails: infinity is mapped to (v : 0 : 1) (C31_infinity_fails) and the map from a curve to itself is wrong (C31_same_curve_fails). C31_exact says exactly when it holds off infinity: for isomorphic curves and 3 != 0, the map is a group isomorphism on the points other than infinity if and only if A1, A2 != 0 and (A1^2 != A2^2 or A1^2 = 3 or 2 A1^2 = 9). C31_isomorphism_partial is the sufficient condition without the assumption 3 != 0."
  },
  {
   "property": "C32",
   "status": "proved",
   "theorems": [
    "Festa.C32_j_invariant",
    "Festa.C32_isomorphic"
   ],
   "note": ""
  },
  {
   "property": "C33",
   "status": "proved",
   "theorems": [
    "Festa.C33_next",
    "Festa.C33_iterate"
   ],
   "note": ""
  },
  {
   "property": "C34",
   "status": "proved",
   "theorems": [
    "Festa.C34_xgcd",
    "Festa.C34_inverse",
    "Festa.C34_panic"
   ],
   "note": ""
  },
  {
   "property": "C35",
   "status": "proved",
   "theorems": [
    "Festa.C35_crt",
    "Festa.C35_crt_short"
   ],
   "note": ""
  },
  {
   "property": "C36",
   "status": "proved",
   "theorems": [
    "Festa.C36_sqrt",
    "Festa.C36_sqrt_checked"
   ],
   "note": ""
  },
  {
   "property": "C37",
   "status": "proved",
   "theorems": [
    "Festa.C37_bsgs_finds",
    "Festa.C37_bsgs_exact",
    "Festa.C37_bsgs_fails"
   ],
   "note": ""
  },
  {
   "property": "C38",
   "status": "proved",
   "theorems": [
    "Festa.C38_ph_power",
    "Festa.C38_ph"
   ],
   "note": ""
  },
  {
   "property": "C39",
   "status": "partial",
   "theorems": [
    "Festa.C39_release_wrong",
    "Festa.C39_free_iff",
    "Festa.C39_exceptions_few",
    "Festa.C39_debug_fails",
    "Festa.C39_debug",
    "Festa.C39_release_fails",
    "Festa.C39_bidlp_partial",
    "Festa.C39_bidlp_scaled",
    "Festa.C39_bidlp_axis",
    "Festa.C39_bidlp_axis'",
    "Festa.C39_bidlp_axis_two",
    "Festa.C39_axis_fails"
   ],
   "note": "Proved for every basis of order D and every R = aP+bQ whose multiples along the double-and-add chain are non-zero (true for exact order D), unless R is a multiple of P (or of Q) and the chains of D on the two points meet each other (C39_bidlp_partial, C39_bidlp_scaled, C39_bidlp_axis, C39_bidlp_axis'); for D = 2^e for every odd multiple of P (C39_bidlp_axis_two, the case recover_diagB needs). C39_free_iff says which multiples of P are excluded, and C39_exceptions_few that these are at most 8 log2 D + 17 of the D. Missing: those multiples for odd D, where the claim fails (C39_axis_fails: bidlp panics on R = Q), and points of smaller order that make the Miller loop pass through infinity, where it fails too: debug builds panic on every such point (C39_debug_fails; C39_debug is the exact behaviour off the axes), release builds panic on a concrete one (C39_release_fails) and return wrong coordinates on another (C39_release_wrong). Non-degeneracy of e(P,Q) is proved (C65), as are bilinearity, the root-of-unity property and alternation."
  },
  {
   "property": "C40",
   "status": "partial",
   "theorems": [
    "Festa.C40_point_test",
    "Festa.C40_point_order_partial",
    "Festa.C40_point_complete",
    "Festa.C40_field_test",
    "Festa.C40_field_order_partial",
    "Festa.C40_panics",
    "Festa.C40_point_order_fails"
   ],
   "note": "The tests never check that the order annihilates the input: the exact characterisation proved is that the test accepts iff D/l does not annihilate for every prime l of the list. Exact order follows when D annihilates (C40_point_order_partial, C40_field_order_partial); without that the claim fails (C40_point_order_fails)."
  },
  {
   "property": "C41",
   "status": "partial",
   "theorems": [
    "Festa.C41_free_partial",
    "Festa.C41_code_partial",
    "Festa.C41_candidate",
    "Festa.C41_random_point",
    "Festa.C41_point",
    "Festa.C41_basis_partial",
    "Festa.C41_independent_fails"
   ],
   "note": "Orders proved in full; independence proved unless one point is a multiple of the other (C41_basis_partial). On curves with full torsion, so on all curves of the scheme, the points are a basis if and only if the second is no exceptional multiple of the first (C41_free_partial, C41_code_partial; the exceptional multiples are described by C39_free_iff and are at most 8 log2 D + 17 of the D by C39_exceptions_few). The exceptional case cannot be excluded: C41_independent_fails gives a run of torsion_basis that returns T and 38T, because has_factored_order accepts any pairing value, also one that is not a D-th root of unity."
  },
  {
   "property": "C42",
   "status": "partial",
   "theorems": [
    "Festa.C42_exceptional",
    "Festa.C42_points_partial",
    "Festa.C42_basis_partial",
    "Festa.C42_refuses_zero",
    "Festa.C42_basis_code",
    "Festa.C42_start_curve",
    "Festa.C42_start_points",
    "Festa.C42_fails"
   ],
   "note": "The claim fails when the right-hand side met by the search is a non-residue of the base field (C42_fails: the square root used returns 0 and the two points are off the curve). C42_exceptional: that is the only failure. Outside it the two points are on the curve, satisfy the entangling relations, and form a basis of E[2^k] for every curve of exponent 2^k*odd with full 2^k torsion (C42_basis_partial, C42_basis_code). For the FESTA start curve A = 6 the exceptional case is excluded and the search is proved to succeed. The assumptions on the curve hold for all curves of the scheme (C69)."
  },
  {
   "property": "C43",
   "status": "partial",
   "theorems": [
    "Festa.C43_debug_fails",
    "Festa.C43_scalar",
    "Festa.C43_canonical_partial",
    "Festa.C43_cyclic_partial",
    "Festa.C43_injective",
    "Festa.C43_other_groups_fail"
   ],
   "note": "Scalar arithmetic proved for all coordinates (C43_scalar). C43_cyclic_partial: for any two points generating the group of P+sQ, s = 0 included, the code returns s mod D; missing: the few multiples of P excluded in C39 (bidlp fails there for odd D) and points killed by a number met in the Miller chain. On the latter debug builds always panic (C43_debug_fails)."
  },
  {
   "property": "C44",
   "status": "proved",
   "theorems": [
    "Festa.C44_debug_tate",
    "Festa.C44_debug",
    "Festa.C44_antisymmetric",
    "Festa.C44_tate_nonzero",
    "Festa.C44_total",
    "Festa.C44_self",
    "Festa.C44_alternating_fails",
    "Festa.C44_additive",
    "Festa.C44_on_basis",
    "Festa.C44_chain",
    "Festa.C44_degenerate"
   ],
   "note": "Antisymmetry and non-vanishing for all inputs; additivity, root of unity and alternation for independent points; the pairing of a point with itself is (-1)^n, so the code's pairing is not alternating for odd orders (C44_alternating_fails). C44_debug_tate and C44_debug characterise exactly when the pairings panic in debug builds."
  },
  {
   "property": "C45",
   "status": "proved",
   "theorems": [
    "Festa.C45_step",
    "Festa.C45_evaluation"
   ],
   "note": ""
  },
  {
   "property": "C46",
   "status": "proved",
   "theorems": [
    "Festa.C46_evaluate",
    "Festa.C46_factored",
    "Festa.C46_kernel_to_infinity",
    "Festa.C46_zero_exponent_fails",
    "Festa.C46_debug"
   ],
   "note": ""
  },
  {
   "property": "C47",
   "status": "proved",
   "theorems": [
    "Festa.C47_shipped_strategy",
    "Festa.C47_strategy_in_bounds",
    "Festa.C47_strategy_equals_naive"
   ],
   "note": "Bounds for every strategy, and the shipped strategy, without condition. Equality with the naive chain for every n, strategy and image list, for kernels whose components are bases and whose chain is regular (no vanishing theta constant before the last two steps); that gluing commutes with doubling comes from C67."
  },
  {
   "property": "C48",
   "status": "proved",
   "theorems": [
    "Festa.C48_hadamard",
    "Festa.C48_double_projective",
    "Festa.C48_double_null",
    "Festa.C48_double_kummer",
    "Festa.C48_double_torsion",
    "Festa.C48_two_isogeny",
    "Festa.C48_dual_steps"
   ],
   "note": ""
  },
  {
   "property": "C49",
   "status": "partial",
   "theorems": [
    "Festa.C49_constants",
    "Festa.C49_splitting_partial",
    "Festa.C49_zero_index_singular",
    "Festa.C49_zero_index_fails",
    "Festa.C49_no_zero_is_silent"
   ],
   "note": "Proved for nine of the ten positions. At (0,0) the claim fails: the matrix in the code is singular (C49_zero_index_singular, C49_zero_index_fails)."
  },
  {
   "property": "C50",
   "status": "proved",
   "theorems": [
    "Festa.C50_projective",
    "Festa.C50_null_to_infinity",
    "Festa.C50_curve",
    "Festa.C50_doubling",
    "Festa.C50_split",
    "Festa.C50_split_degenerate"
   ],
   "note": ""
  },
  {
   "property": "C51",
   "status": "proved",
   "theorems": [
    "Festa.C51_same_point",
    "Festa.C51_roundtrip",
    "Festa.C51_long",
    "Festa.C51_canonical",
    "Festa.C51_infinity"
   ],
   "note": "Round trip for all keys whose points are not infinity and whose integers fit in 82 bytes (every key of keygen has them); C51_infinity and C51_long show what happens otherwise."
  },
  {
   "property": "C52",
   "status": "proved",
   "theorems": [
    "Festa.C52_roundtrip",
    "Festa.C52_injective",
    "Festa.C52_infinity_collides"
   ],
   "note": "Round trip and injectivity for outputs whose points are not infinity; C52_infinity_collides: infinity and (0,0) have the same encoding."
  },
  {
   "property": "C53",
   "status": "proved",
   "theorems": [
    "Festa.C53_sign_independent",
    "Festa.C53_recover"
   ],
   "note": "C53_recover: for every odd b11 below l/2 and for the point with either sign, recover_diagB returns b11 and its inverse."
  },
  {
   "property": "C54",
   "status": "partial",
   "theorems": [
    "Festa.C54_zero_fails",
    "Festa.C54_invert_partial",
    "Festa.C54_choose",
    "Festa.C54_setup",
    "Festa.C54_chain_free",
    "Festa.C54_recover_partial",
    "Festa.C54_eval",
    "Festa.C54_keygen_partial",
    "Festa.C54_norm",
    "Festa.C54_inverse_partial"
   ],
   "note": "Proved: the precomputed numbers are right and satisfy the norm equation (C54_setup, C54_norm); keygen returns a key pair belonging to two isogenies (C54_keygen_partial); trapdoor_eval returns the images under the isogenies of the two kernels (C54_eval); trapdoor_inverse returns the input, the debug assertion on the pairings included, without assuming anything on the values of the chain (C54_invert_partial; with the values assumed: C54_inverse_partial); recover_si_and_B alone (C54_recover_partial); orders met by the Miller loop (C54_chain_free). Still assumed in C54_invert_partial: the chain meets no product before its end (JacChain, see C83; that it ends in a product is proved), EA' has j-invariant different from 0 and 1728, (l/2) Pb is not (0, 0) (proved for the setup of the code, C85; it excludes a factor with coefficient -EA'.A, where the isomorphism of the code fails, by C84), and the recovered points are not among the few exceptional multiples of a basis point (C39_exceptions_few). The last condition is needed: C54_zero_fails is an input with s2 = 0 of the small version of the scheme whose value is computed but not inverted."
  },
  {
   "property": "C55",
   "status": "proved",
   "theorems": [
    "Festa.C55_eq",
    "Festa.C55_equivalence"
   ],
   "note": ""
  },
  {
   "property": "C56",
   "status": "proved",
   "theorems": [
    "Festa.C56_pow_ext",
    "Festa.C56_pow_big",
    "Festa.C56_pow_u64",
    "Festa.C56_agree"
   ],
   "note": ""
  },
  {
   "property": "C57",
   "status": "proved",
   "theorems": [
    "Festa.C57_nqr",
    "Festa.C57_rand_nonsquare"
   ],
   "note": ""
  },
  {
   "property": "C58",
   "status": "proved",
   "theorems": [
    "Festa.C58_rand_point"
   ],
   "note": ""
  },
  {
   "property": "C59",
   "status": "proved",
   "theorems": [
    "Festa.C59_product"
   ],
   "note": ""
  },
  {
   "property": "C60",
   "status": "proved",
   "theorems": [
    "Festa.C60_curve_new"
   ],
   "note": ""
  },
  {
   "property": "C61",
   "status": "proved",
   "theorems": [
    "Festa.C61_from_scalar"
   ],
   "note": ""
  },
  {
   "property": "C62",
   "status": "proved",
   "theorems": [
    "Festa.C62_random",
    "Festa.C62_debug_stops"
   ],
   "note": ""
  },
  {
   "property": "C63",
   "status": "proved",
   "theorems": [
    "Festa.C63_generated",
    "Festa.C63_every_input"
   ],
   "note": ""
  },
  {
   "property": "C64",
   "status": "proved",
   "theorems": [
    "Festa.C64_eval_basis"
   ],
   "note": ""
  },
  {
   "property": "C65",
   "status": "proved",
   "theorems": [
    "Festa.C65_order",
    "Festa.C65_test"
   ],
   "note": ""
  },
  {
   "property": "C66",
   "status": "partial",
   "theorems": [
    "Festa.C66_span",
    "Festa.C66_bidlp_partial"
   ],
   "note": "C66_span is complete; the second sentence carries the conditions of C39 (multiples of P or Q must not be exceptional)."
  },
  {
   "property": "C67",
   "status": "proved",
   "theorems": [
    "Festa.C67_gluing",
    "Festa.C67_exceptional_fails"
   ],
   "note": "For every point outside the exceptional pairs of order four; C67_exceptional_fails shows that the code is wrong on such a pair."
  },
  {
   "property": "C68",
   "status": "proved",
   "theorems": [
    "Festa.C68_not_exceptional",
    "Festa.C68_product_hom"
   ],
   "note": "For chains that meet no product before their end and pairs outside the exceptional pairs of gluing (C68_not_exceptional). The chain of the small version of the scheme is a concrete case (Props/ProductHomCase.lean)."
  },
  {
   "property": "C69",
   "status": "proved",
   "theorems": [
    "Festa.C69_reached",
    "Festa.C69_code",
    "Festa.C69_entangled",
    "Festa.C69_start_basis",
    "Festa.C69_setup",
    "Festa.C69_torsion"
   ],
   "note": "C69_reached for any field with p^2 elements, p = 3 mod 4; C69_code for the field of the code; the rest are the consequences for C41, C42 and FESTACrypto::new. torsion_basis may still return dependent points (C41)."
  },
  {
   "property": "C70",
   "status": "proved",
   "theorems": [
    "Festa.C70_dual",
    "Festa.C70_adjoint",
    "Festa.C70_kernel",
    "Festa.C70_code"
   ],
   "note": "C70_code gives the duals for every key and value of an object made by FESTACrypto::new; C70_kernel takes the duals as hypotheses in the form C70_code provides."
  },
  {
   "property": "C71",
   "status": "proved",
   "theorems": [
    "Festa.C71_group",
    "Festa.C71_code",
    "Festa.C71_search"
   ],
   "note": "C71_search is a statement on the points, not on the sequence of candidates the code tries."
  },
  {
   "property": "C72",
   "status": "proved",
   "theorems": [
    "Festa.C72_kani"
   ],
   "note": "The hypothesis JacChain says that the theta chain meets no product before its last step: no even constant vanishes at the null points before the end, no coordinate up to the last step, the doubles of the kernel points are aligned with the theta structure. That the chain ends in a product is no longer assumed (C83). Excluded: j(EA) = 0 and 1728, a factor with coefficient -EA.A (C31); for the kernels of the scheme the latter does not occur, and the factor is always the first (C84)."
  },
  {
   "property": "C73",
   "status": "partial",
   "theorems": [
    "Festa.C73_scheme_partial",
    "Festa.C73_bench_partial"
   ],
   "note": "C73_bench_partial is the round of the benchmark over the field of the code, C73_scheme_partial the same for any parameters, with the small version of the scheme as concrete case. Excluded: a random isogeny not found with the given draws, torsion_basis finding nothing on one of the secret curves, or a second point that is an exceptional multiple of the first (C41; excluded for the starting curve by C78; otherwise the points are proved to be bases), exceptional multiples of a basis point (a real failure, C39/C49/C54_zero_fails), j(EA') = 0 or 1728, a run in which the chain meets a product before its end (the condition JacChain: no even constant vanishes at the null points before the end, no coordinate up to the last step, the doubles of the kernel points are aligned with the theta structure; that the chain ends in a product and that no denominator vanishes is proved, C83). That the factor isomorphic to EA' is the first one and that its coefficient is not -EA'.A, where the isomorphism of the code fails, is proved (C84, C85)."
  },
  {
   "property": "C74",
   "status": "proved",
   "theorems": [
    "Festa.C74_projective"
   ],
   "note": ""
  },
  {
   "property": "C75",
   "status": "partial",
   "theorems": [
    "Festa.C75_scheme_partial",
    "Festa.C75_festa_partial"
   ],
   "note": "C75_festa_partial is the statement over the field of the code, C75_scheme_partial the same for any parameters, with the small version of the scheme as concrete case. Excluded as in C73: a random isogeny not found with the given draws, torsion_basis finding nothing on one of the secret curves, or a second point that is an exceptional multiple of the first (C41; excluded for the starting curve by C78; otherwise the points are proved to be bases), exceptional multiples of a basis point (a real failure, C39/C49/C54_zero_fails), j(EA') = 0 or 1728, a run in which the chain meets a product before its end (the condition JacChain: no even constant vanishes at the null points before the end, no coordinate up to the last step, the doubles of the kernel points are aligned with the theta structure; that the chain ends in a product and that no denominator vanishes is proved, C83). That the factor isomorphic to EA' is the first one and that its coefficient is not -EA'.A, where the isomorphism of the code fails, is proved (C84, C85)."
  },
  {
   "property": "C76",
   "status": "partial",
   "theorems": [
    "Festa.C76_injective_partial",
    "Festa.C76_festa_partial"
   ],
   "note": "C76_festa_partial is the statement over the field of the code, C76_injective_partial the same for any parameters. Excluded as in C73: a random isogeny not found with the given draws, torsion_basis finding nothing on one of the secret curves, or a second point that is an exceptional multiple of the first (C41; excluded for the starting curve by C78; otherwise the points are proved to be bases), exceptional multiples of a basis point (a real failure, C39/C49/C54_zero_fails), j(EA') = 0 or 1728, a run in which the chain meets a product before its end (the condition JacChain: no even constant vanishes at the null points before the end, no coordinate up to the last step, the doubles of the kernel points are aligned with the theta structure; that the chain ends in a product and that no denominator vanishes is proved, C83). That the factor isomorphic to EA' is the first one and that its coefficient is not -EA'.A, where the isomorphism of the code fails, is proved (C84, C85)."
  },
  {
   "property": "C77",
   "status": "proved",
   "theorems": [
    "Festa.C77_fp",
    "Festa.C77_fp2",
    "Festa.C77_well_defined",
    "Festa.C77_hash",
    "Festa.C77_collides"
   ],
   "note": "C77_collides is the concrete collision."
  },
  {
   "property": "C78",
   "status": "proved",
   "theorems": [
    "Festa.C78_candidate",
    "Festa.C78_torsion",
    "Festa.C78_setup"
   ],
   "note": "The independence of the points of order D1 is checked by evaluation in the kernel (about 25 s), with x-only arithmetic on pairs of numbers proved to be that of the field of the code."
  },
  {
   "property": "C79",
   "status": "proved",
   "theorems": [
    "Festa.C79_stored_fails",
    "Festa.C79_numbers",
    "Festa.C79_base_field",
    "Festa.C79_no_basis"
   ],
   "note": ""
  },
  {
   "property": "C80",
   "status": "proved",
   "theorems": [
    "Festa.C80_fp",
    "Festa.C80_fp2",
    "Festa.C80_field",
    "Festa.C80_point",
    "Festa.C80_curve",
    "Festa.C80_couple",
    "Festa.C80_isogeny",
    "Festa.C80_theta",
    "Festa.C80_input"
   ],
   "note": ""
  },
  {
   "property": "C81",
   "status": "proved",
   "theorems": [
    "Festa.C81_div",
    "Festa.C81_invert",
    "Festa.C81_legendre",
    "Festa.C81_mul_small",
    "Festa.C81_fp2_div",
    "Festa.C81_fp2_invert",
    "Festa.C81_fp2_legendre",
    "Festa.C81_fp2_sqrt",
    "Festa.C81_fp2_fourth_root"
   ],
   "note": ""
  },
  {
   "property": "C82",
   "status": "proved",
   "theorems": [
    "Festa.C82_sqrtFloor",
    "Festa.C82_bsgs",
    "Festa.C82_phDlpPower",
    "Festa.C82_phDlp",
    "Festa.C82_tatePairing",
    "Festa.C82_weilPairing",
    "Festa.C82_bidlp",
    "Festa.C82_canonicalKernel",
    "Festa.C82_isogenyNew",
    "Festa.C82_evalChainBasis",
    "Festa.C82_factoredIsogeny",
    "Festa.C82_randomIsogeny",
    "Festa.C82_pointOrder",
    "Festa.C82_torsionBasis",
    "Festa.C82_isogenyFromScalar",
    "Festa.C82_new",
    "Festa.C82_keygen",
    "Festa.C82_trapdoorEval",
    "Festa.C82_recoverDiagB",
    "Festa.C82_recoverSiAndB",
    "Festa.C82_trapdoorInverse",
    "Festa.C82_bench",
    "Festa.C82_decode_secret",
    "Festa.C82_decode_output",
    "Festa.C82_torsionBasis_unique",
    "Festa.C82_keygen_unique",
    "Festa.C82_trapdoorEval_unique",
    "Festa.C82_trapdoorInverse_unique",
    "Festa.C82_setup",
    "Festa.C82_converse_fails"
   ],
   "note": "For every function of the model with a flag for the checks, and for every bound on the searches; C82_setup is the case of the shipped constants, C82_converse_fails shows that the converse is false. The field routines are C81."
  },
  {
   "property": "C83",
   "status": "proved",
   "theorems": [
    "Festa.C83_ends_in_product"
   ],
   "note": "The engine is Diamond.pen: on the surface before the last step the image of E0 under half of (m1 dA phi1, -m2 gamma phiA) is a curve of too small a degree for the number of its points at which the last theta coordinate vanishes (SurfNet.kill), so this coordinate vanishes on all of it, in particular at the null point. The last step then ends in a null point whose only vanishing even constant is the one of index (3,0). The remaining hypotheses on the run are those of JacChain (see C72)."
  },
  {
   "property": "C84",
   "status": "proved",
   "theorems": [
    "Festa.C84_first_factor"
   ],
   "note": "Lemmas/KaniFactor.lean: the image of the second generator of the kernel has the second theta coordinate of the left factor equal to zero (factor_pos), while it would be the null point if Kani's map were read there; and the image of a point of order two on the second curve is the opposite of the null point of the right factor, so a coefficient -EA.A would make it (0, 0). The hypotheses on the run are those of C72."
  },
  {
   "property": "C85",
   "status": "proved",
   "theorems": [
    "Festa.C85_reached",
    "Festa.C85_code",
    "Festa.C85_setup"
   ],
   "note": "FrobNeg.square (Lemmas/ZeroPoint.lean): a point P with (p+1)/2 P = (0, 0) has a square abscissa, by Frobenius acting as -p on the curves of the scheme; the abscissas of the entangled points are no squares. C85_setup is without condition; C85_code is under the condition of C42 that the search does not stop at an exceptional value."
  },
  {
   "property": "C86",
   "status": "proved",
   "theorems": [
    "Festa.C86_generated",
    "Festa.C86_compiles",
    "Festa.C86_festa",
    "Festa.C86_254",
    "Festa.C86_short_fails",
    "Festa.C86_fourth_root_fails",
    "Festa.C86_full_words_fails",
    "Festa.C86_spare_bit_fails"
   ],
   "note": "Model/Precompute.lean follows gen_fp.sage line by line; not modelled are the text layout and the random choice of the non-residue (NQR is treated in C10/C02). The statement contains the conditions found; C86_short_fails, C86_fourth_root_fails, C86_full_words_fails and C86_spare_bit_fails show that they cannot be dropped."
  },
  {
   "property": "C87",
   "status": "proved",
   "theorems": [
    "Festa.C87_array2Num",
    "Festa.C87_num2Array",
    "Festa.C87_constants"
   ],
   "note": "C87_array2Num and C87_num2Array are for all inputs; C87_constants compares finite tables."
  },
  {
   "property": "C88",
   "status": "proved",
   "theorems": [
    "Festa.C88_malleable",
    "Festa.C88_festa"
   ],
   "note": "The relations OutRel of C54 hold for the changed values with the isogenies up to sign (Props/Malleable.lean), and inversion is invert_clean of C73. C88_festa is for the constants of the code. The conditions of C73 are part of the statement. The small version of the scheme (Props/MalleableCase.lean) is a case in which all hypotheses are proved, for k = 3 and for the change of signs."
  },
  {
   "property": "C89",
   "status": "proved",
   "theorems": [
    "Festa.C89_output_release",
    "Festa.C89_key_release",
    "Festa.C89_trailing",
    "Festa.C89_output_debug",
    "Festa.C89_key_debug",
    "Festa.C89_no_validation",
    "Festa.C89_debug_invalid",
    "Festa.C89_release_invalid"
   ],
   "note": "C89_output_debug, C89_key_debug, C89_output_release and C89_key_release determine the accepted strings and their values. C89_no_validation: all coordinates are accepted, on the curve or not. C89_release_invalid and C89_debug_invalid are for the field of the code."
  },
  {
   "property": "C90",
   "status": "proved",
   "theorems": [
    "Festa.C90_cover",
    "Festa.C90_add",
    "Festa.C90_double_differs",
    "Festa.C90_mul_x",
    "Festa.C90_mul_exception",
    "Festa.C90_mul_differs"
   ],
   "note": "C90_add, C90_cover, C90_double_differs, C90_mul_x, C90_mul_exception, C90_mul_differs; cases over F29 meet the hypotheses of all of them, one of them with a first coordinate of the twist. In C90_mul_x the point above the first coordinate may be over any larger field; C90_mul_exception shows that its exception is needed."
  }
 ]
}