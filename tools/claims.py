c("C01", "partial", "C01_cyclic_group_partial C01_reachable_values_valid_partial C01_cyclic_group_fails",
  "Proved for every N up to 32768; false of the code for every longer cycle the class accepts (uint16 overflow), proved as C01_cyclic_group_fails.")
c("C02", "partial", "C02_signed_ctor_partial C02_signed_ctor_fails",
  "Proved except for arguments -kN, k>=2, where the code stores N (proved).")
c("C03", "proved", "C03_integer_charge C03_product_order_irrelevant")
c("C04", "proved", "C04_composite_componentwise C04_composite_group C04_composite_order C04_composite_type_mismatch",
  "Component values are assumed admissible (cycle length at most 32768, see C01).")
c("C05", "proved", "C05_distance_zero_iff C05_simple_distance")
c("C06", "partial", "C06_assignment_partial C06_assignment_fails",
  "Copy assignment between different held types throws bad_cast, contrary to the documentation (proved).")
c("C07", "proved", "C07_permute_sections")
c("C08", "partial", "C08_sorted_history_partial C08_insert_range C08_content_ctor_fails C08_empty_range_fails",
  "Proved for all histories whose calls stay out of the defective regions (Op.Ok); construction from the content type and initializer-list assignment break it (proved).")
c("C09", "partial", "C09_step_partial C09_history_partial C09_queries C09_insert_result C09_insert_or_assign_fails",
  "Refinement to the abstract partial map for all histories in Op.Ok; insert_or_assign/try_emplace read past the end for keys above all stored keys (proved).")
c("C10", "partial", "C10_erase_present_partial C10_erase_absent_fails",
  "Holds for present keys; for every absent key the next larger entry is erased or memory past the end is read (proved).")
c("C11", "partial", "C11_merge_exact_partial C11_merge_partial C11_merge_id_partial C11_merge_fails C11_merge_rvalue_fails C11_merge_rvalue_partial",
  "Exact result of the in-place merge for all maps and functors; own keys below all incoming keys wrongly get nocollision (proved), and the rvalue overload with spare capacity transforms the wrong side (proved).")
c("C12", "partial", "C12_hint_partial C12_usual_hints_partial C12_hint_fails",
  "Proved for every hint with no smaller element beyond its successor, in particular end() and the lower bound; every other hint corrupts the map or drops the value (proved).")
c("C61", "partial", "C61_bounds_partial C61_bounds_fails", "upper_bound is right when a larger key exists, lower_bound only for present keys; otherwise wrong or undefined (proved).")
c("C62", "proved", "C62_equality")
c("C14", "proved", "C14_odometer C14_odometer_right", "For any number of dimensions and any positive section counts.")
c("C15", "partial", "C15_factory_partial C15_factory_fails C15_sparse",
  "Needs every dimension to have a section; with an empty dimension the loop reads outside the charges (proved).")
c("C16", "partial", "C16_block_partial C16_block_at C16_block_fails C16_length_fails",
  "Holds for indices inside the grid. Out of grid indices are not rejected (a block can be created outside the grid) and an index of wrong length runs off the array (both proved).")
c("C17", "proved", "C17_bijection C17_decompose C17_element_qtt C17_beyond_fails",
  "element_index_decompose itself does not throw beyond the dimension in a release build: it gives a section that does not exist (C17_beyond_fails).")
c("C18", "proved", "C18_to_dense", "For every conserving tensor (C13).")
c("C19", "partial", "C19_from_basic_partial C19_round_trip_partial C19_rank C19_sizes_fails",
  "Proved for dense input of the right sizes and dimensions with at least one section. Sizes of the dense input are not checked (proved). The norm test is an arbitrary predicate on blocks.")
c("C20", "partial", "C20_permute C20_inverse C20_transpose C20_transpose_twice C20_transpose_fails C20_permute_in_place C20_transpose_in_place C20_in_place_throws C20_swap C20_reject_partial C20_reject_fails C20_range_fails",
  "Content, charges, rule and inverse proved for all permutations and negative aliases. Invalid lists are rejected only through torch when a block is stored; on an empty tensor a repeated dimension is accepted, and a dimension out of range is undefined behaviour, in permute and in transpose (proved). permute_ and transpose_ have the same results in place, and a throw leaves the tensor as it was.")
c("C21", "partial", "C21_add_exact_partial C21_add_one_partial C21_add_partial C21_add_fails",
  "Exact result proved; it equals a+alpha*b for alpha=1, or if no block of a precedes all blocks of b. Otherwise those blocks of a are multiplied by alpha (proved: a - 0 = -a).")
c("C22", "partial", "C22_same_counts_partial C22_sections_fails",
  "Proved for tensors with the same number of sections in every dimension; the number of sections is not compared (proved).")
c("C27", "proved", "C27_inverse C27_conj C27_shape")
c("C28", "partial", "C28_shift_exact_partial C28_shift_range C28_shift_fails",
  "Content kept always; conservation kept iff the tensor is empty or the shift is its own inverse (proved): the rule moves the wrong way.")
c("C29", "proved", "C29_refused")
c("C34", "partial", "C34_any_partial C34_any_fails", "Only the first stored block is examined, and without blocks the result is undefined (proved).")
c("C60", "proved", "C60_item")
c("C63", "proved", "C63_anynan")
c("C23", "proved", "C23_tensordot C23_returns C23_stored C23_sizes_fails",
  "Any conserving operands and any contraction whose sections match in size and have opposite charges, in every result tensordot returns. Sizes of contracted sections are not compared by the code (C23_sizes_fails).")
c("C24", "partial", "C23_tensordot C24_outer C24_reject_charges C24_reject_repeated C24_range_fails",
  "Rule, outer dimensions, absence of forbidden blocks and rejection proved for dimensions within the rank; a dimension beyond the rank is read out of bounds (proved).")
c("C25", "partial", "C25_terminates_partial C25_fails",
  "Terminates for every contraction list unless a rank 0 operand holds a block; then it loops for ever (proved).")
c("C64", "partial", "C64_sum_partial C64_sum_fails", "The value is right; with a non neutral rule the result is not a conserving tensor (proved).")
c("C26", "partial", "C26_fused_bijection C26_reshape_partial C26_reshape_as C26_reshape_as_overwrite C26_reshape_as_overwrite_reject C26_reshape_as_round_trip C26_round_trip_partial C26_empty_group_fails",
  "Proved for groupings without empty groups at the ends; an empty group reads outside the index groups (proved).")
c("C30", "partial", "C30_view_partial C30_view_last_kept C30_view_preserve_rank_partial C30_trailing_fails",
  "Proved for every pattern whose last dimension is kept, or whose fixed dimensions after the last kept one match all stored blocks; otherwise those fixed indices are ignored (proved).")
c("C31", "partial", "C31_shape_from_partial C31_reject_length C31_reject_beyond C31_below_fails",
  "Entries below -1 are not rejected (proved).")
c("C32", "proved", "C32_shape_from_list C32_allowed")
c("C33", "proved", "C33_eye_like C33_reject_rank C33_eye C33_unit_right C33_unit_left")
c("C35", "partial", "C35_find_rule C35_reject_rank C35_sizes_fails",
  "Rule found and rank mismatch rejected; sizes of the dense tensor are not compared with the shape (proved).")
c("C65", "partial", "C65_index_put_partial C65_trailing_fails C65_absent_fails",
  "Blocks of the slice that the value does not store keep their old content instead of becoming zero, and a fixed dimension after the last kept one is read out of bounds (both proved).")
c("C37", "proved", "C37_exact C37_truncation C37_factors C37_zero_min C37_zero_min_fails",
  "Any number of batch rows, any non negative weight function in place of x^pow, exact arithmetic. min_size = 0 is outside the property: it counts as 1 if the whole weight of a row is above the tolerance (C37_zero_min), and ends with an index error if no row is (C37_zero_min_fails).")
c("C38", "partial", "C38_bounds_partial C38_min_fails C38_max_fails",
  "Holds when max_size is at most the number of values and the tolerance is exceeded before min_size is reached. Otherwise min_size-1 values are kept or an index error escapes, and with max_size above the number of values the tolerance is never looked at (proved for all inputs).")
c("C39", "partial", "C39_order_partial C39_vectors_fails C39_order_fails",
  "The order of eigh's pair is kept, but the truncation is computed from the eigenvectors: the eigenvalue 5 of diag(0,5) is dropped and 0 is kept (proved). The two argument truncate returns its arguments swapped (proved).")
c("C58", "partial", "C58_concat C58_prod C58_prod_slice C58_reverse_partial C58_reverse_fails",
  "concat and prod proved; reverse appends as many zeros as there are dimensions (proved for every list).")
c("C59", "partial", "C59_tensorgdot_partial C59_broadcast_partial C59_roles_fails C59_reject_length C59_reject_sizes C59_reject_fit",
  "For all contracted sizes that fit, also with size-one dimensions, which are broadcast: the result is beta*C + alpha*(A.B). The header documents alpha*C + beta*(A.B) (C59_roles_fails). Sizes are naturals of any magnitude; the code holds contracted sizes in int.")
c("C44", "partial", "C44_mps_partial C44_mpo_partial C44_fill C44_empty_fails C44_rank_fails C44_block_partial C44_block_sizes_fails C44_block_empty_fails C44_block_fill_partial C44_block_fill_sizes_fails",
  "Linked chains accepted and unlinked ones refused, for tensors of at least three dimensions; an empty chain or a tensor of lower rank is read out of bounds, and block chains are linked by charges only, not by section sizes (all proved).")
c("C45", "proved", "C45_move_oc C45_reject",
  "Every linked dense chain, every center and target, any SVD satisfying its contract: same state, center at the target, sites passed over orthonormal. The block version is C80.")
c("C49", "proved", "C49_tour C49_sweeps C49_only_update_fails",
  "Any chain of at least two sites, any starting center, any number of sweeps, for every local update.")
c("C50", "proved", "C50_fresh_environments C50_sweep",
  "dmrg with cached environments gives the energies and tensors of the procedure that recomputes every environment from the current tensors.")
c("C51", "partial", "C51_partial C51_dense_partial C51_fails C51_no_sweep_fails not_rightOrth",
  "Holds when sweeps start at the right end, or at the left end for the dense flavour (also proved with the dense tensors). From an inner site, or from the left end with block tensors, the reported center is one site left of the true one (proved for all such runs); also when maximum_iterations = 0 and the center is the last site.")
c("C52", "partial", "C52_log_partial C52_step_fails",
  "All clauses except the last: when the iteration limit is reached end_log_all gets one more than the last it_log_all (proved).")
c("C53", "proved", "C53_lowest", "All real inputs, exact arithmetic; never throws.")
c("C54", "partial", "C54_update_partial C54_eigenvector_partial C54_eigenvector_fails C54_small_fails C54_bound_fails",
  "Real and complex, any inner product space, residual at least 1e-15 (then the energy strictly decreases and is the lowest on the span of the state and its image), or an exact eigenvector of negative energy. For an exact eigenvector of energy >= 0 the update returns the zero vector; for every residual between zero and 1e-15 it returns a vector that is not normalised, and can return a negative energy although no state has one (all proved).")
c("C55", "proved", "C55_heisenberg C55_pauli C55_short",
  "Every J in every field and every length of at least two; also lengths one (zero operator) and zero (undefined behaviour). Dense Heisenberg with entries of the type of J; couplings of other types are C123.")
c("C56", "proved", "C56_hubbard C56_short C56_sign_fails",
  "Every U, mu and length of at least two; hopping enters with a plus sign, where the comment above the function documents a minus sign (C56_sign_fails).")
c("C57", "proved", "C57_anticommute", "All chain lengths, sites and spins, over any commutative ring; the matrices are those of fermions().")
c("C46", "proved", "C46_total C46_distance",
  "Every distance that is never negative and zero only for equal charges, every list of charges per site, number of passes and sequence of draws: the string returned picks an existing state per site and has exactly the total asked for, otherwise invalid_argument.")
c("C47", "partial", "C47_progression_partial C47_complete_partial C47_fails C47_passes_fail",
  "Proved when the charges of all sites are arithmetic progressions with a common step (spins, occupation numbers), and when one site has every charge of the group; false in general (C47_fails, C47_passes_fail for any number of passes).")
c("C48", "proved", "C48_linked C48_total C48_outcomes C48_uniform",
  "Every number of sites, bond dimension, draw and distance. The division by the norm of each site is not modelled and the tensors describing the physical indices are taken to have a neutral selection rule.")

c("C36", "partial", "C36_mul_partial C36_equal C36_in_place_partial C36_wide_fails C36_wide_in_place_fails C36_in_place_rank_fails C36_sections_rejected",
  "The product with broadcasting is the entrywise product of the broadcast tensors, conserving, for every pair of conserving tensors that fit (any ranks, any entries with 0*x = x*0 = 0), except when a single wide section of the tensor of larger rank (the receiver, for equal ranks) meets a single element: the code then throws, and mul_ leaves a tensor that breaks the conservation rule. mul_ equals mul for an argument of no larger rank and is undefined behaviour otherwise. Equal section sizes: proved in full (C36_equal).")

c("C41", "proved", "C41_compact", "Every conserving tensor with at least two dimensions.")
c("C42", "partial", "C42_svd_partial C42_empty_fails C42_full_fails",
  "Reduced factorisation of every conserving tensor whose dimensions all have positive size, for any dense factorisation returning factors of the documented sizes. A dimension of size zero makes svd throw invalid_argument (C42_empty_fails); with some=false the blocks of a non square matrix do not have the size of their section (C42_full_fails). As code: real tensors of torch's default type (C110).")
c("C66", "proved", "C66_product C66_orthonormal C66_orthonormal_batch", "Exact arithmetic over any star ring, any rank. With further dimensions the columns that belong to another section of those are zero, together with their values. Dimensions of positive size, reduced factorisation (the default). As code: real tensors of torch's default type (C110).")

c("C43", "partial", "C43_eigh_partial C43_rule_fails",
  "Exact: eigh succeeds if no block is stored or if the charge of the first section of the last dimension plus the charge of its first element is neutral, and otherwise throws invalid_argument for every conserving tensor with dimensions of positive size. As code: real tensors of torch's default type (C110).")
c("C67", "partial", "C67_product_partial C67_orthonormal_partial C67_orthonormal_batch_partial C67_missing_fails",
  "Tensors of any rank meeting the condition of C43 with every allowed block stored, exact arithmetic; a solver satisfying the hypotheses exists over the reals and complex numbers (spectral theorem). False when blocks are missing: rows and columns are placed in different orders. As code: real tensors of torch's default type (C110).")

c("C40", "partial", "C40_largest C40_min_partial C40_max_partial C40_factors_partial C40_ties_fails C40_zeros_fails C40_factors_fails C40_eigh_fails",
  "Every block spectrum in exact arithmetic, blocks in decreasing order. Always: no discarded value is as large as a kept one, sizes and cut blocks of the factors. At least min when min values are positive; at most max when values differ by more than the degeneracy precision. Blocks of the other sections are never lost, and no block is stored twice. Blocks of emptied sections of U and V are all dropped only if no two are neighbours in the block list and the last is not one: otherwise some may stay; the list keeps its order unless the last block is one. Equal values are never separated, zeros are all dropped, and the truncation of an eigenvalue decomposition always throws.")

c("C13", "partial", "C13_history_partial C13_entries_partial C13_access_fails C13_outside_fails C13_size_fails C13_empty_dimension_fails C13_add_fails C13_view_fails C13_shift_fails",
  "Every finite history of the 23 kinds of calls in `Reachable` (constructors, factories, insertion, permute, transpose, reshape, reshape_as, tensordot, sums, scaling, elementwise, conj, inversion, views, index_put, svd factors). Premises on the caller where the code does not check: block index and size on insertion, populated dimensions for factories, equal divisions into sections for sums and contractions, no block beside a view that fixes a trailing dimension; each shown necessary except the contraction sizes.")

c("C68", "proved", "C68_product C68_error_matrix C68_error_split",
  "Product: every factorisation, element types and truncation bounds, even where blocks of emptied sections stay behind in U and V (C40_factors_fails). Error formula: real or complex tensors of any rank and any split (C68_error_split), and tensors of two dimensions over any ordered field (C68_error_matrix), with at least one singular value, which a tensor that is not zero has. A dense SVD as assumed exists (denseSvd_exists, proved). As code: real tensors of torch's default type (C110).")
c("C69", "proved", "C69_operator C69_overlap C69_trivial_ends",
  "Dense chains of any length and sizes, entries in any commutative star ring; edges as given. torch's broadcasting of a contracted dimension of size one is not modelled.")
c("C70", "partial", "C70_select_partial C70_default_fails",
  "The selection is right when the last dimension is marked or none is, and otherwise writes one element past the end of the list it builds (C70_select_partial covers every list of marks). contract without edges and generate_env of dense chains always run into the second case (C70_default_fails).")
c("C71", "proved", "C71_effective C71_energy",
  "Every chain and position; edges as given (their default construction is C70). Dense tensors, exact arithmetic.")
c("C72", "proved", "C72_isometry C72_bound",
  "Every chain and position. Isometry over every commutative star ring, the bound over the real and complex numbers. Dense tensors, exact arithmetic, edges of ones.")
c("C73", "partial", "C73_update_partial C73_bound",
  "Real and complex, exact arithmetic, edges of ones (their default construction is C70). Truncation in the SVD is C86. Left out: updates whose residual is below 1e-15 without being an exact eigenvector of negative energy, for which the claim is false (C54_eigenvector_fails, C54_small_fails).")
c("C74", "partial", "C74_descent_partial",
  "Whole runs, any number of sweeps and any criterion. Same restrictions as C73, for every update of the run; truncation is C87.")

c("C75", "proved", "C75_operator C75_overlap", "For any commutative semiring with conjugation and any abelian group of charges. Contractible dimensions are required section by section, as the code requires. Fuel bounds the loop of tensordot; every large enough fuel gives the same result.")
c("C76", "proved", "C76_effective", "For any given edges that fit; C78 is about the edges the code makes.")
c("C77", "partial", "C77_overlap C77_norm C77_operator C77_fails C77_order_fails", "Full characterisation of what the code computes when the ends have equal dimensions. The property itself fails: the default edge takes its rule from the first element of the inner dimensions, so contract(a,b) is silently 0 when those differ (C77_fails), and contract(a,b,obs) depends on the unspecified order in which arguments are evaluated when the ends of the operator carry charge (C77_order_fails). It holds for a = b.")
c("C78", "partial", "C78_edges C78_effective C78_order_fails", "Holds when the ends of the operator carry no charge or the second argument of shape_from in edge_shape_prep is evaluated before the first; otherwise the edges are zero (C78_order_fails). C++ leaves that order open.")

c("C79", "partial", "C79_split_partial C79_charges C79_empty_fails", "Every conserving tensor that stores a block, without dimensions of size zero, every split with both sides not empty. A tensor that stores no block is undefined behaviour (C79_empty_fails). Premises on the dense SVD are met by the SVD of real and complex matrices (dense_svd_exists). As code: real tensors of torch's default type (C110).")
c("C80", "partial", "C80_outcomes C80_move_oc_partial C80_reject C80_zero_fails", "C80_outcomes: every block chain whose dimensions have sections and no empty ones, zero states included: the property holds unless the state is zero and the center comes to a tensor that stores no block, where the behaviour is undefined (C80_zero_fails). C80_move_oc_partial: every chain with a nonzero amplitude, empty sections allowed. Missing: zero states with empty sections. As code: real tensors of torch's default type (C110).")
c("C81", "partial", "C81_update_partial C81_disjoint_fails C81_empty_fails", "Real and complex, exact arithmetic, every group of charges. Edges as generate_env makes them. Truncation in the SVD is C97. Left out: residuals below 1e-15 as in C73; two-site tensors that share no block with their image, where the energy returned is strictly below that of the state returned (C81_disjoint_fails), and images without blocks, where the update throws (C81_empty_fails). As code: real tensors of torch's default type (C110).")
c("C82", "partial", "C82_descent_partial", "Whole runs, any number of sweeps and any criterion; truncation is C97. Same restrictions as C81, for every update of the run. As code: real tensors of torch's default type (C110).")
c("C83", "proved", "C83_to_bMPO C83_accuracy", "Chains of at least two sites of any group of charges over any linearly ordered field (the norm is compared through its square). One site, where the last assignment overwrites the first, is modelled but not part of the claim.")
c("C84", "partial", "C84_heisenberg_coalesced C84_hubbard_coalesced C84_heisenberg_partial C84_heisenberg_fails C84_small_heisenberg_fails C84_hubbard_partial C84_hubbard_fails C84_small_hubbard_fails", "The property fails: Heisenberg throws for every coupling unless 2 p0 = p1 and 2 p1 = p0, so for the conserved magnetisation; Hubbard throws unless 2 p0 = 0 and p0 + p3 = p1 + p2; couplings between about 1e-8 and 1e-4 throw. For all other charges and couplings the operator is proved to be the Hamiltonian: before the compression over every ordered field (_partial), and compressed by coalesce over the real numbers (_coalesced). Missing: compression for a Heisenberg coupling that is exactly zero with charges, physical shapes with empty sections.")
c("C85", "proved", "C85_split C85_truncated C85_tol C85_empty", "Real and complex, exact arithmetic, two-norm (pow = 2, the default). The dense SVD of a matrix is a parameter with its laws; such a routine exists (denseSvd_exists). Tensors of less than 2^63 entries.")
c("C86", "partial", "C86_update_partial", "Real and complex, exact arithmetic, two-site tensors of less than 2^63 entries; minimum_bond = 0 is allowed with a cutoff below one (C124_zero_fails for the others). Left out: as C73, updates whose residual is below 1e-15 without being an exact eigenvector of negative energy.")
c("C87", "partial", "C87_run_partial C87_energy_partial", "Every update of the run must be one of those of C86; for the bounds on the energies none may reach maximum_bond. Met by the example for every cutoff and limits (Props/CutEx).")
c("C88", "partial", "C88_bmm C88_reject C88_reject_rank C88_empty_fails", "Complete for tensors every dimension of which has an element. The property fails for dimensions without elements: such operands are rejected (C88_empty_fails).")
c("C89", "partial", "C89_squeeze_dim C89_squeeze_partial C89_squeeze_all_fails", "squeeze(dim) is complete for every dimension with a section. squeeze() works exactly when the charges of the dimensions removed add up to zero and throws otherwise; the property fails there (C89_squeeze_all_fails).")
c("C90", "partial", "C90_out_of_place_partial C90_programs_partial C90_add_temporary_fails C90_add_temporary_empty_fails", "Complete for add(const btensor&), mul, copies and assignments. The property fails for add(btensor&&) and sub(btensor&&): the operand *this is overwritten in the blocks it has in common with the temporary, and the sum of two tensors without blocks is undefined behaviour.")
c("C91", "proved", "C91_add_in_place C91_add_unshared C91_add_temporary C91_mul_in_place C91_self_move_fails", "For all histories. The value of a sum is that of C21. C91_self_move_fails: a.add_(std::move(a), alpha) gives alpha*a.")
c("C92", "partial", "C92_allclose_exact_partial C92_allclose_sound C92_allclose_partial C92_allclose_fails C92_different_partial C92_shapes_fails", "True implies close entries, for all tensors. The converse holds for rtol = 0 or when the second tensor stores no block that the first does not; otherwise it fails, because blocks of the second tensor alone are compared with zeros as the reference (C92_allclose_fails). Tensors of different rules, or of different shapes with as many sections in every dimension, are never found close (C92_different_partial); others can be (C92_shapes_fails).")
c("C93", "proved", "C93_add_scalar", "Both the version out of place and in place.")
c("C94", "partial", "C94_scalar_div_fails C94_scalar_div_partial", "False of the code: whenever t stores a block, std::transform writes past the end of an empty list, which is undefined behaviour. Only t without blocks is fine.")
c("C95", "partial", "C95_histories_partial C95_shrink_fails C95_push_back_fails C95_range_fails", "Proved for all programs without the modifiers of std::vector (push_back, pop_back, erase, insert, clear). These break it: they neither check the tensors nor update the center, and after pop_back or erase a move of the center can be undefined behaviour. bMPS(begin,end) leaves its center uninitialised.")
c("C96", "partial", "C96_dmrg_partial C96_run_partial C96_random C96_empty C96_moving C96_three_sites_fails", "Proved for draws whose norm is not below 1e-15 and for runs in which the eigensolver annihilates no two-site tensor (it does not unless that is an eigenvector, C96_moving) and meets, once normalised, the states of C73. Fails in one place: on three sites the energy of the first iteration belongs to a chain that is not normalised and can lie below the spectrum (C96_three_sites_fails).")
c("C97", "partial", "C97_update_partial C97_run_partial C97_energy_partial", "Real and complex, exact arithmetic, every group of charges, every cutoff, minimum and maximum, a minimum of zero only with a cutoff below one and a maximum of at least one. Left out: the updates left out by C81, and truncations after which blocks of removed sections stay behind in U or V (C40_factors_fails; the condition is Spec.Tidy). The chains are canonical apart from elements of a bond that neither of its two sites uses. More elements than the maximum are used if the values tie (C40_ties_fails). As code: real tensors of torch's default type (C110).")
c("C98", "partial", "C98_program_partial C98_one_type C98_read_partial C98_no_type_fails C98_no_type_reached C98_charges_of_a_tensor", "Programs that stay within bounds and do not copy, assign, measure or compare a list without type. Those are default constructed or moved from lists (C98_no_type_reached); copying, assigning and measuring one is undefined and it is not equal to itself (C98_no_type_fails). Iterators are positions; reserve, capacity, and conversion from a std::vector are not modelled.")
c("C99", "partial", "C99_compare_number_partial C99_compare_number_fails C99_functions C99_pow_zero_fails C99_isnan C99_compare_tensors_partial C99_compare_tensors_fails C99_div_partial C99_pow_partial C99_pow_tensor_fails C99_pow_in_place_partial C99_pow_in_place_fails", "sqrt, abs, pow with positive exponent, division by a number and isnan hold at every element, in exact arithmetic. Comparisons hold in stored blocks only: elsewhere the result is false, which C99_compare_number_fails shows to be wrong exactly if zero satisfies the comparison and some element is in no block. Quotients hold where the divisor is not zero and powers where the exponent is positive. Shapes that fit as in C36. pow_ of two tensors is pow unless a has to be repeated along a dimension: it passes its two functions in the wrong order, so that the one block is then raised to all exponents in turn (C99_pow_in_place_fails).")
c("C100", "partial", "C100_sections_partial C100_bad_dimension C100_bad_section_fails C100_debug_fails C100_constructor C100_constructor_arrays C100_charges_fails C100_max_size_partial C100_max_size_fails C100_size_guess C100_refines", "All queries are proved for indices in range. A section index past its dimension returns a section of a later dimension (C100_bad_section_fails), also in debug builds, whose check reads past an array for dimensions without sections (C100_debug_fails). The constructor does not count the charges (C100_charges_fails). A tensor without dimensions counts one block for every rule (C100_max_size_fails).")
c("C101", "partial", "C101_operation_partial C101_histories_partial C101_erase_range_fails C101_bad_position_fails C101_pop_fails C101_slice_center_fails", "Every operation and history agrees with a list except: erase(first,last) throws for every range that is not empty (its check is reversed); erase(len) and pop(p) past the end are undefined; pop() returns nothing; a slice of an MPS has its center at zero. Chains below 2^31 sites.")
c("C102", "partial", "C102_set_block_partial C102_set_block_fails C102_inverse_in_place_fails C102_tensordot_number", "Assignment is proved for values of the rank of the tensor; a value of higher rank is stored if its leading sizes fit, one of lower rank is undefined (C102_set_block_fails). inverse_cvals_ leaves the tensor as it is (C102_inverse_in_place_fails). tensordot with a number is proved entry by entry.")
c("C103", "partial", "C103_stays_partial C103_cold_partial", "Runs that return, with any Hamiltonian made of conserving tensors of total charge zero and ends of charge zero. Partial: every local update must leave the blocks of its truncated factors in order (Orderly; so it does if the truncation keeps a value of the section of the last block of either factor, LastKept.countable, while C40_factors_fails has a truncation that does not) and meet fewer than 2^63 sections. Two-site tensors that share no block with their product make the code undefined, so such runs do not return here (C81_disjoint_fails). As code: real tensors of torch's default type (C110).")
c("C104", "partial", "C104_coalesce_partial C104_empty_fails", "Exact arithmetic, the default cutoff 0. Chains without empty dimensions or sections in which every charge of a bond is reached from the left end by an entry that is not zero; the Hamiltonians of C84 meet this (Props/HamilCut). Missing: chains with charges out of reach, cutoffs above zero (the chain is then not in canonical form when values are discarded, so that the values lost do not bound the error). A chain without tensors is undefined behaviour (C104_empty_fails). As code: real tensors of torch's default type (C110).")
c("C105", "proved", "C105_simple C105_sweeptime", "For every run of C52 that returns, with a move_oc that keeps the number of tensors. Limits of fewer than 2^32 iterations; the number given at the end is that of C52, which is one more than the last iteration when the limit is reached (C52_step_fails).")
c("C106", "partial", "C106_in_place_partial C106_out_partial C106_count_partial C106_count_reject C106_lost C106_in_place_fails C106_out_sizes_fails", "Proved for every implementation of torch's documented contract of reshape (a view when possible, otherwise a copy) and for outputs whose rows and columns are evenly spaced in memory (all row-major outputs: rowMajor_evenly; all matrices: matrix_evenly). Any other output is left as it was without an error: C106_lost, C106_in_place_fails. tensorgdot_out accepts an output of other sizes with as many elements (C106_out_sizes_fails). Inputs share no memory with the output; products of sizes below 2^31 in the version with a number of dimensions.")
c("C107", "partial", "C107_pauli_partial C107_fermions C107_blocks_reject C107_order_fails", "The physical space on one side and its conjugate on the other, exact arithmetic. fermions is complete: it succeeds exactly when the charges of the empty and the doubly occupied state add up to those of the two singly occupied ones. For pauli everything holds but the documented order: the header announces (lowering, Sz, identity), the code returns (Sz, lowering, identity): C107_order_fails.")
c("C108", "partial", "C108_add_partial C108_index_put_partial C108_index_put_bad_partial C108_broadcast_partial C108_pow_partial C108_add_fails C108_index_put_fails C108_mul_fails C108_pow_fails", "Holds for add_ and basic_index_put_ of tensors whose dimensions have the same numbers of sections, for mul_ and div_ when the section sizes fit or the numbers of sections do not, and for pow_ when a is not repeated. It fails where the checks before the change accept what a block then refuses: sections divided otherwise among the dimensions for add_ (a block outside the grid stays in the tensor) and basic_index_put_ (the slice is half written), equal numbers of sections of different sizes for mul_ (the first blocks are multiplied), tensors repeated along larger sections for pow_. Exceptions from allocation are not modelled.")
c("C109", "partial", "C109_shift_partial C109_copy C109_own_exact C109_own_fails", "Holds out of place, and in place for charges outside the shifted dimension, the selection rule included. A section of the shifted dimension is read again after it has moved: C109_own_exact gives the result, C109_own_fails shows that it is not the shift for any charge but the neutral one.")
c("C110", "partial", "C110_svd_exact C110_svd_partial C110_svd_fails C110_cut_partial C110_cut_fails C110_eigh_exact C110_eigh_partial C110_eigh_fails C110_contract_fails", "Holds for tensors with real entries (and, for truncation, a real declared type), in exact arithmetic. The matrices that are factorised are made in torch's default type, which is real: the product of the factors is the real part of the tensor (C110_svd_exact, C110_eigh_exact), which is not the tensor for any complex one; truncation throws invalid_argument for every tensor that declares a complex type (C110_cut_fails); the factors are stored in the default type, and contracting them with a tensor of another type throws (C110_contract_fails). Rounding of double numbers to a default of single precision is not modelled.")
c("C111", "partial", "C111_dense C111_history_partial C111_from_dense_partial C111_stored C111_mul C111_mul_type_partial C111_div_partial C111_div_type_partial C111_add_partial C111_tensordot_partial C111_from_dense_fails C111_mul_type_fails C111_div_fails C111_add_fails C111_add_throws_fails C111_tensordot_fails", "to_dense() gives the entries exactly when the declared type holds them (C111_dense); histories in one element type with numbers of types not above it and no division of integers keep this (C111_history_partial). It fails for values of a higher type than the options (C111_from_dense_fails), quotients of integers (C111_div_fails), sums of tensors of different types, which declare the type of their first block (C111_add_fails) or throw (C111_add_throws_fails), and contractions of different types throw (C111_tensordot_fails). The blocks of a product or quotient are always stored in a type that holds them (C111_stored). Values are exact numbers: overflow and rounding are not modelled, nor are booleans and half precision.")
c("C112", "partial", "C112_heisenberg_partial C112_hubbard_partial C112_spectrum C112_heisenberg_cold_partial C112_hubbard_cold_partial", "C55 and C56 (the tensors are the textbook matrices) joined with C74 and C96 (the search), so that the statement mentions only the matrix over configurations, its eigenvalues and the amplitudes of the states. Partial for the reasons of C73, C74 and C96: every local update of the run must be regular, exact arithmetic. That the lowest eigenvalue is reached is not claimed, it is false of DMRG in general.")
c("C113", "partial", "C113_eigh C113_regrouped C113_eigh_fails C113_rectangular C113_cut_partial C113_kept_fails C113_dropped_fails", "The full decomposition, the error for rectangular matrices and the limits on the number of values hold. A tensor that is not hermitian is not refused: the routine reads one triangle only and what it returns is then never a decomposition of the argument. The tolerance is compared with sums over the eigenvectors (C39): below 1/sqrt n nothing is dropped, from n on everything but the min_size lowest values is, for every tensor. The statements about the tolerance are for pow = 1, the default.")
c("C114", "partial", "C114_program_partial C114_moved_fails C114_moved_reached C114_exchange", "By simulation, for programs of any length. The last sentence is false: copy assignment to a variable that was moved from dereferences a null pointer, only a move or an assignment from a reference is defined; so is any use of its charge except copy and inverse, which take it for the trivial charge. The move assignment exchanges the variables; a product of two moved variables takes only the left one. Assignment between different groups throws although it is documented to work (C06).")
c("C115", "partial", "C115_hubbard_partial C115_heisenberg_partial C115_sector", "C84 and C104 (the block tensors are the textbook matrices, also after coalesce) joined with C82 and C97 (the search) and C91 (charges), so that the statement mentions only the matrix over configurations, charges of configurations and amplitudes. C115_sector: a lowest energy among states of charge q exists whenever some configuration has that charge, and it is a variational bound. Partial for the reasons of C82 and C97: every local update of the run must be one of those these speak of; couplings must be zero or above the threshold of C84; exact arithmetic over the reals.")
c("C116", "partial", "C116_run_partial C116_cold_partial C116_hubbard_partial C116_heisenberg_partial", "The block counterpart of C96, joined with C103 (the charge), C97 (truncated block updates) and C84 with C104 (the library's Hamiltonians). C116_run_partial: a run from any block chain with ends of one element. C116_cold_partial: the public call, whenever the random chain can be drawn (C47, C48). Partial: each update of the run must meet ReadyB: the two-site tensor must not be annihilated by the eigensolver, the truncation must leave no block of a section it removed, and on a normalised canonical pair the update must be one of C54; the energy of the first iteration on three sites is excluded because C96_three_sites_fails shows it can be below the spectrum.")
c("C117", "partial", "C117_dense_partial C117_dense_cut_partial C117_heisenberg_partial C117_block_partial C117_block_cut_partial C117_first_fails C117_zero_fails", "Model of the two convergence criteria (dmrg.cpp:247 relative, dmrg.cpp:310 absolute) put into the sweep loop of C35. Number of sweeps bounded by 2 + (E - lo) / crit; for Heisenberg 2 + (L - 1) |J| / crit. Fails in two cases: the first sweep is compared with 100000, so a run whose first energy is within the criterion of that stops at once (C117_first_fails); the block search divides the change by the energy, so a run whose energy tends to zero, halved by every sweep, makes all the sweeps it may (C117_zero_fails). Partial: for the runs of C74, C82, C87 and C97 (same regularity conditions); the block theorems ask that no logged energy is closer to zero than delta.")
c("C118", "partial", "C118_to C118_kept C118_round_trip C118_no_type_partial C118_no_type_fails C118_python_fails C118_dmrg_exact C118_dmrg_partial C118_dmrg_fails", "Values are complex numbers, as in C111; rounding, devices and gradients are not modelled. The conversions hold. Fails in three places: a tensor without blocks takes the default type when options without a type are given (C118_no_type_fails); the setter of dtype in Python throws its result away (C118_python_fails); dmrg converts every tensor of the Hamiltonian to the type of its first tensor when it ends, also by an exception, so that imaginary parts are lost if the first tensor is real (C118_dmrg_fails). The run itself is an arbitrary function of the two chains. Dense chains have the same guard; the theorems are stated for block tensors.")
c("C119", "partial", "C119_both_partial C119_plain C119_cpp C119_end_fails C119_sweep_fails C119_never_called_fails",
  "Proved for every class that defines both it_log_all and end_log_all, for dmrg_logger itself, and for every class derived in C++ whatever it overrides (C119_cpp). False otherwise for classes derived in Python: log_all of py_default_logger looks for end_log_all in Python and falls back on the C++ end_log_all, which calls log_all again. So a class without end_log_all never returns from a run, whatever the stack (C119_end_fails); a class with end_log_all and no it_log_all has end_log_all called after every sweep (C119_sweep_fails); log_all, log_step, log_energy and log_bond_dims of a class are never called (C119_never_called_fails). Not modelled: methods of the class that call super().")
c("C120", "partial", "C120_cpp_right C120_cpp_left_partial C120_python_tensors C120_python_right_partial C120_python_left_partial C120_cpp_div_fails C120_python_fails C120_python_other_fails",
  "Proved: in C++ every operator that exists, but for x / t (undefined behaviour, C120_cpp_div_fails); in Python two tensors, t * x and the comparisons in both orders. False in Python: x * t, t / x, x / t, t + x, x + t, t - x, x - t raise TypeError for every tensor and number, because the product with a number on the left is registered as __mul__ instead of __rmul__ and the division as __div__, a name Python 3 does not use (C120_python_fails); a product or comparison with another object raises RuntimeError (C120_python_other_fails). The sums and differences with a number do not exist as operators in C++ either (t += x does, C94).")
c("C121", "partial", "C121_values C121_write_partial C121_within C121_separate_fails C121_onsite_fails C121_in_place_fails C121_from_dense_fails",
  "Proved: the values when made, which elements an assignment changes (exactly those made from the same element of the bulk tensor), and that elements of one site are separate. False between sites: all the tensors of a dense Hamiltonian are parts of one tensor, so that for two sites or more they are never separate (C121_separate_fails), a term assigned on one site is on all of them (C121_onsite_fails) and H[0] *= x also multiplies the last row of every other site (C121_in_place_fails). False of from_basic_tensor and from_basic_tensor_like: the block tensor holds slices of the dense tensor and follows it (C121_from_dense_fails). Missing: operations that reshape or copy references, and the block Hamiltonians, whose blocks are slices of the same tensors before coalesce.")
c("C122", "partial", "C122_eigh_partial C122_rule_fails C122_truncated_fails",
  "Proved for operators of neutral rule whose trailing dimensions are the leading ones with opposite charges, that store every block their rule allows, and whose first sections together have a charge q with q + q = 0. For every other q, with a stored block, an exception escapes (C122_rule_fails; the cause is that of C43). With a tolerance or limits the call never returns a decomposition, because the eigenvalues are moved from before they are read (C122_truncated_fails). Missing: operators with an allowed block that is not stored (C67_missing_fails shows a wrong result), first sections without elements.")
c("C123", "partial", "C123_heisenberg_partial C123_hubbard_partial C123_integer_fails C123_least_fails C123_complex_fails C123_complex_partial C123_complex_exact C123_complex_large_fails",
  "Heisenberg: every real coupling and every integer whose opposite exists in its type (the least integer of a type gives the opposite coupling, C123_least_fails); a complex coupling makes tensors of integers, and with a real part between -2 and 2 the Hamiltonian is zero (C123_complex_fails); four times an integer between -63 and 64 is right (C123_complex_partial) and nothing else is (C123_complex_exact), and a real part at most -256 or at least 258, and no other, is undefined behaviour (C123_complex_large_fails). Hubbard: C123_hubbard_partial gives the exact set of arguments for which the result is right (an equivalence): real numbers, and integers for which the on-site energies fit into 8 bits; an integer repulsion of 128 to 255 becomes an attraction (C123_integer_fails). Unsigned, boolean and half precision couplings are not modelled.")
c("C124", "partial", "C124_move C124_limit_partial C124_limit_fails C124_zero_fails C124_defaults C124_given C124_block_partial C124_block_fails",
  "C124_move holds for every chain and target. C124_limit_partial is the claim for minimum_bond at most maximum_bond; C124_limit_fails shows that with a larger minimum every update of a large enough pair gives a bond above maximum_bond, and C124_defaults says which constructors give which case. minimum_bond = 0 is included if the cutoff is below one, otherwise the update throws (C124_zero_fails). C124_block_partial is one update of the block search: the limit holds if no two values at the bond coincide up to the relative precision of the truncation, and is exceeded if the largest value is met more often than the limit; C124_block_fails is an update with both limits 1 that gives a bond of 2. Missing: whole runs of the block search; updates that are not regular (a residual of the Lanczos step below 1e-15).")
c("C125", "partial", "C125_step C125_values C125_sole C125_edit_partial C125_copy_fails C125_to_fails C125_fill_fails",
  "C125_step and C125_values are the first sentence, C125_sole the second for programs without second handles. C125_edit_partial says which sites change in general: those that are handles on the same tensor; C125_copy_fails, C125_to_fails and C125_fill_fails show that copies, conversions of tensors that have the wanted type already and the sites of MPS(n, tensor, oc) are such. Missing: block chains, views of parts of a tensor (C121 has those of the Hamiltonians) and handles kept outside of the chains.")
c("C126", "partial", "C126_full C126_add_partial C126_sub_partial C126_fraction_fails C126_complex_fails",
  "C126_full gives the outcome for all types: the number is converted, and a number with an imaginary part throws for a real type. C126_add_partial and C126_sub_partial hold when the type of the tensor holds c*alpha and all blocks are stored in the declared type. Otherwise the claim fails: a fraction added to integers is cut (C126_fraction_fails), a complex number added to a real tensor throws (C126_complex_fails). Values are exact numbers: overflow and rounding are not modelled; tensors without dimensions are left out.")
c("C127", "partial", "C127_mul C127_div_partial C127_div_complex C127_div_integer_fails C127_mixed_fails",
  "For tensors whose blocks are all stored in the declared type C127_mul is the whole claim on products. C127_div_partial is that on quotients of real and complex tensors, C127_div_complex the case that throws. Quotients of integers always throw (C127_div_integer_fails), and with blocks of several types a product can throw after it has changed some of them (C127_mixed_fails). Values are exact numbers: overflow and rounding are not modelled; division by zero and tensors without dimensions are left out.")
c("C128", "partial", "C128_chains_partial C128_block_chains_partial C128_throw_partial C128_back C128_block_back C128_op C128_range_fails C128_lost_fails C128_block_lost_fails",
  "C128_chains_partial holds for programs without constructions from iterators, which check nothing (C128_range_fails; bMPS leaves the center uninitialised there). C128_throw_partial holds for programs that build no checked chain from a moved train: the train is emptied before the check throws, and another attempt is undefined behaviour (C128_lost_fails, C128_block_lost_fails). Tensors are values here; C125 has the sharing.")
c("C129", "partial", "C129_batched_partial C129_split C129_python_split C129_python_numbers C129_python_refused C129_flags_fails C129_python_flags_fails C129_python_batch_fails",
  "C129_batched_partial holds for calls without flags and flags of the type BOOL. A flag of the type bool is converted to an integer rather than to BOOL: svd(t, some, compute_uv) splits the tensor after zero or one dimensions and truncates with the tolerance zero or one (C129_flags_fails). The functions without split of the Python module pass bool flags, so that svd(t) and eigh(t) in Python never are the batched decompositions (C129_python_flags_fails, C129_python_batch_fails). The overloads for dense tensors are not modelled.")
c("C130", "partial", "C130_product_partial C130_two_steps C130_empty_fails C130_eigh_fails C130_same_object_fails",
  "Proved for three different objects with at least one value in d. False otherwise: the arguments are moved from before the truncation, so a call that raises leaves them without dimensions and blocks (C130_empty_fails: d without blocks, as of a tensor without blocks); truncate(e, S, ...) always raises and empties both (C130_eigh_fails); truncate(U, d, U, ...) reads a tensor that has been moved from, undefined behaviour for all positive values (C130_same_object_fails). Not modelled: complex factors, and arguments that are not tensors or numbers.")
c("C131", "partial", "C131_chain_partial C131_each C131_lost_fails C131_shift_fails",
  "Proved for chains that start with any number of t_ followed by one method of any kind and then methods that change every element. False otherwise: all the methods but t_ return a copy, which shares the elements but not the sections, the rule and the arrangement. After such a method every later permute_, transpose_, cval_shift_ or t_ of the chain leaves the tensor as it was (C131_lost_fails, C131_shift_fails). Not modelled: methods with another tensor as argument, squeeze_, and the methods that set the selection rule.")
